import Verif.Lemmas.Separable
import Verif.Spec.ConstantCoupling
import Mathlib.LinearAlgebra.Matrix.Kronecker
import Mathlib.MeasureTheory.Measure.Lebesgue.EqHaar

set_option autoImplicit false
set_option linter.unusedSectionVars false

/-! The discretised partition function of oscillators whose modes are mixed. -/
namespace Pibronic.PIMC
open Finset Spec.PIMC MeasureTheory Filter Topology

/-! ### one mode -/

section
variable {P : ℕ} [NeZero P]

theorem cosh_two_arsinh (x : ℝ) (hx : 0 ≤ x) : 2 * Real.cosh (2 * Real.arsinh (Real.sqrt x / 2)) - 2 = x := by
  rw [Real.cosh_two_mul, Real.cosh_sq, Real.sinh_arsinh, div_pow, Real.sq_sqrt hx]
  ring

/-- The integral over a closed chain of points with springs of unit strength between neighbours, each held by a spring of
strength `μ`. -/
theorem chain_one (hP : 3 ≤ P) (μ : ℝ) (hμ : 0 < μ) :
    ∫ x : Fin P → ℝ, Real.exp (-(1 / 2) * ∑ p, (μ * x p ^ 2 + (x p - x (p + 1)) ^ 2))
      = Real.sqrt (2 * Real.pi) ^ P * (2 * Real.sinh (P * Real.arsinh (Real.sqrt μ / 2)))⁻¹ := by
  set θ := 2 * Real.arsinh (Real.sqrt μ / 2) with hθd
  have hθ : 0 < θ := mul_pos two_pos (Real.arsinh_pos_iff.mpr (half_pos (Real.sqrt_pos.mpr hμ)))
  have hsh : 0 < Real.sinh θ := Real.sinh_pos_iff.mpr hθ
  have hμθ : 2 * Real.cosh θ - 2 = μ := cosh_two_arsinh μ hμ.le
  have hm := mode_integral hP 1 θ 0 0 θ (by rwa [one_mul])
    (by rw [add_zero, one_mul]; exact mul_pos two_pos (tanh_pos (half_pos hθ))) hθ (by simp)
  have hS := Real.sqrt_pos.mpr hsh
  have hpt : ∀ x : Fin P → ℝ, Real.exp (-(1 / 2) * ∑ p, (μ * x p ^ 2 + (x p - x (p + 1)) ^ 2))
      = Real.sqrt (Real.sinh θ) ^ P * (fun x : Fin P → ℝ => ∏ p, (propagator 1 θ (x p - 0) (x (p + 1) - 0)
        * Real.exp (-(0 / 2) * x p ^ 2))) (Real.sqrt (Real.sinh θ) • x) := by
    intro x
    have h3 : ∑ p, x (p + 1) ^ 2 = ∑ p, x p ^ 2 :=
      Fintype.sum_equiv (Equiv.addRight 1) _ _ fun _ => rfl
    have e : ∀ p, -(((Real.sqrt (Real.sinh θ) * x p) ^ 2 + (Real.sqrt (Real.sinh θ) * x (p + 1)) ^ 2) * Real.cosh θ
        - 2 * (Real.sqrt (Real.sinh θ) * x p) * (Real.sqrt (Real.sinh θ) * x (p + 1))) / (2 * Real.sinh θ)
        = -(Real.cosh θ / 2) * x p ^ 2 + -(Real.cosh θ / 2) * x (p + 1) ^ 2 + x p * x (p + 1) := by
      intro p
      have hsq := Real.sq_sqrt hsh.le
      rw [div_eq_iff (by positivity)]
      linear_combination (-(x p ^ 2 + x (p + 1) ^ 2) * Real.cosh θ + 2 * x p * x (p + 1)) * hsq
    simp only [propagator, sub_zero, zero_div, neg_zero, zero_mul, Real.exp_zero, mul_one, Pi.smul_apply, smul_eq_mul,
      one_mul, prod_div_distrib, prod_const, card_univ, Fintype.card_fin]
    rw [mul_div_cancel₀ _ (pow_pos hS P).ne', ← Real.exp_sum]
    congr 1
    simp only [e, sum_add_distrib, ← mul_sum, h3]
    have e2 : ∀ p, (x p - x (p + 1)) ^ 2 = x p ^ 2 + -2 * (x p * x (p + 1)) + x (p + 1) ^ 2 := fun p => by ring
    simp only [e2, sum_add_distrib, ← mul_sum, h3]
    rw [← hμθ]
    ring
  simp only [hpt]
  have hsc := Measure.integral_comp_smul (volume : Measure (Fin P → ℝ)) (fun x : Fin P → ℝ =>
    ∏ p, (propagator 1 θ (x p - 0) (x (p + 1) - 0) * Real.exp (-(0 / 2) * x p ^ 2))) (Real.sqrt (Real.sinh θ))
  beta_reduce at hsc
  rw [integral_const_mul, hsc, hm, Module.finrank_fin_fun, abs_of_pos (by positivity), smul_eq_mul]
  have e1 : (P : ℝ) * θ / 2 = P * Real.arsinh (Real.sqrt μ / 2) := by rw [hθd]; ring
  rw [e1]
  have := (pow_pos hS P).ne'
  simp only [ne_eq, OfNat.ofNat_ne_zero, not_false_eq_true, zero_pow, zero_mul, mul_zero, neg_zero, Real.exp_zero, mul_one]
  field_simp

end

/-! ### linear changes of the modes -/

section
variable {N P : ℕ}

/-- The same linear map of the modes at every bead. -/
def modeMap (P : ℕ) (W : Matrix (Fin N) (Fin N) ℝ) : BeadPath N P →ₗ[ℝ] BeadPath N P where
  toFun u := fun i p => ∑ j, W i j * u j p
  map_add' u v := by funext i p; simp [mul_add, sum_add_distrib]
  map_smul' c u := by
    funext i p
    simp only [Pi.smul_apply, smul_eq_mul, RingHom.id_apply, mul_sum]
    exact sum_congr rfl fun j _ => by ring

open Kronecker in
theorem det_modeMap (W : Matrix (Fin N) (Fin N) ℝ) : LinearMap.det (modeMap P W) = W.det ^ P := by
  have h := LinearMap.det_conj (modeMap P W) (LinearEquiv.curry ℝ ℝ (Fin N) (Fin P)).symm
  have e : ((LinearEquiv.curry ℝ ℝ (Fin N) (Fin P)).symm : BeadPath N P →ₗ[ℝ] _) ∘ₗ modeMap P W
      ∘ₗ ((LinearEquiv.curry ℝ ℝ (Fin N) (Fin P)).symm.symm : _ →ₗ[ℝ] BeadPath N P)
      = Matrix.toLin' (W ⊗ₖ (1 : Matrix (Fin P) (Fin P) ℝ)) := by
    refine LinearMap.ext fun u => funext fun ip => ?_
    obtain ⟨i, p⟩ := ip
    simp only [LinearMap.comp_apply, LinearEquiv.coe_coe, LinearEquiv.symm_symm, Matrix.toLin'_apply, Matrix.mulVec,
      dotProduct, Fintype.sum_prod_type, Matrix.kroneckerMap_apply, Matrix.one_apply, mul_ite, mul_one, mul_zero,
      ite_mul, zero_mul, sum_ite_eq, mem_univ, if_true]
    rfl
  rw [e, LinearMap.det_toLin', Matrix.det_kronecker, Matrix.det_one, one_pow, mul_one, Fintype.card_fin] at h
  exact h.symm

theorem map_modeMap (W : Matrix (Fin N) (Fin N) ℝ) (hW : W.det ≠ 0) :
    Measure.map (modeMap P W) volume = ENNReal.ofReal |(W.det ^ P)⁻¹| • (volume : Measure (BeadPath N P)) := by
  have h := Measure.map_linearMap_addHaar_eq_smul_addHaar (volume : Measure (BeadPath N P)) (f := modeMap P W)
    (by rw [det_modeMap]; exact pow_ne_zero _ hW)
  rwa [det_modeMap] at h

theorem continuous_modeMap (W : Matrix (Fin N) (Fin N) ℝ) : Continuous (modeMap P W) :=
  LinearMap.continuous_of_finiteDimensional _

theorem integral_modeMap (W : Matrix (Fin N) (Fin N) ℝ) (hW : W.det ≠ 0) (f : BeadPath N P → ℝ) (hf : Continuous f) :
    ∫ R, f R = |W.det| ^ P * ∫ u, f (modeMap P W u) := by
  have h := integral_map (μ := (volume : Measure (BeadPath N P))) (continuous_modeMap W).measurable.aemeasurable
    (f := f) hf.aestronglyMeasurable
  rw [map_modeMap W hW, integral_smul_measure, ENNReal.toReal_ofReal (abs_nonneg _), smul_eq_mul] at h
  rw [← h, ← mul_assoc, abs_inv, abs_pow, mul_inv_cancel₀ (pow_ne_zero _ (abs_ne_zero.mpr hW)), one_mul]

theorem integrable_modeMap (W : Matrix (Fin N) (Fin N) ℝ) (hW : W.det ≠ 0) (f : BeadPath N P → ℝ) (hf : Continuous f)
    (h : Integrable fun u => f (modeMap P W u)) : Integrable f := by
  have h2 := (integrable_map_measure (μ := (volume : Measure (BeadPath N P))) (f := modeMap P W) (g := f)
    hf.aestronglyMeasurable (continuous_modeMap W).measurable.aemeasurable).mpr h
  rw [map_modeMap W hW] at h2
  have hc : (0 : ℝ) < |(W.det ^ P)⁻¹| := abs_pos.mpr (inv_ne_zero (pow_ne_zero _ hW))
  exact (integrable_smul_measure (ENNReal.ofReal_pos.mpr hc).ne' ENNReal.ofReal_ne_top).mp h2

end

/-! ### chains of points in several dimensions -/

section
variable {N P : ℕ} [NeZero P]

/-- The quadratic form of a matrix. -/
def quad (M : Matrix (Fin N) (Fin N) ℝ) (x : Fin N → ℝ) : ℝ := ∑ i, ∑ j, x i * M i j * x j

/-- A closed chain of points with springs of unit strength between neighbours, each held by the springs `M`. -/
noncomputable def chain (M : Matrix (Fin N) (Fin N) ℝ) (R : BeadPath N P) : ℝ :=
  Real.exp (-(1 / 2) * ∑ p, (quad M (fun i => R i p) + ∑ i, (R i p - R i (p + 1)) ^ 2))

theorem continuous_chain (M : Matrix (Fin N) (Fin N) ℝ) : Continuous (chain (P := P) M) := by
  unfold chain quad; fun_prop

theorem quad_diag (V : Matrix (Fin N) (Fin N) ℝ) (μ : Fin N → ℝ) (x : Fin N → ℝ) :
    quad (V * Matrix.diagonal μ * V.transpose) x = ∑ k, μ k * (∑ i, V i k * x i) ^ 2 :=
  diag_form _ V μ rfl x

theorem chain_modeMap (V : Matrix (Fin N) (Fin N) ℝ) (hV : V.transpose * V = 1) (μ : Fin N → ℝ) (u : BeadPath N P) :
    chain (V * Matrix.diagonal μ * V.transpose) (modeMap P V u)
      = ∏ i, Real.exp (-(1 / 2) * ∑ p, (μ i * u i p ^ 2 + (u i p - u i (p + 1)) ^ 2)) := by
  have hu : ∀ (x : Fin N → ℝ) k, ∑ i, V i k * (∑ j, V i j * x j) = x k := by
    intro x k
    have : (V.transpose).mulVec (V.mulVec x) = x := by rw [Matrix.mulVec_mulVec, hV, Matrix.one_mulVec]
    have := congrFun this k
    simpa [Matrix.mulVec, dotProduct] using this
  have hd : ∀ x : Fin N → ℝ, ∑ i, (∑ j, V i j * x j) ^ 2 = ∑ i, x i ^ 2 := by
    intro x
    have h := ortho_form V hV (fun i => ∑ j, V i j * x j)
    simp only [hu] at h
    exact h.symm
  unfold chain
  simp only [quad_diag]
  rw [← Real.exp_sum, ← mul_sum, Finset.sum_comm (s := univ (α := Fin N))]
  congr 2
  refine sum_congr rfl fun p _ => ?_
  rw [sum_add_distrib]
  congr 1
  · refine sum_congr rfl fun k _ => ?_
    have := hu (fun j => u j p) k
    simp only [modeMap, LinearMap.coe_mk, AddHom.coe_mk]
    rw [this]
  · have := hd (fun j => u j p - u j (p + 1))
    rw [← this]
    refine sum_congr rfl fun i _ => ?_
    simp only [modeMap, LinearMap.coe_mk, AddHom.coe_mk, mul_sub, sum_sub_distrib]

theorem ortho_det (V : Matrix (Fin N) (Fin N) ℝ) (hV : V.transpose * V = 1) : |V.det| = 1 := by
  have h := congrArg Matrix.det hV
  rw [Matrix.det_mul, Matrix.det_transpose, Matrix.det_one] at h
  rcases mul_self_eq_one_iff.mp h with h | h <;> simp [h]

theorem chain_integral (hP : 3 ≤ P) (V : Matrix (Fin N) (Fin N) ℝ) (hV : V.transpose * V = 1) (μ : Fin N → ℝ)
    (hμ : ∀ i, 0 < μ i) :
    Integrable (chain (P := P) (V * Matrix.diagonal μ * V.transpose)) ∧
    ∫ R : BeadPath N P, chain (V * Matrix.diagonal μ * V.transpose) R
      = Real.sqrt (2 * Real.pi) ^ (N * P) * ∏ i, (2 * Real.sinh (P * Real.arsinh (Real.sqrt (μ i) / 2)))⁻¹ := by
  have hdet := ortho_det V hV
  have hne : V.det ≠ 0 := by intro h; simp [h] at hdet
  have h1 : ∫ R : BeadPath N P, chain (V * Matrix.diagonal μ * V.transpose) R
      = Real.sqrt (2 * Real.pi) ^ (N * P) * ∏ i, (2 * Real.sinh (P * Real.arsinh (Real.sqrt (μ i) / 2)))⁻¹ := by
    rw [integral_modeMap V hne _ (continuous_chain _), hdet, one_pow, one_mul]
    simp only [chain_modeMap V hV]
    rw [integral_fintype_prod_volume_eq_prod (fun i (x : Fin P → ℝ) =>
      Real.exp (-(1 / 2) * ∑ p, (μ i * x p ^ 2 + (x p - x (p + 1)) ^ 2)))]
    simp only [chain_one hP _ (hμ _)]
    rw [prod_mul_distrib, prod_const, card_univ, Fintype.card_fin, ← pow_mul, mul_comm P N]
  refine ⟨Integrable.of_integral_ne_zero ?_, h1⟩
  rw [h1]
  have hP0 : (0 : ℝ) < P := by exact_mod_cast Nat.pos_of_ne_zero (NeZero.ne P)
  have hpi : (0 : ℝ) < Real.sqrt (2 * Real.pi) := Real.sqrt_pos.mpr (by positivity)
  refine (mul_pos (pow_pos hpi _) (prod_pos fun i _ => inv_pos.mpr (mul_pos two_pos (Real.sinh_pos_iff.mpr
    (mul_pos hP0 (Real.arsinh_pos_iff.mpr (half_pos (Real.sqrt_pos.mpr (hμ i))))))))).ne'

/-- A stiffer chain has the smaller integrand. -/
theorem chain_le (M M' : Matrix (Fin N) (Fin N) ℝ) (h : ∀ x, quad M x ≤ quad M' x) (R : BeadPath N P) :
    chain M' R ≤ chain M R := by
  unfold chain
  rw [Real.exp_le_exp]
  have : ∑ p, (quad M (fun i => R i p) + ∑ i, (R i p - R i (p + 1)) ^ 2)
      ≤ ∑ p, (quad M' (fun i => R i p) + ∑ i, (R i p - R i (p + 1)) ^ 2) :=
    sum_le_sum fun p _ => by linarith [h fun i => R i p]
  linarith

theorem chain_integrable (M M' : Matrix (Fin N) (Fin N) ℝ) (h : ∀ x, quad M x ≤ quad M' x)
    (hM : Integrable (chain (P := P) M)) : Integrable (chain (P := P) M') := by
  refine hM.mono' (continuous_chain M').aestronglyMeasurable (Eventually.of_forall fun R => ?_)
  rw [Real.norm_eq_abs, abs_of_pos (by unfold chain; exact Real.exp_pos _)]
  exact chain_le M M' h R

end

/-! ### the limit of many beads -/

section
variable {N : ℕ}

theorem quad_near (F : Matrix (Fin N) (Fin N) ℝ) (δ : ℝ) (D : Matrix (Fin N) (Fin N) ℝ) (hD : ∀ i j, |D i j - F i j| ≤ δ)
    (x : Fin N → ℝ) : |quad D x - quad F x| ≤ δ * N * ∑ i, x i ^ 2 := by
  have h1 : quad D x - quad F x = ∑ i, ∑ j, x i * (D i j - F i j) * x j := by
    unfold quad
    rw [← sum_sub_distrib]
    refine sum_congr rfl fun i _ => ?_
    rw [← sum_sub_distrib]
    exact sum_congr rfl fun j _ => by ring
  rw [h1]
  have h2 : ∀ i j, |x i * (D i j - F i j) * x j| ≤ δ * ((x i ^ 2 + x j ^ 2) / 2) := by
    intro i j
    rw [abs_mul, abs_mul]
    have h3 : |x i| * |x j| ≤ (x i ^ 2 + x j ^ 2) / 2 := by
      have := sq_nonneg (|x i| - |x j|)
      have e1 := sq_abs (x i)
      have e2 := sq_abs (x j)
      nlinarith
    calc |x i| * |D i j - F i j| * |x j| = |D i j - F i j| * (|x i| * |x j|) := by ring
      _ ≤ δ * ((x i ^ 2 + x j ^ 2) / 2) :=
        mul_le_mul (hD i j) h3 (by positivity) ((abs_nonneg _).trans (hD i j))
  refine (abs_sum_le_sum_abs _ _).trans ((sum_le_sum fun i _ => (abs_sum_le_sum_abs _ _).trans
    (sum_le_sum fun j _ => h2 i j)).trans (le_of_eq ?_))
  simp only [← mul_sum, ← sum_div, sum_add_distrib, sum_const, card_univ, Fintype.card_fin, nsmul_eq_mul]
  ring

/-- Matrices near a positive definite one are between its multiples. -/
theorem quad_between (V : Matrix (Fin N) (Fin N) ℝ) (hV : V.transpose * V = 1) (μ : Fin N → ℝ) (hμ : ∀ i, 0 < μ i)
    (M : ℕ → Matrix (Fin N) (Fin N) ℝ)
    (hM : ∀ i j, Tendsto (fun n => M n i j) atTop (𝓝 ((V * Matrix.diagonal μ * V.transpose) i j))) (ε : ℝ) (hε : 0 < ε) :
    ∀ᶠ n in atTop, ∀ x, (1 - ε) * quad (V * Matrix.diagonal μ * V.transpose) x ≤ quad (M n) x ∧
      quad (M n) x ≤ (1 + ε) * quad (V * Matrix.diagonal μ * V.transpose) x := by
  obtain ⟨c, hc0, hc⟩ : ∃ c, 0 < c ∧ ∀ i, c ≤ μ i := by
    rcases isEmpty_or_nonempty (Fin N) with h | h
    · exact ⟨1, one_pos, fun i => h.elim i⟩
    · obtain ⟨i, hi⟩ := Finite.exists_min μ
      exact ⟨μ i, hμ i, hi⟩
  have hlow : ∀ x, c * ∑ i, x i ^ 2 ≤ quad (V * Matrix.diagonal μ * V.transpose) x := by
    intro x
    rw [quad_diag, ← ortho_form V hV x, mul_sum]
    exact sum_le_sum fun k _ => mul_le_mul_of_nonneg_right (hc k) (sq_nonneg _)
  set δ := ε * c / (N + 1) with hδ
  have hδ0 : 0 < δ := by positivity
  have hev : ∀ᶠ n in atTop, ∀ i j, |M n i j - (V * Matrix.diagonal μ * V.transpose) i j| ≤ δ := by
    refine eventually_all.mpr fun i => eventually_all.mpr fun j => ?_
    obtain ⟨n₀, h⟩ := Metric.tendsto_atTop.mp (hM i j) δ hδ0
    exact eventually_atTop.mpr ⟨n₀, fun n hn => by have := h n hn; rw [Real.dist_eq] at this; exact this.le⟩
  filter_upwards [hev] with n hn x
  have h1 := abs_le.mp (quad_near _ δ (M n) hn x)
  have h2 := hlow x
  have h3 : 0 ≤ ∑ i, x i ^ 2 := sum_nonneg fun _ _ => sq_nonneg _
  have h4 : δ * N ≤ ε * c := by
    rw [hδ, div_mul_eq_mul_div, div_le_iff₀ (by positivity)]
    have : 0 < ε * c := by positivity
    nlinarith
  have h5 := mul_le_mul_of_nonneg_right h4 h3
  have h6 := mul_le_mul_of_nonneg_left h2 hε.le
  constructor
  · nlinarith [h1.1]
  · nlinarith [h1.2]

theorem tendsto_nat_mul_arsinh (c : ℝ) : Tendsto (fun n : ℕ => n * Real.arsinh (c / n)) atTop (𝓝 c) := by
  have hd := Real.hasDerivAt_arsinh 0
  simpa using tendsto_nat_mul _ 1 c Real.arsinh_zero (by simpa using hd) _ (tendsto_div_nat c) (tendsto_nat_mul_div c)

/-- The integral over a chain of `n` points, per factor `sqrt (2 pi)`. -/
noncomputable def chainZ (M : Matrix (Fin N) (Fin N) ℝ) : ℕ → ℝ
  | 0 => 0
  | n + 1 => (∫ R : BeadPath N (n + 1), chain M R) / Real.sqrt (2 * Real.pi) ^ (N * (n + 1))

theorem chainZ_eq (M : Matrix (Fin N) (Fin N) ℝ) (P : ℕ) [NeZero P] :
    chainZ M P = (∫ R : BeadPath N P, chain M R) / Real.sqrt (2 * Real.pi) ^ (N * P) := by
  obtain ⟨n, rfl⟩ := Nat.exists_eq_succ_of_ne_zero (NeZero.ne P)
  rfl

theorem chainZ_diag (V : Matrix (Fin N) (Fin N) ℝ) (hV : V.transpose * V = 1) (μ : Fin N → ℝ) (hμ : ∀ i, 0 < μ i)
    (a : ℝ) (ha : 0 < a) (n : ℕ) (hn : 3 ≤ n) :
    chainZ (V * Matrix.diagonal (fun i => a / n ^ 2 * μ i) * V.transpose) n
      = ∏ i, (2 * Real.sinh (n * Real.arsinh (Real.sqrt (a * μ i) / 2 / n)))⁻¹ := by
  have : NeZero n := ⟨by omega⟩
  have hn0 : (0 : ℝ) < n := by exact_mod_cast (by omega : 0 < n)
  rw [chainZ_eq, (chain_integral hn V hV (fun i => a / n ^ 2 * μ i) fun i => by have := hμ i; positivity).2]
  have hpi : (0 : ℝ) < Real.sqrt (2 * Real.pi) := Real.sqrt_pos.mpr (by positivity)
  rw [mul_div_cancel_left₀ _ (pow_pos hpi _).ne']
  refine prod_congr rfl fun i _ => ?_
  have : Real.sqrt (a / n ^ 2 * μ i) = Real.sqrt (a * μ i) / n := by
    rw [div_mul_eq_mul_div, Real.sqrt_div (by have := hμ i; positivity), Real.sqrt_sq hn0.le]
  rw [this, div_right_comm]

theorem tendsto_chainFactor (μ : Fin N → ℝ) (hμ : ∀ i, 0 < μ i) (a : ℝ) (ha : 0 < a) :
    Tendsto (fun n : ℕ => ∏ i, (2 * Real.sinh (n * Real.arsinh (Real.sqrt (a * μ i) / 2 / n)))⁻¹) atTop
      (𝓝 (∏ i, (2 * Real.sinh (Real.sqrt (a * μ i) / 2))⁻¹)) := by
  refine tendsto_finsetProd _ fun i _ => ?_
  have h := ((Real.continuous_sinh.tendsto _).comp (tendsto_nat_mul_arsinh (Real.sqrt (a * μ i) / 2))).const_mul 2
  have hS : 0 < Real.sinh (Real.sqrt (a * μ i) / 2) :=
    Real.sinh_pos_iff.mpr (half_pos (Real.sqrt_pos.mpr (mul_pos ha (hμ i))))
  exact h.inv₀ (by positivity)

theorem continuousAt_chainFactor (μ : Fin N → ℝ) (hμ : ∀ i, 0 < μ i) :
    ContinuousAt (fun a : ℝ => ∏ i, (2 * Real.sinh (Real.sqrt (a * μ i) / 2))⁻¹) 1 := by
  refine tendsto_finsetProd _ fun i _ => ?_
  have hS : 0 < Real.sinh (Real.sqrt (1 * μ i) / 2) :=
    Real.sinh_pos_iff.mpr (half_pos (Real.sqrt_pos.mpr (mul_pos one_pos (hμ i))))
  have hc : Continuous fun a : ℝ => 2 * Real.sinh (Real.sqrt (a * μ i) / 2) := by fun_prop
  exact (hc.tendsto 1).inv₀ (by positivity)

theorem quad_smul (c : ℝ) (M : Matrix (Fin N) (Fin N) ℝ) (x : Fin N → ℝ) : quad (c • M) x = c * quad M x := by
  unfold quad
  simp only [mul_sum, Matrix.smul_apply, smul_eq_mul]
  exact sum_congr rfl fun i _ => sum_congr rfl fun j _ => by ring

theorem smul_diag (V : Matrix (Fin N) (Fin N) ℝ) (μ : Fin N → ℝ) (c : ℝ) :
    V * Matrix.diagonal (fun i => c * μ i) * V.transpose = c • (V * Matrix.diagonal μ * V.transpose) := by
  have : Matrix.diagonal (fun i => c * μ i) = c • Matrix.diagonal μ := by
    rw [← Matrix.diagonal_smul]; rfl
  rw [this, Matrix.mul_smul, Matrix.smul_mul]

/-- The integral over the chain when the springs `M n` are near `V μ Vᵀ / n ^ 2`. -/
theorem tendsto_chainZ (V : Matrix (Fin N) (Fin N) ℝ) (hV : V.transpose * V = 1) (μ : Fin N → ℝ) (hμ : ∀ i, 0 < μ i)
    (M : ℕ → Matrix (Fin N) (Fin N) ℝ)
    (hM : ∀ i j, Tendsto (fun n : ℕ => (n : ℝ) ^ 2 * M n i j) atTop (𝓝 ((V * Matrix.diagonal μ * V.transpose) i j))) :
    (∀ᶠ n : ℕ in atTop, ∀ [NeZero n], Integrable (chain (P := n) (M n))) ∧
    Tendsto (fun n => chainZ (M n) n) atTop (𝓝 (∏ i, (2 * Real.sinh (Real.sqrt (μ i) / 2))⁻¹)) := by
  have hbet := quad_between V hV μ hμ (fun n => (n : ℝ) ^ 2 • M n) hM
  have hpi : (0 : ℝ) < Real.sqrt (2 * Real.pi) := Real.sqrt_pos.mpr (by positivity)
  -- the bounds for the matrices themselves
  have hb2 : ∀ ε : ℝ, 0 < ε → ∀ᶠ n : ℕ in atTop, 3 ≤ n ∧ ∀ x,
      quad (V * Matrix.diagonal (fun i => (1 - ε) / (n : ℝ) ^ 2 * μ i) * V.transpose) x ≤ quad (M n) x ∧
      quad (M n) x ≤ quad (V * Matrix.diagonal (fun i => (1 + ε) / (n : ℝ) ^ 2 * μ i) * V.transpose) x := by
    intro ε hε
    filter_upwards [hbet ε hε, eventually_ge_atTop 3] with n hn h3
    refine ⟨h3, fun x => ?_⟩
    have hn0 : (0 : ℝ) < n := by exact_mod_cast (by omega : 0 < n)
    have hn2 : (0 : ℝ) < (n : ℝ) ^ 2 := by positivity
    obtain ⟨h1, h2⟩ := hn x
    rw [quad_smul] at h1 h2
    rw [smul_diag, smul_diag, quad_smul, quad_smul, div_mul_eq_mul_div, div_mul_eq_mul_div, div_le_iff₀ hn2, le_div_iff₀ hn2]
    constructor <;> linarith
  have hint : ∀ ε : ℝ, 0 < ε → ε < 1 → ∀ᶠ n : ℕ in atTop, ∀ [NeZero n], Integrable (chain (P := n) (M n)) := by
    intro ε hε h1
    filter_upwards [hb2 ε hε] with n hn hne
    have hn0 : (0 : ℝ) < n := by exact_mod_cast (by omega : 0 < n)
    exact chain_integrable _ _ (fun x => (hn.2 x).1) (chain_integral hn.1 V hV _ fun i =>
      mul_pos (div_pos (by linarith) (by positivity)) (hμ i)).1
  refine ⟨hint (1 / 2) (by norm_num) (by norm_num), ?_⟩
  have hlow : ∀ ε : ℝ, 0 < ε → ε < 1 → ∀ᶠ n : ℕ in atTop,
      chainZ (V * Matrix.diagonal (fun i => (1 + ε) / (n : ℝ) ^ 2 * μ i) * V.transpose) n ≤ chainZ (M n) n ∧
      chainZ (M n) n ≤ chainZ (V * Matrix.diagonal (fun i => (1 - ε) / (n : ℝ) ^ 2 * μ i) * V.transpose) n := by
    intro ε hε h1
    filter_upwards [hb2 ε hε, hint ε hε h1] with n hn hi
    have : NeZero n := ⟨by omega⟩
    have hn0 : (0 : ℝ) < n := by exact_mod_cast (by omega : 0 < n)
    rw [chainZ_eq, chainZ_eq, chainZ_eq]
    constructor
    · refine div_le_div_of_nonneg_right (integral_mono (chain_integral hn.1 V hV _ fun i =>
        mul_pos (div_pos (by linarith) (by positivity)) (hμ i)).1 hi fun R => ?_) (pow_pos hpi _).le
      exact chain_le _ _ (fun x => (hn.2 x).2) R
    · refine div_le_div_of_nonneg_right (integral_mono hi (chain_integral hn.1 V hV _ fun i =>
        mul_pos (div_pos (by linarith) (by positivity)) (hμ i)).1 fun R => ?_) (pow_pos hpi _).le
      exact chain_le _ _ (fun x => (hn.2 x).1) R
  have hcont := continuousAt_chainFactor μ hμ
  have hone : (∏ i, (2 * Real.sinh (Real.sqrt (μ i) / 2))⁻¹) = ∏ i, (2 * Real.sinh (Real.sqrt (1 * μ i) / 2))⁻¹ := by
    simp only [one_mul]
  rw [hone]
  refine tendsto_order.2 ⟨fun b hb => ?_, fun b hb => ?_⟩
  · obtain ⟨r, hr, hball⟩ := Metric.eventually_nhds_iff.mp ((tendsto_order.1 hcont).1 b hb)
    set ε := min (r / 2) (1 / 2) with hεd
    have hε : 0 < ε := lt_min (half_pos hr) (by norm_num)
    have hε1 : ε < 1 := (min_le_right _ _).trans_lt (by norm_num)
    have hεr : ε < r := (min_le_left _ _).trans_lt (half_lt_self hr)
    have hbε := hball (y := 1 + ε) (by rw [Real.dist_eq, add_sub_cancel_left, abs_of_pos hε]; exact hεr)
    filter_upwards [hlow ε hε hε1, (tendsto_order.1 (tendsto_chainFactor μ hμ (1 + ε) (by linarith))).1 b hbε,
      eventually_ge_atTop 3] with n h1 h2 h3
    rw [chainZ_diag V hV μ hμ (1 + ε) (by linarith) n h3] at h1
    exact h2.trans_le h1.1
  · obtain ⟨r, hr, hball⟩ := Metric.eventually_nhds_iff.mp ((tendsto_order.1 hcont).2 b hb)
    set ε := min (r / 2) (1 / 2) with hεd
    have hε : 0 < ε := lt_min (half_pos hr) (by norm_num)
    have hε1 : ε < 1 := (min_le_right _ _).trans_lt (by norm_num)
    have hεr : ε < r := (min_le_left _ _).trans_lt (half_lt_self hr)
    have hbε := hball (y := 1 - ε) (by
      rw [Real.dist_eq, sub_sub_cancel_left, abs_neg, abs_of_pos hε]; exact hεr)
    filter_upwards [hlow ε hε hε1, (tendsto_order.1 (tendsto_chainFactor μ hμ (1 - ε) (by linarith))).2 b hbε,
      eventually_ge_atTop 3] with n h1 h2 h3
    rw [chainZ_diag V hV μ hμ (1 - ε) (by linarith) n h3] at h1
    exact h1.2.trans_lt h2

end

/-! ### from propagators to chains -/

section
variable {N P : ℕ} [NeZero P]

/-- The closed product of the propagators of the oscillators with linear terms `l` and frequencies `w`, with the
quadratic terms `G` at every bead. -/
noncomputable def mixed (t : ℝ) (w l : Fin N → ℝ) (G : Matrix (Fin N) (Fin N) ℝ) (R : BeadPath N P) : ℝ :=
  ∏ p, ((∏ i, propagator t (w i) (R i p - -l i / w i) (R i (p + 1) - -l i / w i))
    * Real.exp (-(t / 2) * quad G (fun i => R i p)))

/-- The springs that hold every bead. -/
noncomputable def stiffness (t : ℝ) (w : Fin N → ℝ) (G : Matrix (Fin N) (Fin N) ℝ) : Matrix (Fin N) (Fin N) ℝ :=
  fun i j => (if i = j then 2 * Real.tanh (t * w i / 2) else 0) + t * G i j

/-- The same with unit springs between the beads. -/
noncomputable def scaledStiffness (t : ℝ) (w : Fin N → ℝ) (G : Matrix (Fin N) (Fin N) ℝ) : Matrix (Fin N) (Fin N) ℝ :=
  fun i j => Real.sqrt (Real.sinh (t * w i)) * stiffness t w G i j * Real.sqrt (Real.sinh (t * w j))

theorem quad_stiffness (t : ℝ) (w : Fin N → ℝ) (G : Matrix (Fin N) (Fin N) ℝ) (x : Fin N → ℝ) :
    quad (stiffness t w G) x = ∑ i, 2 * Real.tanh (t * w i / 2) * x i ^ 2 + t * quad G x := by
  unfold quad stiffness
  simp only [mul_add, add_mul, sum_add_distrib, mul_ite, ite_mul, mul_zero, zero_mul, sum_ite_eq, mem_univ, if_true, mul_sum]
  congr 1
  · exact sum_congr rfl fun i _ => by ring
  · exact sum_congr rfl fun i _ => sum_congr rfl fun j _ => by ring

theorem quad_sub (D : Matrix (Fin N) (Fin N) ℝ) (hD : D.IsSymm) (x y : Fin N → ℝ) :
    quad D (fun i => x i - y i) = quad D x - 2 * ∑ i, x i * D.mulVec y i + ∑ i, y i * D.mulVec y i := by
  have hs : ∑ i, ∑ j, y i * D i j * x j = ∑ i, ∑ j, x i * D i j * y j := by
    rw [sum_comm]
    refine sum_congr rfl fun i _ => sum_congr rfl fun j _ => ?_
    rw [← hD.apply i j]; ring
  unfold quad
  simp only [Matrix.mulVec, dotProduct, mul_sum]
  have e : ∀ i j, (x i - y i) * D i j * (x j - y j)
      = x i * D i j * x j - x i * D i j * y j - y i * D i j * x j + y i * D i j * y j := fun i j => by ring
  simp only [e, sum_add_distrib, sum_sub_distrib, hs]
  have e2 : ∀ i j, 2 * (x i * (D i j * y j)) = 2 * (x i * D i j * y j) := fun i j => by ring
  have e3 : ∀ i j, y i * (D i j * y j) = y i * D i j * y j := fun i j => by ring
  simp only [e2, e3, ← mul_sum]
  ring

/-- The potential of one bead relative to its lowest point. -/
theorem bead_potential (t : ℝ) (w c : Fin N → ℝ) (G : Matrix (Fin N) (Fin N) ℝ) (hG : G.IsSymm) (y : Fin N → ℝ)
    (hy : (stiffness t w G).mulVec y = fun i => 2 * Real.tanh (t * w i / 2) * c i) (x : Fin N → ℝ) :
    ∑ i, Real.tanh (t * w i / 2) * (x i - c i) ^ 2 + t / 2 * quad G x
      = ∑ i, Real.tanh (t * w i / 2) * c i * (c i - y i)
        + 1 / 2 * quad (stiffness t w G) (fun i => x i - y i) := by
  have hsym : (stiffness t w G).IsSymm := by
    ext i j
    simp only [Matrix.transpose_apply, stiffness, hG.apply i j]
    by_cases h : i = j
    · subst h; rfl
    · rw [if_neg h, if_neg (Ne.symm h)]
  rw [quad_sub _ hsym, hy, quad_stiffness]
  have e1 : ∀ i, Real.tanh (t * w i / 2) * (x i - c i) ^ 2 = Real.tanh (t * w i / 2) * x i ^ 2
      + -2 * (Real.tanh (t * w i / 2) * c i * x i) + Real.tanh (t * w i / 2) * c i ^ 2 := fun i => by ring
  have e2 : ∀ i, Real.tanh (t * w i / 2) * c i * (c i - y i) = Real.tanh (t * w i / 2) * c i ^ 2
      - Real.tanh (t * w i / 2) * c i * y i := fun i => by ring
  have e3 : ∀ i, 2 * Real.tanh (t * w i / 2) * x i ^ 2 = 2 * (Real.tanh (t * w i / 2) * x i ^ 2) := fun i => by ring
  have e4 : ∀ i, x i * (2 * Real.tanh (t * w i / 2) * c i) = 2 * (Real.tanh (t * w i / 2) * c i * x i) := fun i => by ring
  have e5 : ∀ i, y i * (2 * Real.tanh (t * w i / 2) * c i) = 2 * (Real.tanh (t * w i / 2) * c i * y i) := fun i => by ring
  simp only [e1, e2, e3, e4, e5, sum_add_distrib, sum_sub_distrib, ← mul_sum]
  ring

theorem mixed_eq (t : ℝ) (w l : Fin N → ℝ) (hw : ∀ i, 0 < t * w i) (G : Matrix (Fin N) (Fin N) ℝ) (hG : G.IsSymm)
    (y : Fin N → ℝ) (hy : (stiffness t w G).mulVec y = fun i => 2 * Real.tanh (t * w i / 2) * (-l i / w i))
    (R : BeadPath N P) :
    mixed t w l G R = Real.exp (-(P * ∑ i, Real.tanh (t * w i / 2) * (-l i / w i) * (-l i / w i - y i)))
        / (∏ i, Real.sqrt (Real.sinh (t * w i))) ^ P
      * chain (scaledStiffness t w G) (fun i p => (R i p - y i) / Real.sqrt (Real.sinh (t * w i))) := by
  have hsh : ∀ i, 0 < Real.sinh (t * w i) := fun i => Real.sinh_pos_iff.mpr (hw i)
  have hsq : ∀ i, 0 < Real.sqrt (Real.sinh (t * w i)) := fun i => Real.sqrt_pos.mpr (hsh i)
  have hquad : ∀ z : Fin N → ℝ, quad (scaledStiffness t w G) (fun i => z i / Real.sqrt (Real.sinh (t * w i)))
      = quad (stiffness t w G) z := by
    intro z
    unfold quad scaledStiffness
    refine sum_congr rfl fun i _ => sum_congr rfl fun j _ => ?_
    have h1 := (hsq i).ne'
    have h2 := (hsq j).ne'
    field_simp
  have hdiff : ∀ i a b, (a / Real.sqrt (Real.sinh (t * w i)) - b / Real.sqrt (Real.sinh (t * w i))) ^ 2
      = (a - b) ^ 2 / Real.sinh (t * w i) := by
    intro i a b
    rw [← sub_div, div_pow, Real.sq_sqrt (hsh i).le]
  have hprop : ∀ i a b, -((a ^ 2 + b ^ 2) * Real.cosh (t * w i) - 2 * a * b) / (2 * Real.sinh (t * w i))
      = -(1 / 2) * (Real.tanh (t * w i / 2) * a ^ 2) + -(1 / 2) * (Real.tanh (t * w i / 2) * b ^ 2)
        + -(1 / 2) * ((a - b) ^ 2 / Real.sinh (t * w i)) := by
    intro i a b
    rw [← tanh_half_eq _ (hw i)]
    have := (hsh i).ne'
    field_simp
    ring
  have hshift : ∑ p, ∑ i, Real.tanh (t * w i / 2) * (R i (p + 1) - -l i / w i) ^ 2
      = ∑ p, ∑ i, Real.tanh (t * w i / 2) * (R i p - -l i / w i) ^ 2 :=
    Fintype.sum_equiv (Equiv.addRight 1) _ _ fun _ => rfl
  have hbead : ∑ p, (∑ i, Real.tanh (t * w i / 2) * (R i p - -l i / w i) ^ 2 + t / 2 * quad G (fun i => R i p))
      = ∑ _p : Fin P, ∑ i, Real.tanh (t * w i / 2) * (-l i / w i) * (-l i / w i - y i)
        + ∑ p, 1 / 2 * quad (stiffness t w G) (fun i => R i p - y i) := by
    rw [← sum_add_distrib]
    exact sum_congr rfl fun p _ => bead_potential t w _ G hG y hy (fun i => R i p)
  unfold mixed chain
  simp only [hquad, hdiff, propagator, prod_mul_distrib, prod_div_distrib, ← Real.exp_sum]
  rw [prod_const, card_univ, Fintype.card_fin, div_mul_eq_mul_div, div_mul_eq_mul_div, ← Real.exp_add, ← Real.exp_add]
  congr 2
  simp only [hprop, sub_sub_sub_cancel_right, sum_add_distrib, ← mul_sum, hshift]
  simp only [sum_add_distrib, ← mul_sum, sum_const, card_univ, Fintype.card_fin, nsmul_eq_mul] at hbead
  linarith

theorem continuous_mixed (t : ℝ) (w l : Fin N → ℝ) (G : Matrix (Fin N) (Fin N) ℝ) : Continuous (mixed (P := P) t w l G) := by
  unfold mixed propagator quad; fun_prop

theorem mixed_integral (t : ℝ) (w l : Fin N → ℝ) (hw : ∀ i, 0 < t * w i) (G : Matrix (Fin N) (Fin N) ℝ) (hG : G.IsSymm)
    (y : Fin N → ℝ) (hy : (stiffness t w G).mulVec y = fun i => 2 * Real.tanh (t * w i / 2) * (-l i / w i)) :
    (Integrable (chain (P := P) (scaledStiffness t w G)) → Integrable (mixed (P := P) t w l G)) ∧
    ∫ R : BeadPath N P, mixed t w l G R
      = Real.exp (-(P * ∑ i, Real.tanh (t * w i / 2) * (-l i / w i) * (-l i / w i - y i)))
        * ∫ R : BeadPath N P, chain (scaledStiffness t w G) R := by
  have hsq : ∀ i, 0 < Real.sqrt (Real.sinh (t * w i)) := fun i => Real.sqrt_pos.mpr (Real.sinh_pos_iff.mpr (hw i))
  have hprod : 0 < ∏ i, Real.sqrt (Real.sinh (t * w i)) := prod_pos fun i _ => hsq i
  set W : Matrix (Fin N) (Fin N) ℝ := Matrix.diagonal fun i => Real.sqrt (Real.sinh (t * w i)) with hWd
  have hdet : W.det = ∏ i, Real.sqrt (Real.sinh (t * w i)) := Matrix.det_diagonal
  have hne : W.det ≠ 0 := by rw [hdet]; exact hprod.ne'
  set f : BeadPath N P → ℝ := fun R => chain (scaledStiffness t w G)
    (fun i p => R i p / Real.sqrt (Real.sinh (t * w i))) with hf
  have hfc : Continuous f := (continuous_chain _).comp (by fun_prop)
  have hfW : ∀ u, f (modeMap P W u) = chain (scaledStiffness t w G) u := by
    intro u
    have e : (fun i p => modeMap P W u i p / Real.sqrt (Real.sinh (t * w i))) = u := by
      funext i p
      simp only [modeMap, LinearMap.coe_mk, AddHom.coe_mk, hWd, Matrix.diagonal_apply, ite_mul, zero_mul, sum_ite_eq,
        mem_univ, if_true]
      exact mul_div_cancel_left₀ _ (hsq i).ne'
    simp only [hf, e]
  have hm : ∀ R : BeadPath N P, mixed t w l G R
      = Real.exp (-(P * ∑ i, Real.tanh (t * w i / 2) * (-l i / w i) * (-l i / w i - y i)))
        / (∏ i, Real.sqrt (Real.sinh (t * w i))) ^ P * f (R - fun i _ => y i) := fun R => mixed_eq t w l hw G hG y hy R
  constructor
  · intro h
    have h1 : Integrable f := integrable_modeMap W hne f hfc (by simpa only [hfW] using h)
    have h2 := (h1.comp_sub_right (fun i _ => y i)).const_mul
      (Real.exp (-(P * ∑ i, Real.tanh (t * w i / 2) * (-l i / w i) * (-l i / w i - y i)))
        / (∏ i, Real.sqrt (Real.sinh (t * w i))) ^ P)
    refine h2.congr (Eventually.of_forall fun R => ?_)
    exact (hm R).symm
  · simp only [hm]
    rw [integral_const_mul, integral_sub_right_eq_self f, integral_modeMap W hne f hfc, hdet, abs_of_pos hprod]
    simp only [hfW]
    have := (pow_pos hprod P).ne'
    field_simp

end

/-! ### the limit of many beads for one surface -/

section
variable {N : ℕ}

/-- The integral over `n` beads, per factor `sqrt (2 pi)`. -/
noncomputable def mixedZ (beta : ℝ) (w l : Fin N → ℝ) (G : Matrix (Fin N) (Fin N) ℝ) : ℕ → ℝ
  | 0 => 0
  | n + 1 => (∫ R : BeadPath N (n + 1), mixed (beta / (n + 1 : ℕ)) w l G R) / Real.sqrt (2 * Real.pi) ^ (N * (n + 1))

theorem mixedZ_eq (beta : ℝ) (w l : Fin N → ℝ) (G : Matrix (Fin N) (Fin N) ℝ) (P : ℕ) [NeZero P] :
    mixedZ beta w l G P = (∫ R : BeadPath N P, mixed (beta / P) w l G R) / Real.sqrt (2 * Real.pi) ^ (N * P) := by
  obtain ⟨n, rfl⟩ := Nat.exists_eq_succ_of_ne_zero (NeZero.ne P)
  rfl

theorem tendsto_stiffness (beta : ℝ) (w : Fin N → ℝ) (G : Matrix (Fin N) (Fin N) ℝ) (i j : Fin N) :
    Tendsto (fun n : ℕ => (n : ℝ) * stiffness (beta / n) w G i j) atTop
      (𝓝 (beta * ((if i = j then w i else 0) + G i j))) := by
  have h1 := (tendsto_nat_mul_div beta).mul_const (G i j)
  by_cases h : i = j
  · have h2 := ((tendsto_nat_mul_tanh (beta * w i / 2)).const_mul 2).add h1
    rw [if_pos h, mul_add]
    rw [show 2 * (beta * w i / 2) = beta * w i by ring] at h2
    refine h2.congr fun n => ?_
    simp only [stiffness, if_pos h]
    rw [show beta / n * w i / 2 = beta * w i / 2 / n by ring]
    ring
  · rw [if_neg h, zero_add]
    refine h1.congr fun n => ?_
    simp only [stiffness, if_neg h]
    ring

theorem tendsto_scaledStiffness (beta : ℝ) (hb : 0 < beta) (w : Fin N → ℝ)
    (G : Matrix (Fin N) (Fin N) ℝ) (i j : Fin N) :
    Tendsto (fun n : ℕ => (n : ℝ) ^ 2 * scaledStiffness (beta / n) w G i j) atTop
      (𝓝 (beta ^ 2 * (Real.sqrt (w i) * ((if i = j then w i else 0) + G i j) * Real.sqrt (w j)))) := by
  have hs : ∀ k, Tendsto (fun n : ℕ => Real.sqrt (n * Real.sinh (beta * w k / n))) atTop (𝓝 (Real.sqrt (beta * w k))) :=
    fun k => (Real.continuous_sqrt.tendsto _).comp (tendsto_nat_mul_sinh (beta * w k))
  have h := ((hs i).mul (tendsto_stiffness beta w G i j)).mul (hs j)
  have e : Real.sqrt (beta * w i) * (beta * ((if i = j then w i else 0) + G i j)) * Real.sqrt (beta * w j)
      = beta ^ 2 * (Real.sqrt (w i) * ((if i = j then w i else 0) + G i j) * Real.sqrt (w j)) := by
    rw [Real.sqrt_mul hb.le, Real.sqrt_mul hb.le]
    have := Real.mul_self_sqrt hb.le
    linear_combination (Real.sqrt (w i) * beta * ((if i = j then w i else 0) + G i j) * Real.sqrt (w j)) * this
  rw [e] at h
  refine h.congr fun n => ?_
  have hn : (0 : ℝ) ≤ n := Nat.cast_nonneg n
  rw [Real.sqrt_mul hn, Real.sqrt_mul hn, scaledStiffness, show beta / n * w i = beta * w i / n by ring,
    show beta / n * w j = beta * w j / n by ring]
  have := Real.mul_self_sqrt hn
  linear_combination (Real.sqrt (Real.sinh (beta * w i / n)) * n * stiffness (beta / n) w G i j
    * Real.sqrt (Real.sinh (beta * w j / n))) * this

theorem tendsto_inv (A : ℕ → Matrix (Fin N) (Fin N) ℝ) (A₀ : Matrix (Fin N) (Fin N) ℝ)
    (hA : ∀ i j, Tendsto (fun n => A n i j) atTop (𝓝 (A₀ i j))) (h0 : A₀.det ≠ 0) (i j : Fin N) :
    Tendsto (fun n => (A n)⁻¹ i j) atTop (𝓝 (A₀⁻¹ i j)) := by
  have hA' : Tendsto A atTop (𝓝 A₀) := tendsto_pi_nhds.mpr fun i => tendsto_pi_nhds.mpr fun j => hA i j
  have cdet : Continuous fun M : Matrix (Fin N) (Fin N) ℝ => M.det := Continuous.matrix_det continuous_id
  have cadj : Continuous fun M : Matrix (Fin N) (Fin N) ℝ => M.adjugate i j :=
    (Continuous.matrix_adjugate continuous_id).matrix_elem i j
  have h := (((cdet.tendsto A₀).comp hA').inv₀ h0).mul ((cadj.tendsto A₀).comp hA')
  have e : ∀ M : Matrix (Fin N) (Fin N) ℝ, M⁻¹ i j = M.det⁻¹ * M.adjugate i j := by
    intro M
    rw [Matrix.inv_def, Ring.inverse_eq_inv', Matrix.smul_apply, smul_eq_mul]
  rw [e]
  exact h.congr fun n => (e (A n)).symm

theorem tendsto_mulVec (A : ℕ → Matrix (Fin N) (Fin N) ℝ) (A₀ : Matrix (Fin N) (Fin N) ℝ)
    (hA : ∀ i j, Tendsto (fun n => A n i j) atTop (𝓝 (A₀ i j))) (b : ℕ → Fin N → ℝ) (b₀ : Fin N → ℝ)
    (hb : ∀ i, Tendsto (fun n => b n i) atTop (𝓝 (b₀ i))) (i : Fin N) :
    Tendsto (fun n => (A n).mulVec (b n) i) atTop (𝓝 (A₀.mulVec b₀ i)) := by
  simp only [Matrix.mulVec, dotProduct]
  exact tendsto_finsetSum _ fun j _ => (hA i j).mul (hb j)

theorem mixed_limit (beta : ℝ) (hb : 0 < beta) (w l : Fin N → ℝ) (hw : ∀ i, 0 < w i) (G : Matrix (Fin N) (Fin N) ℝ)
    (H : Matrix (Fin N) (Fin N) ℝ) (hH : ∀ i j, H i j = (if i = j then w i else 0) + G i j)
    (V : Matrix (Fin N) (Fin N) ℝ) (hV : V.transpose * V = 1) (f : Fin N → ℝ) (hf : ∀ i, 0 < f i)
    (hF : ∀ i j, Real.sqrt (w i) * H i j * Real.sqrt (w j)
      = (V * Matrix.diagonal (fun i => f i ^ 2) * V.transpose) i j) :
    (∀ᶠ n : ℕ in atTop, ∀ [NeZero n], Integrable (mixed (P := n) (beta / n) w l G)) ∧
    Tendsto (fun n : ℕ => Real.exp (beta * ∑ i, l i ^ 2 / (2 * w i)) * mixedZ beta w l G n) atTop
      (𝓝 (Real.exp (beta / 2 * (l ⬝ᵥ H⁻¹.mulVec l)) * ∏ i, (2 * Real.sinh (beta * f i / 2))⁻¹)) := by
  have hsw : ∀ i, 0 < Real.sqrt (w i) := fun i => Real.sqrt_pos.mpr (hw i)
  have hFm : Matrix.diagonal (fun i => Real.sqrt (w i)) * H * Matrix.diagonal (fun i => Real.sqrt (w i))
      = V * Matrix.diagonal (fun i => f i ^ 2) * V.transpose := by
    ext i j
    rw [Matrix.mul_diagonal, Matrix.diagonal_mul, hF]
  have hdet : H.det ≠ 0 := by
    intro h
    have := congrArg Matrix.det hFm
    rw [Matrix.det_mul, Matrix.det_mul, h, mul_zero, zero_mul, Matrix.det_mul, Matrix.det_mul, Matrix.det_transpose,
      Matrix.det_diagonal] at this
    have hd := ortho_det V hV
    have hne : V.det ≠ 0 := by intro h; simp [h] at hd
    have hp : (0 : ℝ) < ∏ i, f i ^ 2 := prod_pos fun i _ => pow_pos (hf i) 2
    exact absurd this.symm (mul_ne_zero (mul_ne_zero hne hp.ne') hne)
  have hG : G.IsSymm := by
    have hs : (V * Matrix.diagonal (fun i => f i ^ 2) * V.transpose).IsSymm := by
      unfold Matrix.IsSymm
      rw [Matrix.transpose_mul, Matrix.transpose_mul, Matrix.transpose_transpose, Matrix.diagonal_transpose,
        Matrix.mul_assoc]
    ext i j
    rw [Matrix.transpose_apply]
    by_cases h : i = j
    · subst h; rfl
    · have h1 := hs.apply i j
      rw [← hF, ← hF, hH, hH, if_neg h, if_neg (Ne.symm h), zero_add, zero_add] at h1
      have h2 : Real.sqrt (w i) * Real.sqrt (w j) * (G j i - G i j) = 0 := by linear_combination h1
      rcases mul_eq_zero.mp h2 with h3 | h3
      · exact absurd h3 (mul_pos (hsw i) (hsw j)).ne'
      · linarith
  -- the lowest point
  set A : ℕ → Matrix (Fin N) (Fin N) ℝ := fun n i j => n * stiffness (beta / n) w G i j with hA
  have hAlim : ∀ i j, Tendsto (fun n => A n i j) atTop (𝓝 ((beta • H) i j)) := by
    intro i j
    rw [Matrix.smul_apply, smul_eq_mul, hH]
    exact tendsto_stiffness beta w G i j
  have hdetβ : (beta • H).det ≠ 0 := by
    rw [Matrix.det_smul]; exact mul_ne_zero (pow_ne_zero _ hb.ne') hdet
  have hAdet : ∀ᶠ n in atTop, (A n).det ≠ 0 := by
    have hA' : Tendsto A atTop (𝓝 (beta • H)) := tendsto_pi_nhds.mpr fun i => tendsto_pi_nhds.mpr fun j => hAlim i j
    have cdet : Continuous fun M : Matrix (Fin N) (Fin N) ℝ => M.det := Continuous.matrix_det continuous_id
    exact ((cdet.tendsto _).comp hA').eventually_ne hdetβ
  set b : ℕ → Fin N → ℝ := fun n i => n * (2 * Real.tanh (beta / n * w i / 2) * (-l i / w i)) with hbd
  have hktanh : ∀ i, Tendsto (fun n : ℕ => (n : ℝ) * Real.tanh (beta / n * w i / 2)) atTop (𝓝 (beta * w i / 2)) := by
    intro i
    refine (tendsto_nat_mul_tanh (beta * w i / 2)).congr fun n => ?_
    rw [show beta / n * w i / 2 = beta * w i / 2 / n by ring]
  have hblim : ∀ i, Tendsto (fun n => b n i) atTop (𝓝 (-(beta * l i))) := by
    intro i
    have h := ((hktanh i).const_mul 2).mul_const (-l i / w i)
    have e : 2 * (beta * w i / 2) * (-l i / w i) = -(beta * l i) := by have := (hw i).ne'; field_simp
    rw [e] at h
    exact h.congr fun n => by rw [hbd]; ring
  set y : ℕ → Fin N → ℝ := fun n => (A n)⁻¹.mulVec (b n) with hyd
  have hylim : ∀ i, Tendsto (fun n => y n i) atTop (𝓝 (-(H⁻¹.mulVec l i))) := by
    intro i
    have h := tendsto_mulVec (fun n => (A n)⁻¹) (beta • H)⁻¹ (tendsto_inv A _ hAlim hdetβ) b _ hblim i
    have e : (beta • H)⁻¹.mulVec (fun i => -(beta * l i)) = -(H⁻¹.mulVec l) := by
      have hu : IsUnit H.det := isUnit_iff_ne_zero.mpr hdet
      have hu2 : IsUnit (beta • H).det := isUnit_iff_ne_zero.mpr hdetβ
      have h1 : (fun i => -(beta * l i)) = (beta • H).mulVec (-(H⁻¹.mulVec l)) := by
        rw [Matrix.mulVec_neg, Matrix.smul_mulVec, Matrix.mulVec_mulVec, Matrix.mul_nonsing_inv _ hu, Matrix.one_mulVec]
        rfl
      rw [h1, Matrix.mulVec_mulVec, Matrix.nonsing_inv_mul _ hu2, Matrix.one_mulVec]
    rw [e] at h
    exact h
  have hyeq : ∀ᶠ n : ℕ in atTop, (stiffness (beta / n) w G).mulVec (y n)
      = fun i => 2 * Real.tanh (beta / n * w i / 2) * (-l i / w i) := by
    filter_upwards [hAdet, eventually_gt_atTop 0] with n hn hn0
    have hn1 : (n : ℝ) ≠ 0 := by exact_mod_cast hn0.ne'
    have h1 : (A n).mulVec (y n) = b n := by
      rw [hyd, Matrix.mulVec_mulVec, Matrix.mul_nonsing_inv _ (isUnit_iff_ne_zero.mpr hn), Matrix.one_mulVec]
    have h2 : A n = (n : ℝ) • stiffness (beta / n) w G := by ext i j; rfl
    rw [h2, Matrix.smul_mulVec] at h1
    funext i
    have h3 := congrFun h1 i
    rw [Pi.smul_apply, smul_eq_mul] at h3
    exact mul_left_cancel₀ hn1 h3
  -- the chain
  have hμ : ∀ i, 0 < beta ^ 2 * f i ^ 2 := fun i => mul_pos (pow_pos hb 2) (pow_pos (hf i) 2)
  have hchain := tendsto_chainZ V hV (fun i => beta ^ 2 * f i ^ 2) hμ (fun n => scaledStiffness (beta / n) w G) (by
    intro i j
    rw [smul_diag, Matrix.smul_apply, smul_eq_mul, ← hF, hH]
    exact tendsto_scaledStiffness beta hb w G i j)
  have hsq : ∀ i, Real.sqrt (beta ^ 2 * f i ^ 2) = beta * f i := by
    intro i
    rw [← mul_pow, Real.sqrt_sq (mul_pos hb (hf i)).le]
  simp only [hsq] at hchain
  constructor
  · filter_upwards [hchain.1, hyeq, eventually_gt_atTop 0] with n h1 h2 h3 hne
    have hn0 : (0 : ℝ) < n := by exact_mod_cast h3
    exact (mixed_integral (beta / n) w l (fun i => mul_pos (div_pos hb hn0) (hw i)) G hG (y n) h2).1 h1
  · have hU : Tendsto (fun n : ℕ => (n : ℝ) * ∑ i, Real.tanh (beta / n * w i / 2) * (-l i / w i) * (-l i / w i - y n i)) atTop
        (𝓝 (∑ i, beta * w i / 2 * (-l i / w i) * (-l i / w i - -(H⁻¹.mulVec l i)))) := by
      have h := tendsto_finsetSum (univ : Finset (Fin N)) fun i _ =>
        ((hktanh i).mul_const (-l i / w i)).mul ((hylim i).const_sub (-l i / w i))
      refine h.congr fun n => ?_
      rw [mul_sum]
      exact sum_congr rfl fun i _ => by ring
    have hE := ((Real.continuous_exp.tendsto _).comp hU.neg).mul hchain.2
    have hE2 := hE.const_mul (Real.exp (beta * ∑ i, l i ^ 2 / (2 * w i)))
    have e : Real.exp (beta * ∑ i, l i ^ 2 / (2 * w i)) * (Real.exp (-∑ i, beta * w i / 2 * (-l i / w i)
        * (-l i / w i - -(H⁻¹.mulVec l i))) * ∏ i, (2 * Real.sinh (beta * f i / 2))⁻¹)
        = Real.exp (beta / 2 * (l ⬝ᵥ H⁻¹.mulVec l)) * ∏ i, (2 * Real.sinh (beta * f i / 2))⁻¹ := by
      rw [← mul_assoc, ← Real.exp_add]
      congr 2
      rw [dotProduct, mul_sum, mul_sum, ← sum_neg_distrib, ← sum_add_distrib]
      refine sum_congr rfl fun i _ => ?_
      have := (hw i).ne'
      field_simp
      ring
    rw [e] at hE2
    refine hE2.congr' ?_
    filter_upwards [hyeq, eventually_gt_atTop 0] with n h2 h3
    have : NeZero n := ⟨h3.ne'⟩
    have hn0 : (0 : ℝ) < n := by exact_mod_cast h3
    rw [mixedZ_eq, (mixed_integral (beta / n) w l (fun i => mul_pos (div_pos hb hn0) (hw i)) G hG (y n) h2).2,
      chainZ_eq, mul_div_assoc]
    rfl

end

/-! ### all surfaces -/

attribute [local instance] Matrix.linftyOpNormedRing Matrix.linftyOpNormedAlgebra
  Matrix.linfty_opNormOneClass

section
variable {A N P : ℕ} [NeZero A] [NeZero P]

theorem remainder_constant (m : Vib A N) (hw : ∀ i, 0 < m.omega i) (hm : ConstantCoupling m) (R : BeadPath N P) (p : Fin P) :
    remainder m R p = offDiagonal m
      + Matrix.diagonal fun a => quad (fun i j => m.quadratic i j a a) (fun i => R i p) / 2 := by
  have h1 : ∀ a, oscillator m a (fun i => R i p)
      = m.energy a a + ∑ i, (m.omega i * R i p ^ 2 / 2 + R i p * m.linear i a a) := by
    intro a
    unfold oscillator bottom centre
    rw [sub_eq_add_neg, add_assoc, ← sum_neg_distrib, ← sum_add_distrib]
    congr 1
    refine sum_congr rfl fun i _ => ?_
    have := (hw i).ne'
    field_simp
    ring
  ext a b
  unfold remainder potential offDiagonal
  simp only [h1, Matrix.add_apply, Matrix.sub_apply, Matrix.smul_apply, Matrix.sum_apply, smul_eq_mul,
    Matrix.diagonal_apply, Matrix.one_apply]
  by_cases h : a = b
  · subst h
    simp only [if_true, mul_one, sum_add_distrib, quad, sub_self, zero_add, sum_div]
    have : ∀ i j, R i p * R j p / 2 * m.quadratic i j a a = R i p * m.quadratic i j a a * R j p / 2 := fun i j => by ring
    simp only [this]
    ring
  · obtain ⟨hl, hq, _⟩ := hm a b h
    simp only [h, if_false, hl, hq, mul_zero, sum_const_zero, add_zero, sub_zero]

theorem commute_offDiagonal (m : Vib A N) (d : Fin A → ℝ) (hd : ∀ a b, a ≠ b → m.energy a b ≠ 0 → d a = d b) :
    Commute (offDiagonal m) (Matrix.diagonal d) := by
  unfold Commute SemiconjBy
  ext a b
  rw [Matrix.mul_diagonal, Matrix.diagonal_mul]
  by_cases h : a = b
  · subst h; ring
  · by_cases h0 : m.energy a b = 0
    · simp [offDiagonal, h, h0]
    · rw [hd a b h h0]; ring

theorem prod_ofFn_mul_diagonal {n : ℕ} (X : Matrix (Fin A) (Fin A) ℝ) (κ : Fin n → Fin A → ℝ)
    (hc : ∀ p, Commute X (Matrix.diagonal (κ p))) :
    (List.ofFn fun p => X * Matrix.diagonal (κ p)).prod = X ^ n * Matrix.diagonal fun a => ∏ p, κ p a := by
  induction n with
  | zero => simp
  | succ n ih =>
    rw [List.ofFn_succ, List.prod_cons, ih (fun p => κ p.succ) fun p => hc p.succ]
    have e : (Matrix.diagonal fun a => ∏ p, κ p a) = Matrix.diagonal (κ 0) * Matrix.diagonal fun a => ∏ p : Fin n, κ p.succ a := by
      rw [Matrix.diagonal_mul_diagonal]
      congr 1
      funext a
      rw [Fin.prod_univ_succ]
    rw [e, pow_succ', Matrix.mul_assoc, ← Matrix.mul_assoc (Matrix.diagonal (κ 0)), ← ((hc 0).pow_left n).eq]
    simp only [Matrix.mul_assoc]

theorem exp_diagonal_real (d : Fin A → ℝ) :
    NormedSpace.exp (Matrix.diagonal d) = Matrix.diagonal fun a => Real.exp (d a) := by
  rw [Matrix.exp_diagonal]
  congr 1
  funext a
  rw [Pi.coe_exp, Real.exp_eq_exp_ℝ]

theorem gExact_constant (m : Vib A N) (hw : ∀ i, 0 < m.omega i) (hm : ConstantCoupling m) (t : ℝ) (R : BeadPath N P) :
    gExact t m R = ∑ a, ((NormedSpace.exp (t • -offDiagonal m)
        * NormedSpace.exp (t • -(m.energy - offDiagonal m))) ^ P) a a
      * (Real.exp (P * t * ∑ i, m.linear i a a ^ 2 / (2 * m.omega i))
        * mixed t m.omega (fun i => m.linear i a a) (fun i j => m.quadratic i j a a) R) := by
  set κ : Fin P → Fin A → ℝ := fun p a => Real.exp (t * ∑ i, m.linear i a a ^ 2 / (2 * m.omega i))
    * ((∏ i, propagator t (m.omega i) (R i p - -m.linear i a a / m.omega i) (R i (p + 1) - -m.linear i a a / m.omega i))
      * Real.exp (-(t / 2) * quad (fun i j => m.quadratic i j a a) (fun i => R i p))) with hκ
  set X := NormedSpace.exp (t • -offDiagonal m) * NormedSpace.exp (t • -(m.energy - offDiagonal m)) with hX
  have hsame : ∀ a b, a ≠ b → m.energy a b ≠ 0 → (∀ i, m.linear i a a = m.linear i b b)
      ∧ ∀ i j, m.quadratic i j a a = m.quadratic i j b b := fun a b h h0 => (hm a b h).2.2 h0
  have hdiagE : t • -(m.energy - offDiagonal m) = Matrix.diagonal fun a => -t * m.energy a a := by
    ext a b
    by_cases h : a = b
    · subst h; simp [offDiagonal]
    · simp [offDiagonal, h]
  have hdiag : NormedSpace.exp (t • -(m.energy - offDiagonal m)) = Matrix.diagonal fun a => Real.exp (-t * m.energy a a) := by
    rw [hdiagE, exp_diagonal_real]
  have hcomm : ∀ p, Commute X (Matrix.diagonal (κ p)) := by
    intro p
    have h1 : Commute (offDiagonal m) (Matrix.diagonal (κ p)) := by
      refine commute_offDiagonal m _ fun a b h h0 => ?_
      obtain ⟨hl, hq⟩ := hsame a b h h0
      simp only [hκ, hl, hq]
    refine Commute.mul_left ?_ ?_
    · exact ((h1.neg_left).smul_left t).exp_left
    · rw [hdiag]
      exact Matrix.commute_diagonal _ _
  have hbead : ∀ p, NormedSpace.exp (-t • remainder m R p) * (Matrix.diagonal fun a =>
      step t (m.energy a a) (fun i => m.linear i a a) m.omega R p) = X * Matrix.diagonal (κ p) := by
    intro p
    have hc : Commute (-t • offDiagonal m)
        (-t • Matrix.diagonal fun a => quad (fun i j => m.quadratic i j a a) (fun i => R i p) / 2) := by
      refine ((commute_offDiagonal m _ fun a b h h0 => ?_).smul_left _).smul_right _
      obtain ⟨_, hq⟩ := hsame a b h h0
      simp only [hq]
    rw [remainder_constant m hw hm, smul_add, Matrix.exp_add_of_commute _ _ hc, hX, hdiag, smul_neg, ← neg_smul,
      Matrix.mul_assoc, Matrix.mul_assoc, ← Matrix.diagonal_smul, exp_diagonal_real, Matrix.diagonal_mul_diagonal,
      Matrix.diagonal_mul_diagonal]
    congr 2
    funext a
    simp only [hκ, step, bottom, centre, Pi.smul_apply, smul_eq_mul]
    have e1 : Real.exp (-t * (m.energy a a - ∑ i, m.linear i a a ^ 2 / (2 * m.omega i)))
        = Real.exp (-t * m.energy a a) * Real.exp (t * ∑ i, m.linear i a a ^ 2 / (2 * m.omega i)) := by
      rw [← Real.exp_add]; congr 1; ring
    have e2 : -t * (quad (fun i j => m.quadratic i j a a) (fun i => R i p) / 2)
        = -(t / 2) * quad (fun i j => m.quadratic i j a a) (fun i => R i p) := by ring
    rw [e1, e2]
    ring
  unfold gExact gSplit
  simp only [hbead]
  rw [prod_ofFn_mul_diagonal X κ hcomm, Matrix.trace]
  refine sum_congr rfl fun a _ => ?_
  rw [Matrix.diag_apply, Matrix.mul_diagonal]
  congr 1
  simp only [hκ, mixed]
  rw [prod_mul_distrib, prod_const, card_univ, Fintype.card_fin, ← Real.exp_nat_mul]
  congr 2
  ring

end

end Pibronic.PIMC
