import Verif.Lemmas.Separable
import Verif.Lemmas.MixedModes
import Verif.Props.Convergence

set_option autoImplicit false
set_option linter.unusedSectionVars false

/-!
C106: the error of the discretisation vanishes as the number of beads grows, for the systems whose partition function is
known in closed form.
-/
namespace Pibronic.Props.Trotter
open Py Finset Filter Topology Spec.PIMC Pibronic.PIMC Pibronic.Props.PIMC Pibronic.Props.Sampling MeasureTheory ProbabilityTheory

attribute [local instance] Matrix.linftyOpNormedRing Matrix.linftyOpNormedAlgebra
  Matrix.linfty_opNormOneClass

variable {A N : ℕ} [NeZero A]

/-! ### helpers -/

private theorem separable_symm (m : Vib A N) (l q : Fin N → ℝ) (hm : Separable m l q) (hs : m.energy.IsSymm)
    (x : Fin N → ℝ) : (potential m x).IsSymm := by
  have h1 : (1 : Matrix (Fin A) (Fin A) ℝ).IsSymm := Matrix.isSymm_one
  have hq : ∀ i j, (m.quadratic i j).IsSymm := by
    intro i j
    rw [hm.2]
    split
    · exact h1.smul _
    · exact Matrix.isSymm_zero
  unfold potential Matrix.IsSymm
  simp only [Matrix.transpose_add, Matrix.transpose_sum, Matrix.transpose_smul, hs.eq, Matrix.transpose_one, hm.1]
  simp only [(hq _ _).eq]

private theorem integrable_separable {P : ℕ} [NeZero P] (hP : 3 ≤ P) (m : Vib A N) (hw : ∀ i, 0 < m.omega i) (l q : Fin N → ℝ)
    (hm : Separable m l q) (beta : ℝ) (hb : 0 < beta)
    (hs : ∀ i, 0 < 2 * Real.tanh (beta / P * m.omega i / 2) + beta / P * q i) :
    Integrable fun R : BeadPath N P => gExact (beta / P) m R := by
  have hP0 : (0 : ℝ) < P := by exact_mod_cast Nat.pos_of_ne_zero (NeZero.ne P)
  have ht : 0 < beta / P := div_pos hb hP0
  simp only [gExact, gSplit_separable m hw l q hm]
  refine Integrable.const_mul ?_ _
  refine Integrable.fintype_prod (f := fun i (x : Fin P → ℝ) =>
    ∏ p, (propagator (beta / P) (m.omega i) (x p - -l i / m.omega i) (x (p + 1) - -l i / m.omega i)
        * Real.exp (-(beta / P * q i / 2) * x p ^ 2))) fun i => ?_
  have hmode := mode_integral hP (beta / P) (m.omega i) (beta / P * q i) (-l i / m.omega i)
    (2 * halfAngle (beta / P) (m.omega i) (q i)) (mul_pos ht (hw i)) (hs i)
    (mul_pos two_pos (halfAngle_pos _ _ _ (mul_pos ht (hw i)) (hs i)))
    (cosh_halfAngle _ _ _ (mul_pos ht (hw i)) (hs i))
  by_contra hni
  rw [integral_undef hni] at hmode
  have hS : 0 < Real.sinh (P * (2 * halfAngle (beta / P) (m.omega i) (q i)) / 2) := by
    have := halfAngle_pos _ _ _ (mul_pos ht (hw i)) (hs i)
    exact Real.sinh_pos_iff.mpr (by positivity)
  have : (0 : ℝ) < Real.sqrt (2 * Real.pi) ^ P := pow_pos (Real.sqrt_pos.mpr (by positivity)) _
  exact absurd hmode (by positivity)

private theorem eventually_stiff (beta w q : ℝ) (hb : 0 < beta) (hq : 0 < w + q) :
    ∀ᶠ P : ℕ in atTop, 0 < 2 * Real.tanh (beta / P * w / 2) + beta / P * q := by
  have h := ((tendsto_nat_mul_tanh (beta * w / 2)).const_mul 2).add (tendsto_nat_mul_div (beta * q))
  have h0 : 0 < 2 * (beta * w / 2) + beta * q := by have := mul_pos hb hq; nlinarith
  filter_upwards [(tendsto_order.1 h).1 0 h0, eventually_gt_atTop 0] with n h1 hn
  have hn0 : (0 : ℝ) < n := by exact_mod_cast hn
  have e : 2 * ((n : ℝ) * Real.tanh (beta * w / 2 / n)) + n * (beta * q / n)
      = n * (2 * Real.tanh (beta / n * w / 2) + beta / n * q) := by
    rw [show beta / n * w / 2 = beta * w / 2 / n by ring]; ring
  rw [e] at h1
  exact (pos_iff_pos_of_mul_pos h1).mp hn0

private theorem constant_symm (m : Vib A N) (hm : ConstantCoupling m) (hs : m.energy.IsSymm) (x : Fin N → ℝ) :
    (potential m x).IsSymm := by
  have hd : ∀ M : Matrix (Fin A) (Fin A) ℝ, (∀ a b, a ≠ b → M a b = 0) → M.transpose = M := by
    intro M h
    ext a b
    rw [Matrix.transpose_apply]
    by_cases e : a = b
    · rw [e]
    · rw [h a b e, h b a (Ne.symm e)]
  have hl := fun i => hd (m.linear i) fun a b h => (hm a b h).1 i
  have hq := fun i j => hd (m.quadratic i j) fun a b h => (hm a b h).2.1 i j
  unfold potential Matrix.IsSymm
  simp only [Matrix.transpose_add, Matrix.transpose_sum, Matrix.transpose_smul, hs.eq, Matrix.transpose_one, hl, hq]

private theorem normalModes_matrix (m : Vib A N) (a : Fin A) (f : Fin N → ℝ) (V : Matrix (Fin N) (Fin N) ℝ)
    (h : ∀ i j, Real.sqrt (m.omega i) * hessian m a i j * Real.sqrt (m.omega j) = ∑ k, f k ^ 2 * (V i k * V j k))
    (i j : Fin N) : Real.sqrt (m.omega i) * hessian m a i j * Real.sqrt (m.omega j)
      = (V * Matrix.diagonal (fun k => f k ^ 2) * V.transpose) i j := by
  rw [h, Matrix.mul_apply]
  refine sum_congr rfl fun k _ => ?_
  rw [Matrix.mul_diagonal, Matrix.transpose_apply]
  ring

/-! ### C106 -/

/-- C106 for systems whose surfaces are coupled by constants: with enough beads the expectation of the stored ratio times
the analytic partition function of the sampling model is as close as one likes to the partition function of the system,
whatever sampling model is used.  The modes may be mixed.  The partition function is known in closed form. -/
theorem C106_constant_coupling (eigh : Eigh) (he : EighSpec eigh) (beta : ℝ) (hb : 0 < beta) (vib : Vib A N)
    (rho : Rho A N) (hv : ∀ i, 0 < vib.omega i) (hr : ∀ i, 0 < rho.omega i) (hsym : vib.energy.IsSymm)
    (hcc : ConstantCoupling vib) (f : Fin A → Fin N → ℝ) (hf : ∀ a, NormalModes vib a (f a)) (ε : ℝ) (hε : 0 < ε) :
    ∃ P₀, ∀ (P : ℕ) [NeZero P], P₀ ≤ P →
      Integrable (fun R : BeadPath N P => storedRatio eigh (beta / P) vib rho R) (sampleLaw P eigh beta rho) ∧
      |(∫ R : BeadPath N P, storedRatio eigh (beta / P) vib rho R ∂(sampleLaw P eigh beta rho)) * harmonicZ beta rho
        - constantCouplingZ beta vib f| < ε := by
  have hlie := LieProduct.lie_product (-offDiagonal vib) (-(vib.energy - offDiagonal vib)) beta
  have hsum : beta • (-offDiagonal vib + -(vib.energy - offDiagonal vib)) = -beta • vib.energy := by
    rw [← neg_add, add_sub_cancel, smul_neg, neg_smul]
  rw [hsum] at hlie
  have helem : ∀ a, Tendsto (fun n : ℕ => ((NormedSpace.exp ((beta / n) • -offDiagonal vib)
      * NormedSpace.exp ((beta / n) • -(vib.energy - offDiagonal vib))) ^ n) a a) atTop
      (𝓝 (NormedSpace.exp (-beta • vib.energy) a a)) := fun a =>
    ((continuous_id.matrix_elem a a).tendsto (NormedSpace.exp (-beta • vib.energy))).comp hlie
  choose V hV hF using fun a => (hf a).2
  have hsurf := fun a => mixed_limit beta hb vib.omega (fun i => vib.linear i a a) hv
    (fun i j => vib.quadratic i j a a) (hessian vib a) (fun i j => rfl) (V a) (hV a) (f a) (hf a).1
    (normalModes_matrix vib a (f a) (V a) (hF a))
  have hall := tendsto_finsetSum (univ : Finset (Fin A)) fun a _ => (helem a).mul (hsurf a).2
  obtain ⟨n₁, h₁⟩ := (Metric.tendsto_atTop.mp hall) ε hε
  obtain ⟨n₂, h₂⟩ := eventually_atTop.mp (eventually_all.mpr fun a => (hsurf a).1)
  refine ⟨max 3 (max n₁ n₂), fun P _ hPP => ?_⟩
  have hP : 3 ≤ P := (le_max_left _ _).trans hPP
  have hP1 : n₁ ≤ P := (le_max_left _ _).trans ((le_max_right _ _).trans hPP)
  have hP2 : n₂ ≤ P := (le_max_right _ _).trans ((le_max_right _ _).trans hPP)
  have hP0 : (0 : ℝ) < P := by exact_mod_cast Nat.pos_of_ne_zero (NeZero.ne P)
  have hi : ∀ a, Integrable (mixed (P := P) (beta / P) vib.omega (fun i => vib.linear i a a)
      (fun i j => vib.quadratic i j a a)) := fun a => h₂ P hP2 a
  have hPb : (P : ℝ) * (beta / P) = beta := by field_simp
  have hg : ∀ R : BeadPath N P, gExact (beta / P) vib R = ∑ a, ((NormedSpace.exp ((beta / P) • -offDiagonal vib)
        * NormedSpace.exp ((beta / P) • -(vib.energy - offDiagonal vib))) ^ P) a a
      * (Real.exp (beta * ∑ i, vib.linear i a a ^ 2 / (2 * vib.omega i))
        * mixed (beta / P) vib.omega (fun i => vib.linear i a a) (fun i j => vib.quadratic i j a a) R) := by
    intro R
    rw [gExact_constant vib hv hcc (beta / P) R, hPb]
  have hgi : Integrable fun R : BeadPath N P => gExact (beta / P) vib R := by
    simp only [hg]
    exact integrable_finsetSum _ fun a _ => ((hi a).const_mul _).const_mul _
  refine ⟨(C59_unbiased hP eigh he beta hb vib rho hv hr (constant_symm vib hcc hsym)).1.mpr hgi, ?_⟩
  rw [C61_ratio_times_analytic hP eigh he beta hb vib rho hv hr (constant_symm vib hcc hsym)]
  have hval : (∫ R : BeadPath N P, gExact (beta / P) vib R) / Real.sqrt (2 * Real.pi) ^ (N * P)
      = ∑ a, ((NormedSpace.exp ((beta / P) • -offDiagonal vib)
        * NormedSpace.exp ((beta / P) • -(vib.energy - offDiagonal vib))) ^ P) a a
      * (Real.exp (beta * ∑ i, vib.linear i a a ^ 2 / (2 * vib.omega i))
        * mixedZ beta vib.omega (fun i => vib.linear i a a) (fun i j => vib.quadratic i j a a) P) := by
    simp only [hg]
    rw [integral_finsetSum _ fun a _ => ((hi a).const_mul _).const_mul _, sum_div]
    refine sum_congr rfl fun a _ => ?_
    have hz := mixedZ_eq beta vib.omega (fun i => vib.linear i a a) (fun i j => vib.quadratic i j a a) P
    rw [integral_const_mul, integral_const_mul, hz, mul_div_assoc, mul_div_assoc]
  rw [hval]
  have h := h₁ P hP1
  rw [Real.dist_eq] at h
  have e : constantCouplingZ beta vib f = ∑ a, NormedSpace.exp (-beta • vib.energy) a a
      * (Real.exp (beta / 2 * ((fun i => vib.linear i a a) ⬝ᵥ (hessian vib a)⁻¹.mulVec (fun i => vib.linear i a a)))
        * ∏ i, (2 * Real.sinh (beta * f a i / 2))⁻¹) := by
    unfold constantCouplingZ surfaceZ
    refine sum_congr rfl fun a _ => ?_
    congr 3
    ring
  rw [e]
  exact h

/-- A surface has normal modes when its potential has a minimum: the second derivatives are symmetric and positive
definite. -/
theorem C106_normal_modes (vib : Vib A N) (hv : ∀ i, 0 < vib.omega i) (a : Fin A) (hH : (hessian vib a).PosDef) :
    ∃ f, NormalModes vib a f := by
  obtain ⟨eigh, he⟩ := eigh_exists
  set F : Matrix (Fin N) (Fin N) ℝ := fun i j => Real.sqrt (vib.omega i) * hessian vib a i j * Real.sqrt (vib.omega j) with hFd
  have hsym : F.IsSymm := by
    ext i j
    have h1 : hessian vib a j i = hessian vib a i j := by
      have := hH.isHermitian.apply i j
      simpa using this
    rw [Matrix.transpose_apply, hFd]
    simp only [h1]
    ring
  obtain ⟨hV, hF⟩ := he N F hsym
  set V := (eigh N F).2
  set v := (eigh N F).1
  have hvpos : ∀ k, 0 < v k := by
    intro k
    -- the eigenvector of `k`
    have hu : ∀ q, ∑ i, V i q * V i k = if q = k then 1 else 0 := by
      intro q
      have := congrFun (congrFun hV q) k
      rw [Matrix.mul_apply, Matrix.one_apply] at this
      simpa using this
    have h1 := diag_form F V v hF (fun i => V i k)
    simp only [hu, ite_pow, one_pow, ne_eq, OfNat.ofNat_ne_zero, not_false_eq_true, zero_pow, mul_ite, mul_one, mul_zero,
      sum_ite_eq', mem_univ, if_true] at h1
    rw [← h1]
    have hx : (fun i => Real.sqrt (vib.omega i) * V i k) ≠ 0 := by
      intro h0
      have h2 := hu k
      rw [if_pos rfl] at h2
      have h3 : ∀ i, V i k = 0 := fun i => by
        have h4 : Real.sqrt (vib.omega i) * V i k = 0 := congrFun h0 i
        exact (mul_eq_zero.mp h4).resolve_left (Real.sqrt_pos.mpr (hv i)).ne'
      simp [h3] at h2
    have h5 := (Matrix.posDef_iff_dotProduct_mulVec.mp hH).2 hx
    simp only [dotProduct, Matrix.mulVec, Pi.star_apply, star_trivial, mul_sum] at h5
    refine h5.trans_eq (sum_congr rfl fun i _ => sum_congr rfl fun j _ => ?_)
    simp only [hFd]
    ring
  refine ⟨fun k => Real.sqrt (v k), fun k => Real.sqrt_pos.mpr (hvpos k), V, hV, fun i j => ?_⟩
  have h1 : F i j = (V * Matrix.diagonal v * V.transpose) i j := congrFun (congrFun hF i) j
  rw [Matrix.mul_apply] at h1
  refine h1.trans (sum_congr rfl fun k _ => ?_)
  rw [Matrix.mul_diagonal, Matrix.transpose_apply, Real.sq_sqrt (hvpos k).le]
  ring

/-- C106 for separable systems: with enough beads the expectation of the stored ratio times the analytic partition
function of the sampling model is as close as one likes to the partition function of the system, whatever sampling model
is used.  The partition function is known in closed form. -/
theorem C106_many_beads (eigh : Eigh) (he : EighSpec eigh) (beta : ℝ) (hb : 0 < beta) (vib : Vib A N)
    (rho : Rho A N) (hv : ∀ i, 0 < vib.omega i) (hr : ∀ i, 0 < rho.omega i) (hsym : vib.energy.IsSymm)
    (l q : Fin N → ℝ) (hsep : Separable vib l q) (hq : ∀ i, 0 < vib.omega i + q i) (ε : ℝ) (hε : 0 < ε) :
    ∃ P₀, ∀ (P : ℕ) [NeZero P], P₀ ≤ P →
      Integrable (fun R : BeadPath N P => storedRatio eigh (beta / P) vib rho R) (sampleLaw P eigh beta rho) ∧
      |(∫ R : BeadPath N P, storedRatio eigh (beta / P) vib rho R ∂(sampleLaw P eigh beta rho)) * harmonicZ beta rho
        - separableZ beta vib l q| < ε := by
  have hlie := LieProduct.lie_product (-offDiagonal vib) (-(vib.energy - offDiagonal vib)) beta
  have hsum : beta • (-offDiagonal vib + -(vib.energy - offDiagonal vib)) = -beta • vib.energy := by
    rw [← neg_add, add_sub_cancel, smul_neg, neg_smul]
  rw [hsum] at hlie
  have htr := ((continuous_id.matrix_trace).tendsto (NormedSpace.exp (-beta • vib.energy))).comp hlie
  have hmodes := tendsto_finsetProd (univ : Finset (Fin N)) fun i _ =>
    tendsto_modeFactor beta (vib.omega i) (l i) (q i) hb (hv i) (hq i)
  have hall := htr.mul hmodes
  have hnear := (Metric.tendsto_atTop.mp hall) ε hε
  obtain ⟨n₁, h₁⟩ := hnear
  obtain ⟨n₂, h₂⟩ := eventually_atTop.mp (eventually_all.mpr fun i =>
    eventually_stiff beta (vib.omega i) (q i) hb (hq i))
  refine ⟨max 3 (max n₁ n₂), fun P _ hPP => ?_⟩
  have hP : 3 ≤ P := (le_max_left _ _).trans hPP
  have hP1 : n₁ ≤ P := (le_max_left _ _).trans ((le_max_right _ _).trans hPP)
  have hP2 : n₂ ≤ P := (le_max_right _ _).trans ((le_max_right _ _).trans hPP)
  have hs := h₂ P hP2
  refine ⟨(C59_unbiased hP eigh he beta hb vib rho hv hr (separable_symm vib l q hsep hsym)).1.mpr
    (integrable_separable hP vib hv l q hsep beta hb hs), ?_⟩
  rw [C61_ratio_times_analytic hP eigh he beta hb vib rho hv hr (separable_symm vib l q hsep hsym),
    integral_gExact_separable hP vib hv l q hsep beta hb hs]
  have := h₁ P hP1
  rw [Real.dist_eq] at this
  exact this

/-! ### the closed form -/

/-- The factor of an oscillator is the sum over its levels `f (n + 1/2)` (`f` the frequency): `separableZ` is a sum over
states. -/
theorem C106_levels (beta f : ℝ) (hb : 0 < beta) (hf : 0 < f) :
    HasSum (fun n : ℕ => Real.exp (-beta * (f * (n + 1 / 2)))) (2 * Real.sinh (beta * f / 2))⁻¹ := by
  have hx : Real.exp (-(beta * f)) < 1 := by rw [Real.exp_lt_one_iff]; have := mul_pos hb hf; linarith
  have h := (hasSum_geometric_of_lt_one (Real.exp_pos _).le hx).mul_left (Real.exp (-(beta * f / 2)))
  have e : Real.exp (-(beta * f / 2)) * (1 - Real.exp (-(beta * f)))⁻¹ = (2 * Real.sinh (beta * f / 2))⁻¹ := by
    rw [Real.sinh_eq, mul_div_cancel₀ _ (two_ne_zero), ← div_eq_mul_inv]
    have h1 : 1 - Real.exp (-(beta * f)) = Real.exp (-(beta * f / 2))
        * (Real.exp (beta * f / 2) - Real.exp (-(beta * f / 2))) := by
      rw [mul_sub, ← Real.exp_add, ← Real.exp_add, neg_add_cancel, Real.exp_zero]
      congr 2; ring
    rw [h1, div_mul_eq_div_div, div_self (Real.exp_pos _).ne', one_div]
  rw [e] at h
  refine h.congr_fun ?_
  intro n
  rw [← Real.exp_nat_mul, ← Real.exp_add]
  congr 1
  ring

/-- For surfaces that are not coupled and without quadratic terms the closed form is the partition function of the
sampling models. -/
theorem C106_harmonic (beta : ℝ) (vib : Vib A N) (rho : Rho A N) (l : Fin N → ℝ)
    (hv : ∀ i, 0 < vib.omega i) (hw : rho.omega = vib.omega) (hE : vib.energy = Matrix.diagonal rho.energy) (hl : ∀ i a, rho.linear i a = l i) :
    separableZ beta vib l 0 = harmonicZ beta rho := by
  have hexp : (NormedSpace.exp (-beta • vib.energy)).trace = ∑ a, Real.exp (-beta * rho.energy a) := by
    rw [hE, ← Matrix.diagonal_smul, Matrix.exp_diagonal, Matrix.trace_diagonal]
    refine sum_congr rfl fun a _ => ?_
    rw [Pi.coe_exp, Real.exp_eq_exp_ℝ]
    rfl
  unfold separableZ harmonicZ
  rw [hexp, sum_mul]
  refine sum_congr rfl fun a _ => ?_
  simp only [Pi.zero_apply, add_zero, Real.sqrt_mul_self (hv _).le, hw, hl]
  rw [prod_mul_distrib, ← mul_assoc, ← Real.exp_sum, ← Real.exp_add, ← mul_sum]
  congr 2
  ring

private theorem exp_diagonal_apply (beta : ℝ) (d : Fin A → ℝ) (a : Fin A) :
    NormedSpace.exp (-beta • Matrix.diagonal d) a a = Real.exp (-beta * d a) := by
  rw [← Matrix.diagonal_smul, exp_diagonal_real, Matrix.diagonal_apply_eq, Pi.smul_apply, smul_eq_mul]

/-- For surfaces that are not coupled and without quadratic terms the general closed form is the partition function of
the sampling models, and the normal modes are the modes. -/
theorem C106_uncoupled (beta : ℝ) (vib : Vib A N) (rho : Rho A N) (hv : ∀ i, 0 < vib.omega i)
    (hw : rho.omega = vib.omega) (hE : vib.energy = Matrix.diagonal rho.energy) (hq : ∀ i j, vib.quadratic i j = 0)
    (hl : ∀ i, vib.linear i = Matrix.diagonal (rho.linear i)) :
    ConstantCoupling vib ∧ (∀ a, NormalModes vib a vib.omega) ∧
      constantCouplingZ beta vib (fun _ => vib.omega) = harmonicZ beta rho := by
  have hH : ∀ a, hessian vib a = Matrix.diagonal vib.omega := by
    intro a
    ext i j
    simp [hessian, hq, Matrix.diagonal_apply]
  refine ⟨fun a b h => ⟨fun i => by rw [hl, Matrix.diagonal_apply_ne _ h], fun i j => by rw [hq]; rfl, fun h0 =>
    absurd (by rw [hE, Matrix.diagonal_apply_ne _ h]) h0⟩, fun a => ⟨hv, 1, by simp, fun i j => ?_⟩, ?_⟩
  · rw [hH]
    by_cases h : i = j
    · subst h
      have h1 := Real.mul_self_sqrt (hv i).le
      have h2 : ∀ k, vib.omega k ^ 2 * ((1 : Matrix (Fin N) (Fin N) ℝ) i k * (1 : Matrix (Fin N) (Fin N) ℝ) i k)
          = if i = k then vib.omega i ^ 2 else 0 := by
        intro k
        by_cases hk : i = k
        · subst hk; simp
        · simp [Matrix.one_apply_ne hk, hk]
      rw [Matrix.diagonal_apply_eq, sum_congr rfl fun k _ => h2 k, sum_ite_eq, if_pos (mem_univ _)]
      linear_combination vib.omega i * h1
    · rw [Matrix.diagonal_apply_ne _ h, mul_zero, zero_mul, sum_eq_zero]
      intro k _
      by_cases hk : i = k
      · rw [Matrix.one_apply_ne (show j ≠ k from fun h' => h (hk.trans h'.symm))]; ring
      · rw [Matrix.one_apply_ne hk]; ring
  · have hinv : (Matrix.diagonal vib.omega)⁻¹ = Matrix.diagonal fun i => (vib.omega i)⁻¹ := by
      refine Matrix.inv_eq_right_inv ?_
      rw [Matrix.diagonal_mul_diagonal]
      refine (congrArg Matrix.diagonal (funext fun i => mul_inv_cancel₀ (hv i).ne')).trans Matrix.diagonal_one
    unfold constantCouplingZ surfaceZ harmonicZ
    refine sum_congr rfl fun a _ => ?_
    rw [hE, exp_diagonal_apply, hH, hinv, ← mul_assoc, ← Real.exp_add, hw]
    congr 2
    simp only [dotProduct, Matrix.mulVec_diagonal, hl, Matrix.diagonal_apply_eq]
    rw [mul_sub, sub_eq_add_neg, mul_neg, neg_mul, neg_mul, neg_neg, neg_mul, neg_neg, mul_sum, mul_sum, sum_div]
    congr 1
    refine sum_congr rfl fun i _ => ?_
    have := (hv i).ne'
    field_simp

/-! ### the hypotheses can be met -/

/-- two surfaces coupled by a constant, with linear and quadratic terms -/
noncomputable def tuned : Vib 2 2 where
  energy := !![1, 1/3; 1/3, 2]
  omega := fun i => if i = 0 then 1 else 2
  linear := fun i => (if i = 0 then 1/2 else -1/4 : ℝ) • 1
  quadratic := fun i j => if i = j then (if i = 0 then -1/2 else 1 : ℝ) • 1 else 0

/-- C106: the system `tuned`, sampled with its own diagonal. -/
example (eigh : Eigh) (he : EighSpec eigh) : ∃ P₀, ∀ (P : ℕ) [NeZero P], P₀ ≤ P →
    Integrable (fun R : BeadPath 2 P => storedRatio eigh (1 / P) tuned (diagonalRho tuned) R)
      (sampleLaw P eigh 1 (diagonalRho tuned)) ∧
    |(∫ R : BeadPath 2 P, storedRatio eigh (1 / P) tuned (diagonalRho tuned) R
        ∂(sampleLaw P eigh 1 (diagonalRho tuned))) * harmonicZ 1 (diagonalRho tuned)
      - separableZ 1 tuned (fun i => if i = 0 then 1/2 else -1/4) (fun i => if i = 0 then -1/2 else 1)| < 1 / 100 := by
  have hw : ∀ i, 0 < tuned.omega i := by intro i; simp only [tuned]; split <;> norm_num
  refine C106_many_beads eigh he 1 one_pos tuned (diagonalRho tuned) hw hw ?_ _ _ ⟨fun _ => rfl, fun _ _ => rfl⟩ ?_
    _ (by norm_num)
  · ext a b; fin_cases a <;> fin_cases b <;> simp [tuned]
  · intro i; simp only [tuned]; split <;> norm_num

/-- three surfaces: the first two are coupled and have the same oscillators, the modes are mixed on every surface -/
noncomputable def mixing : Vib 3 2 where
  energy := !![1, 1/3, 0; 1/3, 2, 0; 0, 0, 1/2]
  omega := fun i => if i = 0 then 1 else 2
  linear := fun i => Matrix.diagonal fun a => if a = 2 then (if i = 0 then -1 else 1/3) else (if i = 0 then 1/2 else 0)
  quadratic := fun i j => Matrix.diagonal fun a => if i = j then (if a = 2 then 1 else -1/2) else (if a = 2 then -1 else 1/4)

private theorem mixing_posDef (a : Fin 3) : (hessian mixing a).PosDef := by
  refine Matrix.posDef_iff_dotProduct_mulVec.mpr ⟨?_, fun {x} hx => ?_⟩
  · ext i j
    fin_cases a <;> fin_cases i <;> fin_cases j <;> simp [hessian, mixing]
  · have h0 : x 0 ≠ 0 ∨ x 1 ≠ 0 := by
      by_contra h
      push Not at h
      exact hx (funext fun i => by fin_cases i <;> simp [h.1, h.2])
    have hs : 0 < x 0 ^ 2 + x 1 ^ 2 := by
      rcases h0 with h | h
      · have := pow_pos (abs_pos.mpr h) 2; rw [sq_abs] at this; positivity
      · have := pow_pos (abs_pos.mpr h) 2; rw [sq_abs] at this; positivity
    fin_cases a <;>
      simp [hessian, mixing, dotProduct, Matrix.mulVec, Fin.sum_univ_two] <;>
      nlinarith [sq_nonneg (x 0 + x 1), sq_nonneg (x 0 - x 1), sq_nonneg (x 0), sq_nonneg (x 1)]

/-- C106: the system `mixing`, sampled with its own diagonal. -/
example (eigh : Eigh) (he : EighSpec eigh) : ∃ f, ∃ P₀, ∀ (P : ℕ) [NeZero P], P₀ ≤ P →
    Integrable (fun R : BeadPath 2 P => storedRatio eigh (2 / P) mixing (diagonalRho mixing) R)
      (sampleLaw P eigh 2 (diagonalRho mixing)) ∧
    |(∫ R : BeadPath 2 P, storedRatio eigh (2 / P) mixing (diagonalRho mixing) R
        ∂(sampleLaw P eigh 2 (diagonalRho mixing))) * harmonicZ 2 (diagonalRho mixing)
      - constantCouplingZ 2 mixing f| < 1 / 100 := by
  have hw : ∀ i, 0 < mixing.omega i := by intro i; simp only [mixing]; split <;> norm_num
  choose f hf using fun a => C106_normal_modes mixing hw a (mixing_posDef a)
  refine ⟨f, C106_constant_coupling eigh he 2 two_pos mixing (diagonalRho mixing) hw hw ?_ ?_ f hf _ (by norm_num)⟩
  · ext a b; fin_cases a <;> fin_cases b <;> simp [mixing]
  · intro a b h
    refine ⟨fun i => Matrix.diagonal_apply_ne _ h, fun i j => Matrix.diagonal_apply_ne _ h, fun h0 => ?_⟩
    fin_cases a <;> fin_cases b <;> simp [mixing] at h h0 ⊢

end Pibronic.Props.Trotter
