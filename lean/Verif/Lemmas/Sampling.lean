import Verif.Model.Sampling
import Verif.Spec.PIMC
import Verif.Lemmas.PIMC
import Mathlib.MeasureTheory.Measure.Lebesgue.Basic
import Mathlib.MeasureTheory.Measure.Haar.OfBasis
import Mathlib.Data.List.GetD

set_option autoImplicit false

/-! Helper lemmas for the sampling distribution. -/
namespace Pibronic.PIMC
open Finset Spec.PIMC MeasureTheory ProbabilityTheory

/-! ### the circulant matrix -/

theorem circulant_apply (P : ℕ) [NeZero P] (hP : 3 ≤ P) (i j : Fin P) :
    circulant P i j = (if i = j + 1 then 1 else 0) + (if j = i + 1 then 1 else 0) := by
  obtain ⟨n, rfl⟩ : ∃ n, P = n + 3 := ⟨P - 3, by omega⟩
  have hd : ∀ k : Fin (n + 3), ([0, 1] ++ List.replicate (n + 3 - 3) 0 ++ [1] : List ℝ).getD k.val 0
      = (if k = 1 then 1 else 0) + (if k = -1 then 1 else 0) := by
    intro k
    have hk := k.2
    have h1 : (k = 1) ↔ k.val = 1 := by
      rw [Fin.ext_iff]; rfl
    have h2 : (k = -1) ↔ k.val = n + 2 := by
      rw [Fin.ext_iff]
      simp [Fin.val_neg]
    rw [if_congr h1 rfl rfl, if_congr h2 rfl rfl]
    rcases k with ⟨k, hk'⟩
    simp only at *
    rcases k with _ | _ | k
    · simp
    · simp
    · simp only [List.cons_append, List.nil_append, List.getD_cons_succ, Nat.add_sub_cancel]
      by_cases h : k < n
      · rw [List.getD_append _ _ _ _ (by simpa using h), List.getD_replicate _ h]
        rw [if_neg (by omega), if_neg (by omega)]; norm_num
      · have : k = n := by omega
        subst this
        rw [List.getD_append_right _ _ _ _ (by simp)]
        simp
  have h := hd (i - j)
  unfold circulant
  rw [h]
  congr 1
  · exact if_congr ⟨fun h => by rw [← h]; abel, fun h => by rw [h]; abel⟩ rfl rfl
  · exact if_congr ⟨fun h => by rw [show (1 : Fin (n + 3)) = j - i by rw [← neg_sub, h, neg_neg]]; abel,
      fun h => by rw [h]; abel⟩ rfl rfl

theorem circulant_isSymm (P : ℕ) [NeZero P] (hP : 3 ≤ P) : (circulant P).IsSymm := by
  ext i j
  rw [Matrix.transpose_apply, circulant_apply P hP, circulant_apply P hP, add_comm]

/-- The quadratic form of the circulant matrix. -/
theorem circulant_form (P : ℕ) [NeZero P] (hP : 3 ≤ P) (x : Fin P → ℝ) :
    ∑ i, ∑ j, x i * circulant P i j * x j = 2 * ∑ p, x p * x (p + 1) := by
  simp only [circulant_apply P hP, mul_add, add_mul, sum_add_distrib, mul_ite, ite_mul, mul_one,
    mul_zero, zero_mul]
  have h1 : ∑ i, ∑ j, (if i = j + 1 then x i * x j else 0) = ∑ p, x p * x (p + 1) := by
    rw [sum_comm]
    refine sum_congr rfl fun j _ => ?_
    simp [mul_comm]
  have h2 : ∑ i, ∑ j, (if j = i + 1 then x i * x j else 0) = ∑ p, x p * x (p + 1) := by
    refine sum_congr rfl fun j _ => ?_
    simp
  rw [h1, h2]; ring

theorem form_le (P : ℕ) [NeZero P] (x : Fin P → ℝ) :
    2 * ∑ p, x p * x (p + 1) ≤ 2 * ∑ p, x p ^ 2 := by
  have h : ∑ p, x (p + 1) ^ 2 = ∑ p, x p ^ 2 :=
    Fintype.sum_equiv (Equiv.addRight 1) _ _ fun _ => rfl
  have : 0 ≤ ∑ p, (x p - x (p + 1)) ^ 2 := sum_nonneg fun _ _ => sq_nonneg _
  have e : ∑ p, (x p - x (p + 1)) ^ 2 = ∑ p, x p ^ 2 - 2 * ∑ p, x p * x (p + 1) + ∑ p, x (p + 1) ^ 2 := by
    rw [mul_sum, ← sum_sub_distrib, ← sum_add_distrib]
    exact sum_congr rfl fun _ _ => by ring
  rw [h] at e
  linarith

/-- The quadratic form of a diagonalised matrix. -/
theorem diag_form {n : ℕ} (C V : Matrix (Fin n) (Fin n) ℝ) (v : Fin n → ℝ)
    (hC : C = V * Matrix.diagonal v * V.transpose) (x : Fin n → ℝ) :
    ∑ i, ∑ j, x i * C i j * x j = ∑ p, v p * (∑ i, V i p * x i) ^ 2 := by
  have hC' : ∀ i j, C i j = ∑ p, V i p * v p * V j p := by
    intro i j
    rw [hC, Matrix.mul_apply]
    exact sum_congr rfl fun p _ => by rw [Matrix.mul_diagonal, Matrix.transpose_apply]
  calc ∑ i, ∑ j, x i * C i j * x j
      = ∑ i, ∑ j, ∑ p, v p * (V i p * x i) * (V j p * x j) := by
        refine sum_congr rfl fun i _ => sum_congr rfl fun j _ => ?_
        rw [hC', mul_sum, sum_mul]
        exact sum_congr rfl fun _ _ => by ring
    _ = ∑ p, ∑ i, ∑ j, v p * (V i p * x i) * (V j p * x j) := by
        rw [sum_comm]
        conv_lhs => rw [sum_comm]
        rw [sum_congr rfl fun i _ => sum_comm (s := (univ : Finset (Fin n)))
          (f := fun j p => v p * (V i p * x i) * (V j p * x j)), sum_comm]
    _ = ∑ p, v p * (∑ i, V i p * x i) ^ 2 := by
        refine sum_congr rfl fun p _ => ?_
        rw [pow_two, sum_mul_sum, mul_sum]
        refine sum_congr rfl fun i _ => ?_
        rw [mul_sum]
        exact sum_congr rfl fun _ _ => by ring

theorem ortho_form {n : ℕ} (V : Matrix (Fin n) (Fin n) ℝ) (hV : V.transpose * V = 1) (x : Fin n → ℝ) :
    ∑ p, (∑ i, V i p * x i) ^ 2 = ∑ i, x i ^ 2 := by
  have h := diag_form 1 V (fun _ => 1) (by
    rw [Matrix.diagonal_one, Matrix.mul_one, mul_eq_one_comm.mp hV]) x
  simp only [one_mul] at h
  rw [← h]
  refine sum_congr rfl fun i _ => ?_
  simp [Matrix.one_apply, pow_two]

/-- The eigenvalues of the circulant matrix are at most 2. -/
theorem eigval_le_two (P : ℕ) [NeZero P] (hP : 3 ≤ P) (eigh : Eigh) (he : EighSpec eigh) (p : Fin P) :
    (eigh P (circulant P)).1 p ≤ 2 := by
  obtain ⟨hV, hC⟩ := he P (circulant P) (circulant_isSymm P hP)
  set V := (eigh P (circulant P)).2
  set v := (eigh P (circulant P)).1
  -- the eigenvector of `p`
  let x : Fin P → ℝ := fun i => V i p
  have hx : ∀ q, ∑ i, V i q * x i = if q = p then 1 else 0 := by
    intro q
    have := congrFun (congrFun hV q) p
    rw [Matrix.mul_apply] at this
    simpa [Matrix.one_apply] using this
  have h1 := diag_form _ V v hC x
  simp only [hx] at h1
  have h2 := ortho_form V hV x
  simp only [hx] at h2
  rw [circulant_form P hP] at h1
  have h3 := form_le P x
  rw [h1, ← h2] at h3
  simpa using h3

/-! ### the inverse covariance -/

section
variable {A N P : ℕ}

theorem csch_lt_coth (u : ℝ) (hu : 0 < u) :
    0 < (Real.sinh u)⁻¹ ∧ (Real.sinh u)⁻¹ < (Real.tanh u)⁻¹ := by
  have hs : 0 < Real.sinh u := Real.sinh_pos_iff.mpr hu
  have hc : 1 < Real.cosh u := Real.one_lt_cosh.mpr hu.ne'
  refine ⟨inv_pos.mpr hs, ?_⟩
  rw [Real.tanh_eq_sinh_div_cosh, inv_div, inv_eq_one_div]
  exact (div_lt_div_iff_of_pos_right hs).mpr hc

theorem invCov_pos [NeZero P] (hP : 3 ≤ P) (eigh : Eigh) (he : EighSpec eigh) (t : ℝ) (ht : 0 < t)
    (rho : Rho A N) (hr : ∀ i, 0 < rho.omega i) (i : Fin N) (p : Fin P) :
    0 < invCov (rho.consts t) (eigh P (circulant P)).1 i p := by
  have hu : 0 < Constants.hbar * t * rho.omega i := by
    have : Constants.hbar = 1 := by norm_num [Constants.hbar]
    rw [this, one_mul]; exact mul_pos ht (hr i)
  obtain ⟨h1, h2⟩ := csch_lt_coth _ hu
  have h3 := eigval_le_two P hP eigh he p
  have h4 := mul_le_mul_of_nonneg_left h3 h1.le
  unfold invCov Rho.consts consts
  simp only
  linarith

theorem stdDev_sq (c : Consts A N) (v : Fin P → ℝ) (i : Fin N) (p : Fin P) (h : 0 < invCov c v i p) :
    stdDev c v i p ^ 2 = 1 / invCov c v i p :=
  Real.sq_sqrt (one_div_pos.mpr h).le

/-! ### the density -/

/-- The collective coordinates of a path relative to the surface `a`. -/
noncomputable def collective (V : Matrix (Fin P) (Fin P) ℝ) (rho : Rho A N) (a : Fin A)
    (R : BeadPath N P) : BeadPath N P :=
  fun i p => ∑ q, V q p * (R i q - rho.shift a i)

theorem collective_transform (V : Matrix (Fin P) (Fin P) ℝ) (hV : V.transpose * V = 1) (rho : Rho A N)
    (a : Fin A) (cc : BeadPath N P) : collective V rho a (transform V rho a cc) = cc := by
  funext i p
  unfold collective transform
  simp only [add_sub_cancel_right, mul_sum]
  rw [sum_comm]
  have h : ∀ b, ∑ q, V q p * (V q b * cc i b) = if p = b then cc i b else 0 := by
    intro b
    have := congrFun (congrFun hV p) b
    rw [Matrix.mul_apply] at this
    simp only [Matrix.transpose_apply, Matrix.one_apply] at this
    simp only [← mul_assoc]
    rw [← sum_mul, this, ite_mul, one_mul, zero_mul]
  simp [h]

/-- The closed product of propagators of one mode is a Gaussian in the collective coordinates. -/
theorem prod_propagator [NeZero P] (hP : 3 ≤ P) (V : Matrix (Fin P) (Fin P) ℝ) (v : Fin P → ℝ)
    (hV : V.transpose * V = 1) (hC : circulant P = V * Matrix.diagonal v * V.transpose) (t w : ℝ)
    (hu : 0 < t * w) (x : Fin P → ℝ) :
    ∏ p, propagator t w (x p) (x (p + 1)) = Real.exp (-(1 / 2) *
      ∑ p, (2 * (Real.tanh (t * w))⁻¹ - (Real.sinh (t * w))⁻¹ * v p) * (∑ i, V i p * x i) ^ 2)
        / Real.sqrt (Real.sinh (t * w)) ^ P := by
  have hs : 0 < Real.sinh (t * w) := Real.sinh_pos_iff.mpr hu
  unfold propagator
  rw [prod_div_distrib, prod_const, card_univ, Fintype.card_fin, ← Real.exp_sum]
  congr 2
  have h1 := diag_form _ V v hC x
  rw [circulant_form P hP] at h1
  have h2 := ortho_form V hV x
  have h3 : ∑ p, x (p + 1) ^ 2 = ∑ p, x p ^ 2 :=
    Fintype.sum_equiv (Equiv.addRight 1) _ _ fun _ => rfl
  simp only [sub_mul, sum_sub_distrib, mul_assoc]
  rw [← mul_sum, ← mul_sum, ← mul_sum, ← h1, h2]
  have e : ∑ p, -((x p ^ 2 + x (p + 1) ^ 2) * Real.cosh (t * w) - 2 * (x p * x (p + 1)))
      / (2 * Real.sinh (t * w)) = -((∑ p, x p ^ 2 + ∑ p, x (p + 1) ^ 2) * Real.cosh (t * w)
        - 2 * ∑ p, x p * x (p + 1)) / (2 * Real.sinh (t * w)) := by
    rw [← sum_add_distrib, sum_mul, mul_sum, ← sum_sub_distrib, ← sum_neg_distrib, sum_div]
  rw [e, h3, Real.tanh_eq_sinh_div_cosh]
  field_simp
  ring

theorem gaussianPDFReal_of_inv (k y : ℝ) (hk : 0 < k) :
    gaussianPDFReal 0 (Real.toNNReal (1 / k)) y
      = (Real.sqrt (2 * Real.pi / k))⁻¹ * Real.exp (-(1 / 2) * (k * y ^ 2)) := by
  rw [gaussianPDFReal, Real.coe_toNNReal _ (one_div_pos.mpr hk).le, mul_one_div]
  congr 2
  field_simp
  ring

/-- The mixture density the code samples from. -/
noncomputable def mixture (eigh : Eigh) (beta : ℝ) (rho : Rho A N) (R : BeadPath N P) : ℝ :=
  ∑ a, rho.weight beta a * ∏ i, ∏ p, gaussianPDFReal 0
    (Real.toNNReal (stdDev (rho.consts (beta / P)) (eigh P (circulant P)).1 i p ^ 2))
    (collective (eigh P (circulant P)).2 rho a R i p)

theorem rawWeight_pos (rho : Rho A N) (beta : ℝ) (hb : 0 < beta) (hr : ∀ i, 0 < rho.omega i) (a : Fin A) :
    0 < rho.rawWeight beta a :=
  div_pos (Real.exp_pos _) (prod_pos fun i _ => Real.sinh_pos_iff.mpr (half_pos (mul_pos hb (hr i))))

theorem sum_rawWeight_pos [NeZero A] (rho : Rho A N) (beta : ℝ) (hb : 0 < beta)
    (hr : ∀ i, 0 < rho.omega i) : 0 < ∑ a, rho.rawWeight beta a :=
  sum_pos (fun a _ => rawWeight_pos rho beta hb hr a) univ_nonempty

theorem rho_bottom (rho : Rho A N) (hr : ∀ i, 0 < rho.omega i) (a : Fin A) :
    bottom (rho.energy a) (fun i => rho.linear i a) rho.omega = rho.energy a + rho.delta a := by
  unfold bottom Rho.delta
  rw [mul_sum, sub_eq_add_neg, ← sum_neg_distrib]
  congr 1
  refine sum_congr rfl fun i _ => ?_
  have := (hr i).ne'
  field_simp
  norm_num
  ring

/-- C33, pointwise: the sampling integrand is a positive multiple of the mixture density. -/
theorem rhoExact_eq_mixture [NeZero A] [NeZero P] (hP : 3 ≤ P) (eigh : Eigh) (he : EighSpec eigh)
    (beta : ℝ) (hb : 0 < beta) (rho : Rho A N) (hr : ∀ i, 0 < rho.omega i) :
    ∃ c, 0 < c ∧ (c = (∏ i, (∏ p, Real.sqrt (2 * Real.pi / invCov (rho.consts (beta / P))
          (eigh P (circulant P)).1 i p)) / Real.sqrt (Real.sinh (beta / P * rho.omega i)) ^ P)
        * (∏ i, Real.sinh (beta * rho.omega i / 2)) * ∑ a, rho.rawWeight beta a) ∧
      ∀ R : BeadPath N P, rhoExact (beta / P) rho R = c * mixture eigh beta rho R := by
  have hP0 : (0 : ℝ) < P := by exact_mod_cast Nat.pos_of_ne_zero (NeZero.ne P)
  have ht : 0 < beta / P := div_pos hb hP0
  obtain ⟨hV, hC⟩ := he P (circulant P) (circulant_isSymm P hP)
  set V := (eigh P (circulant P)).2 with hVdef
  set v := (eigh P (circulant P)).1 with hvdef
  set t := beta / P with htdef
  let k : Fin N → Fin P → ℝ := fun i p => invCov (rho.consts t) v i p
  have hk : ∀ i p, 0 < k i p := fun i p => invCov_pos hP eigh he t ht rho hr i p
  have hkdef : ∀ i p, k i p = 2 * (Real.tanh (t * rho.omega i))⁻¹ - (Real.sinh (t * rho.omega i))⁻¹ * v p := by
    intro i p
    have : Constants.hbar = 1 := by norm_num [Constants.hbar]
    simp only [k, invCov, Rho.consts, consts, this, one_mul]
  let K : Fin N → ℝ := fun i => (∏ p, Real.sqrt (2 * Real.pi / k i p))
    / Real.sqrt (Real.sinh (t * rho.omega i)) ^ P
  have hs : ∀ i, 0 < Real.sinh (t * rho.omega i) := fun i => Real.sinh_pos_iff.mpr (mul_pos ht (hr i))
  have hK : ∀ i, 0 < K i := fun i => div_pos
    (prod_pos fun p _ => Real.sqrt_pos.mpr (div_pos (by positivity) (hk i p)))
    (pow_pos (Real.sqrt_pos.mpr (hs i)) _)
  have hprod : ∀ (R : BeadPath N P) a i, ∏ p, propagator t (rho.omega i)
      (R i p - centre (rho.linear i a) (rho.omega i)) (R i (p + 1) - centre (rho.linear i a) (rho.omega i))
      = K i * ∏ p, gaussianPDFReal 0 (Real.toNNReal (stdDev (rho.consts t) v i p ^ 2))
        (collective V rho a R i p) := by
    intro R a i
    rw [prod_propagator hP V v hV hC t (rho.omega i) (mul_pos ht (hr i))
      fun p => R i p - centre (rho.linear i a) (rho.omega i)]
    have hgauss : ∀ p y, gaussianPDFReal 0 (Real.toNNReal (stdDev (rho.consts t) v i p ^ 2)) y
        = (Real.sqrt (2 * Real.pi / k i p))⁻¹ * Real.exp (-(1 / 2) * (k i p * y ^ 2)) := by
      intro p y
      rw [stdDev_sq _ _ _ _ (hk i p)]
      exact gaussianPDFReal_of_inv _ _ (hk i p)
    simp only [hgauss, prod_mul_distrib, ← Real.exp_sum, prod_inv_distrib, ← hkdef]
    rw [← mul_sum]
    have hne : (∏ p, Real.sqrt (2 * Real.pi / k i p)) ≠ 0 :=
      prod_ne_zero_iff.mpr fun p _ => (Real.sqrt_pos.mpr (div_pos (by positivity) (hk i p))).ne'
    have hne' : (Real.sqrt (Real.sinh (t * rho.omega i)) ^ P) ≠ 0 := (pow_pos (Real.sqrt_pos.mpr (hs i)) _).ne'
    simp only [K]
    field_simp
    rfl
  have hW := sum_rawWeight_pos rho beta hb hr
  have hsb : ∀ i, 0 < Real.sinh (beta * rho.omega i / 2) := fun i =>
    Real.sinh_pos_iff.mpr (half_pos (mul_pos hb (hr i)))
  refine ⟨(∏ i, K i) * (∏ i, Real.sinh (beta * rho.omega i / 2)) * ∑ a, rho.rawWeight beta a,
    mul_pos (mul_pos (prod_pos fun i _ => hK i) (prod_pos fun i _ => hsb i)) hW, rfl, fun R => ?_⟩
  unfold rhoExact mixture step
  rw [mul_sum]
  refine sum_congr rfl fun a _ => ?_
  rw [prod_mul_distrib, prod_const, card_univ, Fintype.card_fin, prod_comm]
  simp only [hprod, prod_mul_distrib]
  have hexp : Real.exp (-t * bottom (rho.energy a) (fun i => rho.linear i a) rho.omega) ^ P
      = (∏ i, Real.sinh (beta * rho.omega i / 2)) * rho.rawWeight beta a := by
    rw [rho_bottom rho hr, ← Real.exp_nat_mul, Rho.rawWeight,
      mul_div_cancel₀ _ (prod_ne_zero_iff.mpr fun i _ => (hsb i).ne')]
    congr 1
    rw [htdef]
    field_simp
  rw [hexp, Rho.weight]
  have := hW.ne'
  field_simp
  rfl

/-! ### measures -/

theorem lintegral_pi_prod {n : ℕ} {E : Type*} [MeasurableSpace E] (μ : Fin n → Measure E)
    [∀ i, SigmaFinite (μ i)] (f : Fin n → E → ENNReal) (hf : ∀ i, Measurable (f i)) :
    ∫⁻ x, ∏ i, f i (x i) ∂(Measure.pi μ) = ∏ i, ∫⁻ y, f i y ∂(μ i) := by
  induction n with
  | zero => simp
  | succ n ih =>
    have h := (measurePreserving_piFinSuccAbove μ 0).symm
    rw [h.lintegral_map_equiv, Fin.prod_univ_succ, ← ih (fun i => μ i.succ) (fun i => f i.succ)
      fun i => hf i.succ]
    simp only [Fin.prod_univ_succ]
    rw [← lintegral_prod_mul (hf 0).aemeasurable (Finset.measurable_prod _ fun i _ =>
      (hf i.succ).comp (measurable_pi_apply i)).aemeasurable]
    rfl

theorem pi_withDensity {n : ℕ} {E : Type*} [MeasurableSpace E] (μ : Fin n → Measure E)
    [∀ i, SigmaFinite (μ i)] (f : Fin n → E → ENNReal) (hf : ∀ i, Measurable (f i))
    [∀ i, SigmaFinite ((μ i).withDensity (f i))] :
    Measure.pi (fun i => (μ i).withDensity (f i)) = (Measure.pi μ).withDensity fun x => ∏ i, f i (x i) := by
  refine Measure.pi_eq fun s hs => ?_
  rw [withDensity_apply _ (MeasurableSet.univ_pi hs), Measure.restrict_pi_pi, lintegral_pi_prod _ _ hf]
  exact prod_congr rfl fun i _ => (withDensity_apply _ (hs i)).symm

theorem map_withDensity_comp {α β : Type*} [MeasurableSpace α] [MeasurableSpace β] {μ : Measure α}
    {ν : Measure β} {T : α → β} (hT : MeasurePreserving T μ ν) {h : β → ENNReal} (hh : Measurable h) :
    (μ.withDensity (h ∘ T)).map T = ν.withDensity h := by
  ext s hs
  rw [Measure.map_apply hT.measurable hs, withDensity_apply _ (hT.measurable hs), withDensity_apply _ hs]
  exact hT.setLIntegral_comp_preimage hs hh

theorem transform_preserves (V : Matrix (Fin P) (Fin P) ℝ) (hV : V.transpose * V = 1) (rho : Rho A N)
    (a : Fin A) : MeasurePreserving (transform V rho a) (volume : Measure (BeadPath N P)) volume := by
  have hdet : |V.det| = 1 := by
    have h := congrArg Matrix.det hV
    rw [Matrix.det_mul, Matrix.det_transpose, Matrix.det_one] at h
    rcases mul_self_eq_one_iff.mp h with h | h <;> simp [h]
  have hne : V.det ≠ 0 := by intro h; simp [h] at hdet
  have h1 : MeasurePreserving (Matrix.toLin' V) (volume : Measure (Fin P → ℝ)) volume := by
    refine ⟨(LinearMap.continuous_of_finiteDimensional _).measurable, ?_⟩
    rw [Real.map_matrix_volume_pi_eq_smul_volume_pi hne, abs_inv, hdet, inv_one, ENNReal.ofReal_one,
      one_smul]
  have h2 : ∀ i, MeasurePreserving (fun x : Fin P → ℝ => Matrix.toLin' V x + fun _ => rho.shift a i)
      volume volume := fun i => (measurePreserving_add_right volume _).comp h1
  have h3 := volume_preserving_pi h2
  exact h3

/-- C33 for measures. -/
theorem sampleLaw_eq_mixture [NeZero P] (hP : 3 ≤ P) (eigh : Eigh) (he : EighSpec eigh)
    (beta : ℝ) (hb : 0 < beta) (rho : Rho A N) (hr : ∀ i, 0 < rho.omega i) :
    sampleLaw P eigh beta rho = volume.withDensity fun R => ENNReal.ofReal (mixture eigh beta rho R) := by
  have hP0 : (0 : ℝ) < P := by exact_mod_cast Nat.pos_of_ne_zero (NeZero.ne P)
  have ht : 0 < beta / P := div_pos hb hP0
  obtain ⟨hV, hC⟩ := he P (circulant P) (circulant_isSymm P hP)
  unfold sampleLaw mixture
  have hk : ∀ i p, 0 < invCov (rho.consts (beta / P)) (eigh P (circulant P)).1 i p :=
    fun i p => invCov_pos hP eigh he _ ht rho hr i p
  generalize (eigh P (circulant P)).2 = V at *
  generalize (eigh P (circulant P)).1 = v at *
  let s : Fin N → Fin P → NNReal := fun i p => Real.toNNReal (stdDev (rho.consts (beta / P)) v i p ^ 2)
  have hs : ∀ i p, s i p ≠ 0 := by
    intro i p
    simp only [s]
    rw [stdDev_sq _ _ _ _ (hk i p)]
    exact (Real.toNNReal_pos.mpr (one_div_pos.mpr (hk i p))).ne'
  have hpi : (Measure.pi fun i => Measure.pi fun p => gaussianReal 0 (s i p))
      = (volume : Measure (BeadPath N P)).withDensity fun cc => ∏ i, ∏ p, gaussianPDF 0 (s i p) (cc i p) := by
    have h1 : ∀ i, (Measure.pi fun p => gaussianReal 0 (s i p))
        = (volume : Measure (Fin P → ℝ)).withDensity fun x => ∏ p, gaussianPDF 0 (s i p) (x p) := by
      intro i
      have : ∀ p, SigmaFinite ((volume : Measure ℝ).withDensity (gaussianPDF 0 (s i p))) := by
        intro p
        rw [← gaussianReal_of_var_ne_zero 0 (hs i p)]
        infer_instance
      have := pi_withDensity (fun _ : Fin P => (volume : Measure ℝ)) (fun p => gaussianPDF 0 (s i p))
        fun p => measurable_gaussianPDF _ _
      rw [volume_pi, ← this]
      congr 1
      funext p
      exact gaussianReal_of_var_ne_zero 0 (hs i p)
    have : ∀ i, SigmaFinite ((volume : Measure (Fin P → ℝ)).withDensity
        fun x => ∏ p, gaussianPDF 0 (s i p) (x p)) := by
      intro i
      rw [← h1]
      infer_instance
    have := pi_withDensity (fun _ : Fin N => (volume : Measure (Fin P → ℝ)))
      (fun i x => ∏ p, gaussianPDF 0 (s i p) (x p)) fun i => Finset.measurable_prod _ fun p _ =>
        (measurable_gaussianPDF _ _).comp (measurable_pi_apply p)
    rw [volume_pi, ← this]
    congr 1
    funext i
    exact h1 i
  let f : Fin A → BeadPath N P → ENNReal := fun a R =>
    ∏ i, ∏ p, gaussianPDF 0 (s i p) (collective V rho a R i p)
  have hcoll : ∀ a i p, Measurable fun R : BeadPath N P => collective V rho a R i p := by
    intro a i p
    unfold collective
    fun_prop
  have hf : ∀ a, Measurable (f a) := fun a => Finset.measurable_prod _ fun i _ =>
    Finset.measurable_prod _ fun p _ => (measurable_gaussianPDF _ _).comp (hcoll a i p)
  have hmap : ∀ a, ((Measure.pi fun i => Measure.pi fun p => gaussianReal 0 (s i p)).map
      (transform V rho a)) = volume.withDensity (f a) := by
    intro a
    rw [hpi, ← map_withDensity_comp (transform_preserves V hV rho a) (hf a)]
    congr 2
    funext cc
    simp only [f, Function.comp, collective_transform V hV]
  have hsum : ∀ S : Finset (Fin A), ∑ a ∈ S, ENNReal.ofReal (rho.weight beta a) • volume.withDensity (f a)
      = volume.withDensity fun R => ∑ a ∈ S, ENNReal.ofReal (rho.weight beta a) * f a R := by
    intro S
    classical
    induction S using Finset.induction_on with
    | empty =>
      simp only [sum_empty]
      exact withDensity_zero.symm
    | insert a S ha ih =>
      rw [sum_insert ha, ih, ← withDensity_smul _ (hf a), ← withDensity_add_left ((hf a).const_smul _)]
      congr 1
      funext R
      rw [sum_insert ha]
      rfl
  show ∑ a, _ • Measure.map (transform V rho a) (Measure.pi fun i => Measure.pi fun p => gaussianReal 0 (s i p)) = _
  simp only [hmap]
  rw [hsum]
  congr 1
  funext R
  have hw : ∀ a, 0 ≤ rho.weight beta a := fun a => div_nonneg (rawWeight_pos rho beta hb hr a).le
    (sum_nonneg fun b _ => (rawWeight_pos rho beta hb hr b).le)
  rw [ENNReal.ofReal_sum_of_nonneg fun a _ => mul_nonneg (hw a) (prod_nonneg fun i _ =>
    prod_nonneg fun p _ => gaussianPDFReal_nonneg _ _ _)]
  refine sum_congr rfl fun a _ => ?_
  rw [ENNReal.ofReal_mul (hw a)]
  congr 1
  rw [ENNReal.ofReal_prod_of_nonneg fun i _ => prod_nonneg fun p _ => gaussianPDFReal_nonneg _ _ _]
  refine prod_congr rfl fun i _ => ?_
  rw [ENNReal.ofReal_prod_of_nonneg fun p _ => gaussianPDFReal_nonneg _ _ _]
  rfl

end

end Pibronic.PIMC
