import Verif.Lemmas.LieProduct
import Verif.Lemmas.MixedModes
import Mathlib.Analysis.CStarAlgebra.Matrix
import Mathlib.Analysis.SpecialFunctions.Trigonometric.Series

set_option autoImplicit false
set_option linter.unusedSectionVars false

/-! Bounds for products of matrix exponentials and for closed paths. -/
namespace Pibronic.PIMC
open Finset Filter Topology LieProduct

/-! ### exponentials -/

section
variable {𝔸 : Type*} [NormedRing 𝔸] [NormedAlgebra ℝ 𝔸] [NormOneClass 𝔸] [CompleteSpace 𝔸]

theorem real_exp_sub_one_sub (a : ℝ) (ha : 0 ≤ a) : Real.exp a - 1 - a ≤ a ^ 2 * Real.exp a := by
  -- `exp a - 1 ≤ a exp a`
  have h1 : Real.exp a - 1 ≤ a * Real.exp a := by
    have := Real.add_one_le_exp (-a)
    have h2 := Real.exp_pos a
    have h3 : Real.exp (-a) * Real.exp a = 1 := by rw [← Real.exp_add, neg_add_cancel, Real.exp_zero]
    nlinarith
  have h2 := mul_le_mul_of_nonneg_left h1 ha
  nlinarith

theorem norm_exp_sub_one_sub_le (x : 𝔸) : ‖NormedSpace.exp x - 1 - x‖ ≤ ‖x‖ ^ 2 * Real.exp ‖x‖ := by
  refine le_trans ?_ (real_exp_sub_one_sub ‖x‖ (norm_nonneg x))
  have hs : HasSum (fun n : ℕ => ((n + 2).factorial : ℝ)⁻¹ • x ^ (n + 2)) (NormedSpace.exp x - 1 - x) := by
    have h := (hasSum_nat_add_iff' (f := fun n : ℕ => ((n.factorial : ℝ)⁻¹ • x ^ n)) 2).mpr
      (NormedSpace.exp_series_hasSum_exp' (𝕂 := ℝ) x)
    simpa [sum_range_succ, sub_sub] using h
  have hr : HasSum (fun n : ℕ => ((n + 2).factorial : ℝ)⁻¹ * ‖x‖ ^ (n + 2)) (Real.exp ‖x‖ - 1 - ‖x‖) := by
    have h := (hasSum_nat_add_iff' (f := fun n : ℕ => ((n.factorial : ℝ)⁻¹ • ‖x‖ ^ n)) 2).mpr
      (NormedSpace.exp_series_hasSum_exp' (𝕂 := ℝ) ‖x‖)
    rw [← Real.exp_eq_exp_ℝ] at h
    simpa [sum_range_succ, sub_sub] using h
  rw [← hs.tsum_eq]
  refine tsum_of_norm_bounded hr fun n => ?_
  rw [norm_smul, norm_inv, Real.norm_natCast]
  exact mul_le_mul_of_nonneg_left (norm_pow_le x _) (by positivity)

/-- To first order `exp x * exp y` is `exp z` when `z` is near `x + y`. -/
theorem norm_exp_mul_exp_sub_le (x y z : 𝔸) :
    ‖NormedSpace.exp x * NormedSpace.exp y - NormedSpace.exp z‖
      ≤ ‖x + y - z‖ + (‖x‖ + ‖y‖) ^ 2 * Real.exp (‖x‖ + ‖y‖) + ‖z‖ ^ 2 * Real.exp ‖z‖ := by
  have hx := norm_exp_sub_one_sub_le x
  have hy := norm_exp_sub_one_sub_le y
  have hz := norm_exp_sub_one_sub_le z
  have ey := LieProduct.norm_exp_le y
  set ρx := NormedSpace.exp x - 1 - x with hρx
  set ρy := NormedSpace.exp y - 1 - y with hρy
  set ρz := NormedSpace.exp z - 1 - z with hρz
  have e : NormedSpace.exp x * NormedSpace.exp y - NormedSpace.exp z
      = (x + y - z) + x * y + ρx * NormedSpace.exp y + (1 + x) * ρy - ρz := by
    rw [hρx, hρy, hρz]; noncomm_ring
  have ha := norm_nonneg x
  have hb := norm_nonneg y
  have h1 : ‖x * y‖ ≤ ‖x‖ * ‖y‖ * Real.exp (‖x‖ + ‖y‖) := by
    refine (norm_mul_le x y).trans (le_mul_of_one_le_right (mul_nonneg ha hb) (Real.one_le_exp (add_nonneg ha hb)))
  have h2 : ‖ρx * NormedSpace.exp y‖ ≤ ‖x‖ ^ 2 * Real.exp (‖x‖ + ‖y‖) := by
    rw [Real.exp_add, ← mul_assoc]
    exact (norm_mul_le _ _).trans (mul_le_mul hx ey (norm_nonneg _) (by positivity))
  have h3 : ‖(1 + x) * ρy‖ ≤ ‖y‖ ^ 2 * Real.exp (‖x‖ + ‖y‖) := by
    have h4 : ‖(1 : 𝔸) + x‖ ≤ Real.exp ‖x‖ := by
      refine (norm_add_le _ _).trans ?_
      rw [norm_one, add_comm]
      exact Real.add_one_le_exp _
    refine (norm_mul_le _ _).trans ((mul_le_mul h4 hy (norm_nonneg _) (Real.exp_pos _).le).trans (le_of_eq ?_))
    rw [Real.exp_add]; ring
  rw [e]
  have h5 : ‖x + y - z + x * y + ρx * NormedSpace.exp y + (1 + x) * ρy - ρz‖
      ≤ ‖x + y - z‖ + ‖x * y‖ + ‖ρx * NormedSpace.exp y‖ + ‖(1 + x) * ρy‖ + ‖ρz‖ := by
    refine (norm_sub_le _ _).trans (add_le_add_left ?_ _)
    refine (norm_add_le _ _).trans (add_le_add_left ?_ _)
    refine (norm_add_le _ _).trans (add_le_add_left ?_ _)
    exact norm_add_le _ _
  have h6 : 0 ≤ ‖x‖ * ‖y‖ * Real.exp (‖x‖ + ‖y‖) := by positivity
  nlinarith

/-- The difference of two products. -/
theorem norm_prod_sub_prod_le {n : ℕ} (T S : Fin n → 𝔸) (b d : Fin n → ℝ) (hT : ∀ p, ‖T p‖ ≤ b p) (hS : ∀ p, ‖S p‖ ≤ b p)
    (hd : ∀ p, ‖T p - S p‖ ≤ d p * b p) :
    ‖(List.ofFn T).prod‖ ≤ ∏ p, b p ∧ ‖(List.ofFn T).prod - (List.ofFn S).prod‖ ≤ (∑ p, d p) * ∏ p, b p := by
  induction n with
  | zero => simp
  | succ n ih =>
    obtain ⟨h1, h2⟩ := ih (fun p => T p.succ) (fun p => S p.succ) (fun p => b p.succ) (fun p => d p.succ)
      (fun p => hT _) (fun p => hS _) (fun p => hd _)
    have hb : ∀ p, 0 ≤ b p := fun p => (norm_nonneg _).trans (hT p)
    have hB : 0 ≤ ∏ p : Fin n, b p.succ := prod_nonneg fun p _ => hb _
    rw [List.ofFn_succ, List.ofFn_succ, List.prod_cons, List.prod_cons, Fin.prod_univ_succ, Fin.sum_univ_succ]
    refine ⟨(norm_mul_le _ _).trans (mul_le_mul (hT 0) h1 (norm_nonneg _) (hb 0)), ?_⟩
    have e : T 0 * (List.ofFn fun i => T i.succ).prod - S 0 * (List.ofFn fun i => S i.succ).prod
        = (T 0 - S 0) * (List.ofFn fun i => T i.succ).prod
          + S 0 * ((List.ofFn fun i => T i.succ).prod - (List.ofFn fun i => S i.succ).prod) := by noncomm_ring
    rw [e]
    have h3 : ‖(T 0 - S 0) * (List.ofFn fun i => T i.succ).prod‖ ≤ d 0 * b 0 * ∏ p : Fin n, b p.succ :=
      (norm_mul_le _ _).trans (mul_le_mul (hd 0) h1 (norm_nonneg _) ((norm_nonneg _).trans (hd 0)))
    have h4 : ‖S 0 * ((List.ofFn fun i => T i.succ).prod - (List.ofFn fun i => S i.succ).prod)‖
        ≤ b 0 * ((∑ p : Fin n, d p.succ) * ∏ p : Fin n, b p.succ) :=
      (norm_mul_le _ _).trans (mul_le_mul (hS 0) h2 (norm_nonneg _) (hb 0))
    refine (norm_add_le _ _).trans ((add_le_add h3 h4).trans (le_of_eq ?_))
    ring

end

/-! ### matrices -/

section
attribute [local instance] Matrix.linftyOpNormedRing Matrix.linftyOpNormedAlgebra Matrix.linfty_opNormOneClass

theorem continuous_matrix_exp (A : ℕ) : Continuous fun M : Matrix (Fin A) (Fin A) ℝ => NormedSpace.exp M :=
  NormedSpace.exp_continuous (𝔸 := Matrix (Fin A) (Fin A) ℝ)

end

open scoped Matrix.Norms.L2Operator

section
variable {A : ℕ} [NeZero A]

theorem diagonal_norm_le (v : Fin A → ℝ) (c : ℝ) (hc : 0 ≤ c) (h : ∀ a, |v a| ≤ c) : ‖Matrix.diagonal v‖ ≤ c := by
  rw [Matrix.l2_opNorm_diagonal]
  exact (pi_norm_le_iff_of_nonneg hc).mpr h

theorem trace_le_norm (A : ℕ) [NeZero A] : ∃ c : ℝ, 0 ≤ c ∧ ∀ M : Matrix (Fin A) (Fin A) ℝ, |M.trace| ≤ c * ‖M‖ := by
  obtain ⟨c, hc, h⟩ := (LinearMap.toContinuousLinearMap (Matrix.traceLinearMap (Fin A) ℝ ℝ)).bound
  exact ⟨c, hc.le, fun M => h M⟩

theorem ortho_norm_le (V : Matrix (Fin A) (Fin A) ℝ) (hV : V.transpose * V = 1) : ‖V‖ ≤ 1 ∧ ‖V.transpose‖ ≤ 1 := by
  have h1 := Matrix.l2_opNorm_conjTranspose_mul_self V
  have h2 := Matrix.l2_opNorm_conjTranspose V
  rw [Matrix.conjTranspose_eq_transpose_of_trivial] at h1 h2
  rw [hV, norm_one] at h1
  rw [h2]
  have : ‖V‖ ≤ 1 := by nlinarith [norm_nonneg V]
  exact ⟨this, this⟩

/-- The exponential of a symmetric matrix that is above `c`. -/
theorem norm_exp_neg_le (M : Matrix (Fin A) (Fin A) ℝ) (hM : M.IsSymm) (c : ℝ) (hc : ∀ v, c * ∑ a, v a ^ 2 ≤ quad M v) :
    ‖NormedSpace.exp (-M)‖ ≤ Real.exp (-c) := by
  obtain ⟨eigh, he⟩ := eigh_exists
  obtain ⟨hV, hF⟩ := he A M hM
  set V := (eigh A M).2
  set d := (eigh A M).1
  have hV' : V * V.transpose = 1 := mul_eq_one_comm.mp hV
  have hd : ∀ k, c ≤ d k := by
    intro k
    have hu : ∀ q, ∑ i, V i q * V i k = if q = k then 1 else 0 := by
      intro q
      have := congrFun (congrFun hV q) k
      rw [Matrix.mul_apply, Matrix.one_apply] at this
      simpa using this
    have h1 := diag_form M V d hF (fun i => V i k)
    simp only [hu, ite_pow, one_pow, ne_eq, OfNat.ofNat_ne_zero, not_false_eq_true, zero_pow, mul_ite, mul_one, mul_zero,
      sum_ite_eq', mem_univ, if_true] at h1
    have h2 := hc fun i => V i k
    have h3 : ∑ a, V a k ^ 2 = 1 := by
      have := hu k
      rw [if_pos rfl] at this
      rw [← this]
      exact sum_congr rfl fun a _ => sq _
    rw [h3, mul_one] at h2
    rw [← h1]
    exact h2
  have hinv : V⁻¹ = V.transpose := Matrix.inv_eq_right_inv hV'
  have hunit : IsUnit V := ⟨⟨V, V.transpose, hV', hV⟩, rfl⟩
  have e : -M = V * Matrix.diagonal (fun k => -d k) * V⁻¹ := by
    rw [hinv]
    have : Matrix.diagonal (fun k => -d k) = -Matrix.diagonal d := by rw [← Matrix.diagonal_neg]
    rw [this, Matrix.mul_neg, Matrix.neg_mul, ← hF]
  rw [e, Matrix.exp_conj _ _ hunit, exp_diagonal_real, hinv]
  obtain ⟨n1, n2⟩ := ortho_norm_le V hV
  have n3 : ‖Matrix.diagonal fun a => Real.exp (-d a)‖ ≤ Real.exp (-c) := by
    refine diagonal_norm_le _ _ (Real.exp_pos _).le fun a => ?_
    rw [abs_of_pos (Real.exp_pos _)]
    exact Real.exp_le_exp.mpr (neg_le_neg (hd a))
  calc _ ≤ ‖V‖ * ‖Matrix.diagonal fun a => Real.exp (-d a)‖ * ‖V.transpose‖ :=
        (norm_mul_le _ _).trans (mul_le_mul_of_nonneg_right (norm_mul_le _ _) (norm_nonneg _))
    _ ≤ 1 * Real.exp (-c) * 1 := by gcongr
    _ = _ := by ring

/-- The form of a fixed matrix. -/
theorem form_ge (M : Matrix (Fin A) (Fin A) ℝ) (v : Fin A → ℝ) : |quad M v| ≤ (∑ a, ∑ b, |M a b|) * ∑ a, v a ^ 2 := by
  unfold quad
  refine (abs_sum_le_sum_abs _ _).trans ?_
  rw [sum_mul]
  refine sum_le_sum fun a _ => (abs_sum_le_sum_abs _ _).trans ?_
  rw [sum_mul]
  refine sum_le_sum fun b _ => ?_
  rw [abs_mul, abs_mul]
  have h1 : v a ^ 2 ≤ ∑ a, v a ^ 2 := single_le_sum (f := fun a => v a ^ 2) (fun _ _ => sq_nonneg _) (mem_univ a)
  have h2 : v b ^ 2 ≤ ∑ a, v a ^ 2 := single_le_sum (f := fun a => v a ^ 2) (fun _ _ => sq_nonneg _) (mem_univ b)
  have h3 : |v a| * |v b| ≤ ∑ a, v a ^ 2 := by
    have := sq_nonneg (|v a| - |v b|)
    have e1 := sq_abs (v a)
    have e2 := sq_abs (v b)
    nlinarith
  calc |v a| * |M a b| * |v b| = |M a b| * (|v a| * |v b|) := by ring
    _ ≤ _ := mul_le_mul_of_nonneg_left h3 (abs_nonneg _)

end

/-! ### closed paths -/

section
variable {P : ℕ} [NeZero P]

theorem closed_path_le (f : Fin P → ℝ) (p q : Fin P) : f p ≤ f q + ∑ k, |f (k + 1) - f k| := by
  have key : ∀ n : ℕ, f (q + Fin.ofNat P n) ≤ f q + ∑ j ∈ range n, |f (q + Fin.ofNat P j + 1) - f (q + Fin.ofNat P j)| := by
    intro n
    induction n with
    | zero => simp
    | succ n ih =>
      have e : q + Fin.ofNat P (n + 1) = q + Fin.ofNat P n + 1 := by
        rw [add_assoc]
        congr 1
        ext
        simp [Fin.val_add]
      rw [sum_range_succ, e]
      have := le_abs_self (f (q + Fin.ofNat P n + 1) - f (q + Fin.ofNat P n))
      linarith
  have h := key (p - q).val
  have e : q + Fin.ofNat P (p - q).val = p := by rw [Fin.ofNat_val_eq_self]; abel
  rw [e] at h
  refine h.trans (add_le_add_right ?_ _)
  have hsub : range (p - q).val ⊆ range P := range_subset_range.mpr (p - q).isLt.le
  refine (sum_le_sum_of_subset_of_nonneg hsub fun _ _ _ => abs_nonneg _).trans (le_of_eq ?_)
  rw [← Fin.sum_univ_eq_sum_range (fun j => |f (q + Fin.ofNat P j + 1) - f (q + Fin.ofNat P j)|) P]
  simp only [Fin.ofNat_val_eq_self]
  exact Fintype.sum_equiv (Equiv.addLeft q) _ _ fun _ => rfl

/-- One point of a closed path is bounded by the sums of the squares of all points and of all steps. -/
theorem point_le (x : Fin P → ℝ) (lam : ℝ) (hl : 0 < lam) (p : Fin P) :
    x p ^ 2 ≤ (1 / P + 2 / lam) * ∑ q, x q ^ 2 + lam / 2 * ∑ q, (x q - x (q + 1)) ^ 2 := by
  have hP0 : (0 : ℝ) < P := by exact_mod_cast Nat.pos_of_ne_zero (NeZero.ne P)
  have hshift : ∑ q, x (q + 1) ^ 2 = ∑ q, x q ^ 2 :=
    Fintype.sum_equiv (Equiv.addRight 1) _ _ fun _ => rfl
  have hstep : ∑ k, |x (k + 1) ^ 2 - x k ^ 2| ≤ lam / 2 * ∑ q, (x q - x (q + 1)) ^ 2 + 2 / lam * ∑ q, x q ^ 2 := by
    have h1 : ∀ k, |x (k + 1) ^ 2 - x k ^ 2| ≤ lam / 2 * (x k - x (k + 1)) ^ 2 + 1 / lam * x k ^ 2 + 1 / lam * x (k + 1) ^ 2 := by
      intro k
      have e : lam / 2 * (x k - x (k + 1)) ^ 2 + 1 / lam * x k ^ 2 + 1 / lam * x (k + 1) ^ 2
          = (lam ^ 2 * (x k - x (k + 1)) ^ 2 + 2 * x k ^ 2 + 2 * x (k + 1) ^ 2) / (2 * lam) := by field_simp
      rw [e, le_div_iff₀ (by positivity)]
      have h2 := sq_nonneg (lam * (x k - x (k + 1)) - (x k + x (k + 1)))
      have h3 := sq_nonneg (lam * (x k - x (k + 1)) + (x k + x (k + 1)))
      have h4 := sq_nonneg (x k - x (k + 1))
      rcases abs_cases (x (k + 1) ^ 2 - x k ^ 2) with ⟨h, _⟩ | ⟨h, _⟩ <;> rw [h] <;> nlinarith
    refine (sum_le_sum fun k _ => h1 k).trans (le_of_eq ?_)
    rw [sum_add_distrib, sum_add_distrib, ← mul_sum, ← mul_sum, ← mul_sum, hshift]
    ring
  have hq : ∀ q, x p ^ 2 ≤ x q ^ 2 + (lam / 2 * ∑ q, (x q - x (q + 1)) ^ 2 + 2 / lam * ∑ q, x q ^ 2) := fun q =>
    (closed_path_le (fun k => x k ^ 2) p q).trans (add_le_add_right hstep _)
  have hsum := sum_le_sum fun q (_ : q ∈ (univ : Finset (Fin P))) => hq q
  rw [sum_add_distrib, sum_const, sum_const, card_univ, Fintype.card_fin, nsmul_eq_mul, nsmul_eq_mul] at hsum
  have h := div_le_div_of_nonneg_right hsum hP0.le
  rw [mul_div_cancel_left₀ _ hP0.ne', add_div, mul_div_cancel_left₀ _ hP0.ne'] at h
  refine h.trans (le_of_eq ?_)
  ring

end

/-- `tanh u` is `u` up to second order. -/
theorem tanh_ge (u : ℝ) (hu : 0 ≤ u) : u - u ^ 2 ≤ Real.tanh u := by
  rcases le_or_gt 1 u with h | h
  · have := tanh_pos (x := u) (by linarith)
    nlinarith
  · have hs := Real.self_le_sinh_iff.mpr hu
    have hc := Real.cosh_pos u
    have hc2 := Real.cosh_le_exp_half_sq u
    rw [Real.tanh_eq_sinh_div_cosh, le_div_iff₀ hc]
    have h1 : Real.cosh u ≤ 1 / (1 - u ^ 2 / 2) := by
      refine hc2.trans ?_
      have h2 : 0 < 1 - u ^ 2 / 2 := by nlinarith
      rw [le_div_iff₀ h2]
      have h3 := Real.add_one_le_exp (-(u ^ 2 / 2))
      have h4 : Real.exp (u ^ 2 / 2) * Real.exp (-(u ^ 2 / 2)) = 1 := by rw [← Real.exp_add, add_neg_cancel, Real.exp_zero]
      have h5 := Real.exp_pos (u ^ 2 / 2)
      nlinarith
    have h2 : 0 < 1 - u ^ 2 / 2 := by nlinarith
    have h3 : Real.cosh u * (1 - u ^ 2 / 2) ≤ 1 := by rwa [le_div_iff₀ h2] at h1
    have h6 : (1 - u) * Real.cosh u ≤ 1 := by
      have : 1 - u ≤ 1 - u ^ 2 / 2 := by nlinarith
      nlinarith
    nlinarith

theorem tanh_le_self (u : ℝ) (hu : 0 ≤ u) : Real.tanh u ≤ u := by
  have hc := Real.cosh_pos u
  rw [Real.tanh_eq_sinh_div_cosh, div_le_iff₀ hc]
  refine hasSum_le (fun n => ?_) (Real.hasSum_sinh u) ((Real.hasSum_cosh u).mul_left u)
  have e : u * (u ^ (2 * n) / ((2 * n).factorial : ℝ)) = u ^ (2 * n + 1) / ((2 * n).factorial : ℝ) := by
    rw [pow_succ]; ring
  rw [e]
  refine div_le_div_of_nonneg_left (by positivity) (by positivity) ?_
  exact_mod_cast Nat.factorial_le (by omega)

end Pibronic.PIMC
