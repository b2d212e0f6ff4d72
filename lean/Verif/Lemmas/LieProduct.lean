import Mathlib.Analysis.SpecialFunctions.Exponential
import Mathlib.Analysis.Calculus.Deriv.Mul
import Mathlib.Analysis.Calculus.Deriv.Slope
import Mathlib.Analysis.Matrix.Normed
import Mathlib.Analysis.Normed.Algebra.MatrixExponential

set_option autoImplicit false
set_option linter.unusedSectionVars false

/-! The Lie product formula. -/
namespace Pibronic.LieProduct
open Filter Topology

section
variable {𝔸 : Type*} [NormedRing 𝔸] [NormedAlgebra ℝ 𝔸] [NormOneClass 𝔸] [CompleteSpace 𝔸]

theorem norm_exp_le (x : 𝔸) : ‖NormedSpace.exp x‖ ≤ Real.exp ‖x‖ := by
  rw [Real.exp_eq_exp_ℝ, NormedSpace.exp_eq_tsum ℝ, NormedSpace.exp_eq_tsum ℝ]
  refine tsum_of_norm_bounded (NormedSpace.expSeries_summable' ‖x‖).hasSum fun n => ?_
  rw [norm_smul, smul_eq_mul, norm_inv, Real.norm_natCast]
  exact mul_le_mul_of_nonneg_left (norm_pow_le x n) (by positivity)

theorem norm_pow_sub_pow_le (x y : 𝔸) (M : ℝ) (hM : 1 ≤ M) (hx : ‖x‖ ≤ M) (hy : ‖y‖ ≤ M) (n : ℕ) :
    ‖x ^ n - y ^ n‖ ≤ n * M ^ n * ‖x - y‖ := by
  have h0 : 0 ≤ M := zero_le_one.trans hM
  induction n with
  | zero => simp
  | succ n ih =>
    have e : x ^ (n + 1) - y ^ (n + 1) = x ^ n * (x - y) + (x ^ n - y ^ n) * y := by
      rw [pow_succ, pow_succ]; noncomm_ring
    have h1 : ‖x ^ n * (x - y)‖ ≤ M ^ n * ‖x - y‖ :=
      (norm_mul_le _ _).trans (mul_le_mul_of_nonneg_right
        ((norm_pow_le x n).trans (pow_le_pow_left₀ (norm_nonneg _) hx n)) (norm_nonneg _))
    have h2 : ‖(x ^ n - y ^ n) * y‖ ≤ n * M ^ n * ‖x - y‖ * M :=
      (norm_mul_le _ _).trans (mul_le_mul ih hy (norm_nonneg _) (by positivity))
    have h3 : M ^ n * ‖x - y‖ ≤ M ^ (n + 1) * ‖x - y‖ :=
      mul_le_mul_of_nonneg_right (pow_le_pow_right₀ hM n.le_succ) (norm_nonneg _)
    rw [e]
    refine (norm_add_le _ _).trans ?_
    push_cast
    calc _ ≤ M ^ (n + 1) * ‖x - y‖ + n * M ^ n * ‖x - y‖ * M := add_le_add (h1.trans h3) h2
      _ = _ := by ring

/-- The error of one step is of second order. -/
theorem step_error (x y : 𝔸) : Tendsto (fun t : ℝ => t⁻¹ • (NormedSpace.exp (t • x) * NormedSpace.exp (t • y)
    - NormedSpace.exp (t • (x + y)))) (𝓝[≠] 0) (𝓝 0) := by
  have hx := hasDerivAt_exp_smul_const (𝕂 := ℝ) x 0
  have hy := hasDerivAt_exp_smul_const (𝕂 := ℝ) y 0
  have hz := hasDerivAt_exp_smul_const (𝕂 := ℝ) (x + y) 0
  have h := (hx.mul hy).sub hz
  rw [hasDerivAt_iff_tendsto_slope_zero] at h
  simpa [NormedSpace.exp_zero] using h

theorem lie_product (x y : 𝔸) (b : ℝ) : Tendsto (fun n : ℕ => (NormedSpace.exp ((b / n) • x)
    * NormedSpace.exp ((b / n) • y)) ^ n) atTop (𝓝 (NormedSpace.exp (b • (x + y)))) := by
  wlog hb : b = 1 generalizing x y b
  · have h := this (b • x) (b • y) 1 rfl
    simp only [one_smul, ← smul_add, smul_smul, one_div] at h
    simpa [div_eq_inv_mul] using h
  subst hb
  rw [one_smul, tendsto_iff_norm_sub_tendsto_zero]
  have hinv : Tendsto (fun n : ℕ => (1 / n : ℝ)) atTop (𝓝[≠] 0) := by
    rw [tendsto_nhdsWithin_iff]
    refine ⟨tendsto_one_div_atTop_nhds_zero_nat, ?_⟩
    filter_upwards [eventually_gt_atTop 0] with n hn
    have : (n : ℝ) ≠ 0 := by exact_mod_cast hn.ne'
    simpa using this
  have h1 := ((step_error x y).comp hinv).norm
  rw [norm_zero] at h1
  have h2 := h1.const_mul (Real.exp (‖x‖ + ‖y‖))
  rw [mul_zero] at h2
  refine squeeze_zero' (Eventually.of_forall fun _ => norm_nonneg _) ?_ h2
  filter_upwards [eventually_gt_atTop 0] with n hn
  have hn0 : (0 : ℝ) < n := by exact_mod_cast hn
  set M := Real.exp ((‖x‖ + ‖y‖) / n) with hMdef
  have hM : 1 ≤ M := Real.one_le_exp (by positivity)
  have hMn : M ^ n = Real.exp (‖x‖ + ‖y‖) := by
    rw [hMdef, ← Real.exp_nat_mul]; congr 1; field_simp
  have hsm : ∀ z : 𝔸, ‖(1 / (n : ℝ)) • z‖ = ‖z‖ / n := by
    intro z; rw [norm_smul, Real.norm_of_nonneg (by positivity)]; ring
  have hX : ‖NormedSpace.exp ((1 / (n : ℝ)) • x) * NormedSpace.exp ((1 / (n : ℝ)) • y)‖ ≤ M := by
    refine (norm_mul_le _ _).trans ?_
    rw [hMdef, add_div, Real.exp_add]
    refine mul_le_mul ?_ ?_ (norm_nonneg _) (Real.exp_pos _).le
    · rw [← hsm]; exact norm_exp_le _
    · rw [← hsm]; exact norm_exp_le _
  have hY : ‖NormedSpace.exp ((1 / (n : ℝ)) • (x + y))‖ ≤ M := by
    refine (norm_exp_le _).trans (Real.exp_le_exp.mpr ?_)
    rw [hsm]
    exact div_le_div_of_nonneg_right (norm_add_le _ _) hn0.le
  have hYn : NormedSpace.exp ((1 / (n : ℝ)) • (x + y)) ^ n = NormedSpace.exp (x + y) := by
    letI : NormedAlgebra ℚ 𝔸 := NormedAlgebra.restrictScalars ℚ ℝ 𝔸
    rw [← NormedSpace.exp_nsmul, ← Nat.cast_smul_eq_nsmul ℝ, smul_smul, mul_one_div_cancel hn0.ne', one_smul]
  have h := norm_pow_sub_pow_le _ _ M hM hX hY n
  rw [hYn] at h
  refine h.trans (le_of_eq ?_)
  simp only [Function.comp]
  rw [hMn, norm_smul, Real.norm_of_nonneg (by positivity)]
  field_simp

end
end Pibronic.LieProduct
