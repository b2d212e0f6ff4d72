import Verif.Lemmas.Refine
import Mathlib.MeasureTheory.Integral.IntegralEqImproper

set_option autoImplicit false
set_option linter.unusedSectionVars false

/-! The eigenfunctions of the harmonic oscillator in one dimension. -/
namespace Pibronic.Ritz
open Finset Filter Topology MeasureTheory Spec.PIMC Pibronic.PIMC

/-- Hermite polynomials times the Gaussian, not normalised. -/
noncomputable def her : ℕ → ℝ → ℝ
  | 0 => fun x => Real.exp (-(x ^ 2 / 2))
  | 1 => fun x => 2 * x * Real.exp (-(x ^ 2 / 2))
  | n + 2 => fun x => 2 * x * her (n + 1) x - 2 * (n + 1) * her n x

theorem her_succ (n : ℕ) (x : ℝ) : her (n + 1) x = 2 * x * her n x - 2 * n * her (n - 1) x := by
  cases n with
  | zero => simp [her]
  | succ n => simp only [her]; push_cast; simp

theorem her_continuous : ∀ n, Continuous (her n)
  | 0 => by unfold her; fun_prop
  | 1 => by unfold her; fun_prop
  | n + 2 => by
    have h1 := her_continuous (n + 1)
    have h2 := her_continuous n
    unfold her
    fun_prop

theorem her_deriv : ∀ n x, HasDerivAt (her n) (x * her n x - her (n + 1) x) x
  | 0, x => by
    have h : HasDerivAt (fun x : ℝ => Real.exp (-(x ^ 2 / 2))) (Real.exp (-(x ^ 2 / 2)) * (-(2 * x / 2))) x := by
      have h2 : HasDerivAt (fun x : ℝ => x ^ 2) (2 * x) x := by simpa using hasDerivAt_pow 2 x
      exact (h2.div_const 2).neg.exp
    refine h.congr_deriv ?_
    simp only [her]; ring
  | 1, x => by
    have h : HasDerivAt (fun x : ℝ => Real.exp (-(x ^ 2 / 2))) (Real.exp (-(x ^ 2 / 2)) * (-(2 * x / 2))) x := by
      have h2 : HasDerivAt (fun x : ℝ => x ^ 2) (2 * x) x := by simpa using hasDerivAt_pow 2 x
      exact (h2.div_const 2).neg.exp
    have h2 := ((hasDerivAt_id x).const_mul 2).mul h
    refine h2.congr_deriv ?_
    simp only [her, id]; push_cast; ring
  | n + 2, x => by
    have h1 := her_deriv (n + 1) x
    have h2 := her_deriv n x
    have h3 := (((hasDerivAt_id x).const_mul 2).mul h1).sub (h2.const_mul (2 * ((n : ℝ) + 1)))
    have e : (fun y => 2 * id y * her (n + 1) y - 2 * ((n : ℝ) + 1) * her n y) = her (n + 2) := by
      funext y; simp [her]
    have h4 : HasDerivAt (her (n + 2)) _ x := e ▸ h3
    refine h4.congr_deriv ?_
    have e3 : her (n + 3) x = 2 * x * her (n + 2) x - 2 * ((n : ℝ) + 2) * her (n + 1) x := by
      have := her_succ (n + 2) x
      push_cast at this; exact this
    have e2 : her (n + 2) x = 2 * x * her (n + 1) x - 2 * ((n : ℝ) + 1) * her n x := by simp [her]
    show _ = x * her (n + 2) x - her (n + 3) x
    rw [e3]
    simp only [id]
    linear_combination x * e2

theorem her_deriv' (n : ℕ) (x : ℝ) : HasDerivAt (her n) (2 * n * her (n - 1) x - x * her n x) x := by
  refine (her_deriv n x).congr_deriv ?_
  rw [her_succ]; ring

theorem abs_le_exp (δ x : ℝ) (hδ : 0 < δ) : |x| ≤ 1 / Real.sqrt δ * Real.exp (δ * x ^ 2) := by
  have h1 := Real.add_one_le_exp (δ * x ^ 2)
  have h2 : 0 < Real.sqrt δ := Real.sqrt_pos.mpr hδ
  rw [one_div, ← div_eq_inv_mul, le_div_iff₀ h2]
  have h3 : (Real.sqrt δ) ^ 2 = δ := Real.sq_sqrt hδ.le
  have h4 : δ * x ^ 2 = (|x| * Real.sqrt δ) ^ 2 := by rw [mul_pow, sq_abs, h3]; ring
  nlinarith [sq_nonneg (|x| * Real.sqrt δ - 1)]

theorem her_bound (n : ℕ) : ∀ δ : ℝ, 0 < δ → ∃ C, 0 ≤ C ∧ ∀ x, |her n x| ≤ C * Real.exp (-((1 / 2 - δ) * x ^ 2)) := by
  suffices H : (∀ δ : ℝ, 0 < δ → ∃ C, 0 ≤ C ∧ ∀ x, |her n x| ≤ C * Real.exp (-((1 / 2 - δ) * x ^ 2))) ∧
      ∀ δ : ℝ, 0 < δ → ∃ C, 0 ≤ C ∧ ∀ x, |her (n - 1) x| ≤ C * Real.exp (-((1 / 2 - δ) * x ^ 2)) from H.1
  have h0 : ∀ δ : ℝ, 0 < δ → ∃ C, 0 ≤ C ∧ ∀ x, |her 0 x| ≤ C * Real.exp (-((1 / 2 - δ) * x ^ 2)) := by
    intro δ hδ
    refine ⟨1, one_pos.le, fun x => ?_⟩
    simp only [her, one_mul, Real.abs_exp]
    exact Real.exp_le_exp.mpr (by nlinarith [sq_nonneg x])
  induction n with
  | zero => exact ⟨h0, h0⟩
  | succ n ih =>
    refine ⟨fun δ hδ => ?_, ih.1⟩
    obtain ⟨C1, hC1, h1⟩ := ih.1 (δ / 2) (by linarith)
    obtain ⟨C2, hC2, h2⟩ := ih.2 δ hδ
    refine ⟨2 * (1 / Real.sqrt (δ / 2)) * C1 + 2 * n * C2, by positivity, fun x => ?_⟩
    rw [her_succ]
    have h3 := abs_le_exp (δ / 2) x (by linarith)
    have h4 : |2 * x * her n x| ≤ 2 * (1 / Real.sqrt (δ / 2)) * C1 * Real.exp (-((1 / 2 - δ) * x ^ 2)) := by
      rw [abs_mul, abs_mul, abs_two, mul_assoc, mul_assoc, mul_assoc]
      refine mul_le_mul_of_nonneg_left ?_ (by norm_num)
      refine (mul_le_mul h3 (h1 x) (abs_nonneg _) (by positivity)).trans (le_of_eq ?_)
      have e : Real.exp (-((1 / 2 - δ) * x ^ 2)) = Real.exp (δ / 2 * x ^ 2) * Real.exp (-((1 / 2 - δ / 2) * x ^ 2)) := by
        rw [← Real.exp_add]; congr 1; ring
      rw [e]; ring
    have h5 : |2 * n * her (n - 1) x| ≤ 2 * n * C2 * Real.exp (-((1 / 2 - δ) * x ^ 2)) := by
      rw [abs_mul, abs_of_nonneg (by positivity : (0 : ℝ) ≤ 2 * n), mul_assoc (2 * (n : ℝ))]
      exact mul_le_mul_of_nonneg_left (h2 x) (by positivity)
    calc |2 * x * her n x - 2 * n * her (n - 1) x| ≤ |2 * x * her n x| + |2 * n * her (n - 1) x| := abs_sub _ _
      _ ≤ _ := by rw [add_mul]; exact add_le_add h4 h5

/-- A function that is continuous and falls off like a Gaussian. -/
def Decays (f : ℝ → ℝ) : Prop := Continuous f ∧ ∃ C c, 0 < c ∧ ∀ x, |f x| ≤ C * Real.exp (-(c * x ^ 2))

theorem Decays.integrable {f : ℝ → ℝ} (h : Decays f) : Integrable f := by
  obtain ⟨hc, C, c, hc0, h⟩ := h
  refine ((integrable_exp_neg_mul_sq hc0).const_mul C).mono' hc.aestronglyMeasurable (ae_of_all _ fun x => ?_)
  rw [Real.norm_eq_abs]
  refine (h x).trans (le_of_eq ?_)
  rw [neg_mul]

theorem Decays.const_nonneg {f : ℝ → ℝ} {C c : ℝ} (h : ∀ x, |f x| ≤ C * Real.exp (-(c * x ^ 2))) : 0 ≤ C := by
  have := (abs_nonneg _).trans (h 0)
  simpa using this

theorem Decays.mul {f g : ℝ → ℝ} (hf : Decays f) (hg : Continuous g) (C : ℝ) (hC : ∀ x, |g x| ≤ C) : Decays fun x => f x * g x := by
  obtain ⟨hc, C', c, hc0, h⟩ := hf
  refine ⟨hc.mul hg, C' * C, c, hc0, fun x => ?_⟩
  rw [abs_mul, mul_right_comm]
  exact mul_le_mul (h x) (hC x) (abs_nonneg _) (mul_nonneg (Decays.const_nonneg h) (Real.exp_pos _).le)

theorem Decays.id_mul {f : ℝ → ℝ} (hf : Decays f) : Decays fun x => x * f x := by
  obtain ⟨hc, C, c, hc0, h⟩ := hf
  refine ⟨continuous_id.mul hc, 1 / Real.sqrt (c / 2) * C, c / 2, by linarith, fun x => ?_⟩
  rw [abs_mul]
  refine (mul_le_mul (abs_le_exp (c / 2) x (by linarith)) (h x) (abs_nonneg _) (by positivity)).trans (le_of_eq ?_)
  have e : Real.exp (-(c / 2 * x ^ 2)) = Real.exp (c / 2 * x ^ 2) * Real.exp (-(c * x ^ 2)) := by
    rw [← Real.exp_add]; congr 1; ring
  rw [e]; ring

theorem Decays.bounded {f : ℝ → ℝ} (hf : Decays f) : ∃ C, ∀ x, |f x| ≤ C := by
  obtain ⟨hc, C, c, hc0, h⟩ := hf
  refine ⟨C, fun x => (h x).trans (mul_le_of_le_one_right (Decays.const_nonneg h) ?_)⟩
  exact Real.exp_le_one_iff.mpr (by have := mul_nonneg hc0.le (sq_nonneg x); linarith)

theorem Decays.mul' {f g : ℝ → ℝ} (hf : Decays f) (hg : Decays g) : Decays fun x => f x * g x := by
  obtain ⟨C, hC⟩ := hg.bounded
  exact hf.mul hg.1 C hC

theorem her_decays (n : ℕ) : Decays (her n) := by
  obtain ⟨C, -, h⟩ := her_bound n (1 / 4) (by norm_num)
  exact ⟨her_continuous n, C, 1 / 4, by norm_num, fun x => by have := h x; norm_num at this ⊢; exact this⟩

/-! ### orthogonality -/

theorem her_step (n m : ℕ) : ∫ x, her (n + 1) x * her m x = 2 * m * ∫ x, her n x * her (m - 1) x := by
  have d := fun k => her_decays k
  have e1 : (fun x => her (n + 1) x * her m x) = fun x => x * her n x * her m x - her m x * (x * her n x - her (n + 1) x) := by
    funext x; ring
  have i1 : Integrable fun x => x * her n x * her m x := ((d n).id_mul.mul' (d m)).integrable
  have i2 : Integrable fun x => her m x * (x * her n x - her (n + 1) x) := by
    have h := (((d m).mul' (d n).id_mul).integrable.sub ((d m).mul' (d (n + 1))).integrable)
    refine h.congr (ae_of_all _ fun x => ?_)
    simp only [Pi.sub_apply]; ring
  have i3 : Integrable fun x => (2 * m * her (m - 1) x - x * her m x) * her n x := by
    have h := (((d (m - 1)).mul' (d n)).integrable.const_mul (2 * m)).sub ((d m).id_mul.mul' (d n)).integrable
    refine h.congr (ae_of_all _ fun x => ?_)
    simp only [Pi.sub_apply]; ring
  have i4 : Integrable fun x => her m x * her n x := ((d m).mul' (d n)).integrable
  have key := integral_mul_deriv_eq_deriv_mul_of_integrable (u := her m) (v := her n)
    (u' := fun x => 2 * m * her (m - 1) x - x * her m x) (v' := fun x => x * her n x - her (n + 1) x)
    (fun x _ => her_deriv' m x) (fun x _ => her_deriv n x) i2 i3 i4
  rw [e1, integral_sub i1 i2, key, sub_neg_eq_add, ← integral_add i1 i3, ← integral_const_mul]
  congr 1
  funext x; ring

theorem her_zero : ∫ x, her 0 x * her 0 x = Real.sqrt Real.pi := by
  have e : (fun x => her 0 x * her 0 x) = fun x => Real.exp (-1 * x ^ 2) := by
    funext x; simp only [her]; rw [← Real.exp_add]; congr 1; ring
  rw [e, integral_gaussian, div_one]

theorem her_ortho : ∀ n m, ∫ x, her n x * her m x = if n = m then 2 ^ n * n.factorial * Real.sqrt Real.pi else 0
  | 0, 0 => by rw [her_zero]; simp
  | n + 1, 0 => by rw [her_step]; simp
  | 0, m + 1 => by
    have e : (fun x => her 0 x * her (m + 1) x) = fun x => her (m + 1) x * her 0 x := by funext x; ring
    rw [e, her_step]; simp
  | n + 1, m + 1 => by
    rw [her_step, Nat.add_sub_cancel, her_ortho n m]
    by_cases h : n = m
    · subst h
      simp only [if_true, pow_succ, Nat.factorial_succ]; push_cast; ring
    · simp [h]

/-! ### eigenfunctions of the propagator -/

theorem propagator_deriv (t w x y : ℝ) :
    HasDerivAt (fun y => propagator t w x y)
      ((x / Real.sinh (t * w) - Real.cosh (t * w) / Real.sinh (t * w) * y) * propagator t w x y) y := by
  unfold propagator
  have h1 : HasDerivAt (fun y : ℝ => -((x ^ 2 + y ^ 2) * Real.cosh (t * w) - 2 * x * y) / (2 * Real.sinh (t * w)))
      (-((0 + 2 * y) * Real.cosh (t * w) - 2 * x * 1) / (2 * Real.sinh (t * w))) y := by
    have h2 : HasDerivAt (fun y : ℝ => y ^ 2) (2 * y) y := by simpa using hasDerivAt_pow 2 y
    exact ((((hasDerivAt_const y (x ^ 2)).add h2).mul_const _).sub ((hasDerivAt_id y).const_mul (2 * x))).neg.div_const _
  refine (h1.exp.div_const _).congr_deriv ?_
  by_cases hs : Real.sinh (t * w) = 0
  · simp [hs]
  · field_simp
    ring

theorem propagator_decays (t w x : ℝ) (hs : 0 < t * w) : Decays fun y => propagator t w x y := by
  have h1 : 0 < Real.sinh (t * w) := Real.sinh_pos_iff.mpr hs
  have h2 : 1 ≤ Real.cosh (t * w) := Real.one_le_cosh _
  refine ⟨continuous_propagator t w continuous_const continuous_id,
    Real.exp (x ^ 2 / Real.sinh (t * w)) / Real.sqrt (Real.sinh (t * w)), 1 / (4 * Real.sinh (t * w)), by positivity, fun y => ?_⟩
  unfold propagator
  rw [abs_of_nonneg (by positivity), div_mul_eq_mul_div, ← Real.exp_add]
  refine div_le_div_of_nonneg_right (Real.exp_le_exp.mpr ?_) (Real.sqrt_nonneg _)
  rw [div_le_iff₀ (by positivity)]
  have e : (x ^ 2 / Real.sinh (t * w) + -(1 / (4 * Real.sinh (t * w)) * y ^ 2)) * (2 * Real.sinh (t * w)) = 2 * x ^ 2 - y ^ 2 / 2 := by
    field_simp; ring
  rw [e]
  have h3 : (x ^ 2 + y ^ 2) * 1 ≤ (x ^ 2 + y ^ 2) * Real.cosh (t * w) := mul_le_mul_of_nonneg_left h2 (by positivity)
  nlinarith [sq_nonneg (2 * x - y)]

theorem sinh_exp (s : ℝ) : Real.sinh s = (1 - Real.exp (-s) ^ 2) / (2 * Real.exp (-s)) := by
  rw [Real.sinh_eq, Real.exp_neg]
  have := (Real.exp_pos s).ne'
  field_simp

theorem cosh_exp (s : ℝ) : Real.cosh s = (1 + Real.exp (-s) ^ 2) / (2 * Real.exp (-s)) := by
  rw [Real.cosh_eq, Real.exp_neg]
  have := (Real.exp_pos s).ne'
  field_simp

theorem propagator_zero (t w x : ℝ) (hs : 0 < t * w) :
    ∫ y, propagator t w x y * her 0 y = Real.sqrt (2 * Real.pi) * Real.exp (-(t * w / 2)) * her 0 x := by
  have h1 : 0 < Real.sinh (t * w) := Real.sinh_pos_iff.mpr hs
  have hE : Real.cosh (t * w) + Real.sinh (t * w) = Real.exp (t * w) := Real.cosh_add_sinh _
  have hE0 := Real.exp_pos (t * w)
  set S := Real.sinh (t * w) with hS
  set c := Real.cosh (t * w) with hc
  set E := Real.exp (t * w) with hEd
  have hcs : c ^ 2 = S ^ 2 + 1 := Real.cosh_sq _
  have e : (fun y => propagator t w x y * her 0 y)
      = fun y => Real.exp (-(x ^ 2 / 2)) / Real.sqrt S * Real.exp (-(E / (2 * S)) * (y - x / E) ^ 2) := by
    funext y
    unfold propagator her
    rw [div_mul_eq_mul_div, div_mul_eq_mul_div, ← Real.exp_add, ← Real.exp_add]
    congr 2
    have hc' : c = E - S := by linarith
    have hE2 : E * (E - 2 * S) = 1 := by rw [hc'] at hcs; nlinarith
    rw [← hc, ← hS, hc']
    field_simp
    linear_combination (-(x ^ 2)) * hE2
  rw [e, integral_const_mul, integral_sub_right_eq_self (fun y => Real.exp (-(E / (2 * S)) * y ^ 2)), integral_gaussian]
  have e2 : Real.pi / (E / (2 * S)) = 2 * Real.pi * S / E := by field_simp
  rw [e2, Real.sqrt_div (by positivity), Real.sqrt_mul (by positivity)]
  have e3 : Real.sqrt E = Real.exp (t * w / 2) := by
    rw [hEd, Real.exp_half]
  rw [e3, Real.exp_neg (t * w / 2)]
  simp only [her]
  have q := (Real.sqrt_pos.mpr h1).ne'
  field_simp

theorem propagator_step (t w x : ℝ) (hs : 0 < t * w) (n : ℕ) :
    ∫ y, propagator t w x y * her (n + 1) y
      = 2 * Real.exp (-(t * w)) * x * (∫ y, propagator t w x y * her n y)
        - 2 * n * Real.exp (-(t * w)) ^ 2 * ∫ y, propagator t w x y * her (n - 1) y := by
  have h1 : 0 < Real.sinh (t * w) := Real.sinh_pos_iff.mpr hs
  set S := Real.sinh (t * w) with hS
  set c := Real.cosh (t * w) with hc
  have d := fun k => her_decays k
  have dp := propagator_decays t w x hs
  have ipd : ∀ k, Integrable fun y => propagator t w x y * her k y := fun k => (dp.mul' (d k)).integrable
  have ixd : Integrable fun y => propagator t w x y * (y * her n y) := (dp.mul' (d n).id_mul).integrable
  have i2 : Integrable fun y => propagator t w x y * (y * her n y - her (n + 1) y) := by
    refine (ixd.sub (ipd (n + 1))).congr (ae_of_all _ fun y => ?_)
    simp only [Pi.sub_apply]; ring
  have i3 : Integrable fun y => ((x / S - c / S * y) * propagator t w x y) * her n y := by
    refine (((ipd n).const_mul (x / S)).sub (ixd.const_mul (c / S))).congr (ae_of_all _ fun y => ?_)
    simp only [Pi.sub_apply]; ring
  have key := integral_mul_deriv_eq_deriv_mul_of_integrable (u := fun y => propagator t w x y) (v := her n)
    (u' := fun y => (x / S - c / S * y) * propagator t w x y) (v' := fun y => y * her n y - her (n + 1) y)
    (fun y _ => propagator_deriv t w x y) (fun y _ => her_deriv n y) i2 (ipd n |> fun _ => i3) (ipd n)
  have e1 : ∫ y, propagator t w x y * (y * her n y - her (n + 1) y)
      = (∫ y, propagator t w x y * (y * her n y)) - ∫ y, propagator t w x y * her (n + 1) y := by
    rw [← integral_sub ixd (ipd (n + 1))]; congr 1; funext y; ring
  have e2 : ∫ y, ((x / S - c / S * y) * propagator t w x y) * her n y
      = x / S * (∫ y, propagator t w x y * her n y) - c / S * ∫ y, propagator t w x y * (y * her n y) := by
    rw [← integral_const_mul, ← integral_const_mul, ← integral_sub ((ipd n).const_mul _) (ixd.const_mul _)]
    congr 1; funext y; ring
  have e3 : ∫ y, propagator t w x y * (y * her n y)
      = 1 / 2 * (∫ y, propagator t w x y * her (n + 1) y) + n * ∫ y, propagator t w x y * her (n - 1) y := by
    rw [← integral_const_mul, ← integral_const_mul, ← integral_add ((ipd _).const_mul _) ((ipd _).const_mul _)]
    congr 1; funext y; rw [her_succ]; ring
  have key' : (∫ y, propagator t w x y * (y * her n y)) - (∫ y, propagator t w x y * her (n + 1) y)
      = -(x / S * (∫ y, propagator t w x y * her n y) - c / S * ∫ y, propagator t w x y * (y * her n y)) := by
    rw [← e1, ← e2]; exact key
  rw [e3] at key'
  set A1 := ∫ y, propagator t w x y * her (n + 1) y
  set A0 := ∫ y, propagator t w x y * her n y
  set A2 := ∫ y, propagator t w x y * her (n - 1) y
  set r := Real.exp (-(t * w)) with hr
  have hr0 : 0 < r := Real.exp_pos _
  have hr1 : r < 1 := Real.exp_lt_one_iff.mpr (by linarith)
  have hr2 : 1 - r ^ 2 ≠ 0 := by nlinarith
  have eS : S = (1 - r ^ 2) / (2 * r) := sinh_exp _
  have ec : c = (1 + r ^ 2) / (2 * r) := cosh_exp _
  rw [eS, ec] at key'
  field_simp at key'
  linarith

/-- Each of these functions is an eigenfunction of the propagator. -/
theorem propagator_her (t w x : ℝ) (hs : 0 < t * w) (n : ℕ) :
    ∫ y, propagator t w x y * her n y = Real.sqrt (2 * Real.pi) * Real.exp (-(t * w * (n + 1 / 2))) * her n x := by
  suffices H : (∫ y, propagator t w x y * her n y = Real.sqrt (2 * Real.pi) * Real.exp (-(t * w * (n + 1 / 2))) * her n x) ∧
      ∫ y, propagator t w x y * her (n + 1) y = Real.sqrt (2 * Real.pi) * Real.exp (-(t * w * ((n + 1 : ℕ) + 1 / 2))) * her (n + 1) x
    from H.1
  have h0 : ∫ y, propagator t w x y * her 0 y = Real.sqrt (2 * Real.pi) * Real.exp (-(t * w * ((0 : ℕ) + 1 / 2))) * her 0 x := by
    rw [propagator_zero t w x hs]
    congr 3; push_cast; ring
  have ex : ∀ k : ℕ, Real.exp (-(t * w * ((k + 1 : ℕ) + 1 / 2))) = Real.exp (-(t * w)) * Real.exp (-(t * w * (k + 1 / 2))) := by
    intro k; rw [← Real.exp_add]; congr 1; push_cast; ring
  induction n with
  | zero =>
    refine ⟨h0, ?_⟩
    rw [propagator_step t w x hs, h0, ex, her_succ]
    push_cast; ring
  | succ n ih =>
    refine ⟨ih.2, ?_⟩
    rw [propagator_step t w x hs, Nat.add_sub_cancel, ih.1, ih.2, ex (n + 1), her_succ (n + 1), Nat.add_sub_cancel, ex n]
    push_cast
    ring

/-! ### normalised -/

noncomputable def size (n : ℕ) : ℝ := Real.sqrt (2 ^ n * n.factorial * Real.sqrt Real.pi)

theorem size_pos (n : ℕ) : 0 < size n := Real.sqrt_pos.mpr (by have := Real.sqrt_pos.mpr Real.pi_pos; positivity)

theorem size_succ (n : ℕ) : size (n + 1) = Real.sqrt (2 * (n + 1)) * size n := by
  unfold size
  rw [← Real.sqrt_mul (by positivity)]
  congr 1
  rw [Nat.factorial_succ, pow_succ]; push_cast; ring

/-- The eigenfunctions of the oscillator. -/
noncomputable def state (n : ℕ) (x : ℝ) : ℝ := her n x / size n

theorem state_continuous (n : ℕ) : Continuous (state n) := (her_continuous n).div_const _

theorem state_ortho (n m : ℕ) : ∫ x, state n x * state m x = if n = m then 1 else 0 := by
  have e : (fun x => state n x * state m x) = fun x => 1 / (size n * size m) * (her n x * her m x) := by
    funext x; unfold state; field_simp
  rw [e, integral_const_mul, her_ortho]
  by_cases h : n = m
  · subst h
    have h1 := size_pos n
    have h2 : size n * size n = 2 ^ n * n.factorial * Real.sqrt Real.pi := Real.mul_self_sqrt (by positivity)
    rw [if_pos rfl, if_pos rfl, ← h2]
    field_simp
  · simp [h]

theorem state_decays (n : ℕ) : Decays (state n) := by
  have h := (her_decays n).mul (g := fun _ => (size n)⁻¹) continuous_const (size n)⁻¹
    (fun _ => (abs_of_pos (inv_pos.mpr (size_pos n))).le)
  exact h

theorem state_bound (n : ℕ) (δ : ℝ) (hδ : 0 < δ) : ∃ C, 0 ≤ C ∧ ∀ x, |state n x| ≤ C * Real.exp (-((1 / 2 - δ) * x ^ 2)) := by
  obtain ⟨C, hC, h⟩ := her_bound n δ hδ
  refine ⟨C / size n, div_nonneg hC (size_pos n).le, fun x => ?_⟩
  unfold state
  rw [abs_div, abs_of_pos (size_pos n), div_mul_eq_mul_div]
  exact div_le_div_of_nonneg_right (h x) (size_pos n).le

theorem state_mul (n : ℕ) (x : ℝ) :
    x * state n x = Real.sqrt ((n + 1) / 2) * state (n + 1) x + Real.sqrt (n / 2) * state (n - 1) x := by
  have h1 : x * her n x = 1 / 2 * her (n + 1) x + n * her (n - 1) x := by rw [her_succ]; ring
  have h2 := size_pos n
  have e1 : Real.sqrt ((n + 1) / 2) * state (n + 1) x = 1 / 2 * her (n + 1) x / size n := by
    unfold state
    rw [size_succ]
    have h3 : Real.sqrt (2 * ((n : ℝ) + 1)) = 2 * Real.sqrt ((n + 1) / 2) := by
      have : 2 * ((n : ℝ) + 1) = 2 ^ 2 * ((n + 1) / 2) := by ring
      rw [this, Real.sqrt_mul (by positivity), Real.sqrt_sq (by norm_num)]
    rw [h3]
    have h4 : Real.sqrt (((n : ℝ) + 1) / 2) ≠ 0 := (Real.sqrt_pos.mpr (by positivity)).ne'
    field_simp
  have e2 : Real.sqrt (n / 2) * state (n - 1) x = n * her (n - 1) x / size n := by
    cases n with
    | zero => simp
    | succ k =>
      unfold state
      rw [Nat.add_sub_cancel, size_succ]
      have h3 : Real.sqrt (2 * ((k : ℝ) + 1)) * Real.sqrt (((k + 1 : ℕ) : ℝ) / 2) = ((k + 1 : ℕ) : ℝ) := by
        rw [← Real.sqrt_mul (by positivity)]
        have : 2 * ((k : ℝ) + 1) * (((k + 1 : ℕ) : ℝ) / 2) = (((k + 1 : ℕ) : ℝ)) ^ 2 := by push_cast; ring
        rw [this, Real.sqrt_sq (by positivity)]
      have h4 : Real.sqrt (2 * ((k : ℝ) + 1)) ≠ 0 := (Real.sqrt_pos.mpr (by positivity)).ne'
      have h5 := (size_pos k).ne'
      rw [← mul_div_assoc, div_eq_div_iff h5 (mul_ne_zero h4 h5)]
      linear_combination (her k x * size k) * h3
  rw [e1, e2, ← add_div, ← h1]
  unfold state
  ring

theorem propagator_state (t w x : ℝ) (hs : 0 < t * w) (n : ℕ) :
    ∫ y, propagator t w x y * state n y = Real.sqrt (2 * Real.pi) * Real.exp (-(t * w * (n + 1 / 2))) * state n x := by
  have e : (fun y => propagator t w x y * state n y) = fun y => (size n)⁻¹ * (propagator t w x y * her n y) := by
    funext y; unfold state; field_simp
  rw [e, integral_const_mul, propagator_her t w x hs n]
  unfold state
  field_simp

end Pibronic.Ritz
