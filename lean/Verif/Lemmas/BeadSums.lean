import Verif.Lemmas.ExpBounds

set_option autoImplicit false
set_option linter.unusedSectionVars false

/-! Sums over the beads of a closed path that vanish as the number of beads grows. -/
namespace Pibronic.PIMC
open Finset Filter Topology Spec.PIMC MeasureTheory

variable {N : ℕ}

/-- The sum of squares. -/
def sq (x : Fin N → ℝ) : ℝ := ∑ i, x i ^ 2

theorem sq_nonneg' (x : Fin N → ℝ) : 0 ≤ sq x := sum_nonneg fun _ _ => sq_nonneg _

/-- The springs between the beads. -/
noncomputable def spring {P : ℕ} [NeZero P] (t : ℝ) (w : Fin N → ℝ) (R : BeadPath N P) : ℝ :=
  ∑ p, ∑ i, (R i p - R i (p + 1)) ^ 2 / (2 * Real.sinh (t * w i))

theorem spring_nonneg {P : ℕ} [NeZero P] (t : ℝ) (w : Fin N → ℝ) (hw : ∀ i, 0 < t * w i) (R : BeadPath N P) : 0 ≤ spring t w R :=
  sum_nonneg fun p _ => sum_nonneg fun i _ => div_nonneg (sq_nonneg _)
    (mul_nonneg two_pos.le (Real.sinh_pos_iff.mpr (hw i)).le)

theorem sinh_le_mul (u : ℝ) (hu : 0 ≤ u) : Real.sinh u ≤ u * Real.cosh u := by
  have h := tanh_le_self u hu
  rwa [Real.tanh_eq_sinh_div_cosh, div_le_iff₀ (Real.cosh_pos u)] at h

theorem steps_le (beta : ℝ) (hb : 0 < beta) (w : Fin N → ℝ) (hw : ∀ i, 0 < w i) :
    ∃ h, 0 ≤ h ∧ ∀ (P : ℕ) [NeZero P] (R : BeadPath N P),
      ∑ p, ∑ i, (R i p - R i (p + 1)) ^ 2 ≤ h * (spring (beta / P) w R / P) := by
  set h := ∑ i, 2 * beta * w i * Real.cosh (beta * w i) with hh
  have hterm : ∀ i, 0 ≤ 2 * beta * w i * Real.cosh (beta * w i) := fun i => by
    have := hw i; have := Real.cosh_pos (beta * w i); positivity
  refine ⟨h, sum_nonneg fun i _ => hterm i, fun P _ R => ?_⟩
  have hP0 : (0 : ℝ) < P := by exact_mod_cast Nat.pos_of_ne_zero (NeZero.ne P)
  have hP1 : (1 : ℝ) ≤ P := by exact_mod_cast Nat.pos_of_ne_zero (NeZero.ne P)
  have ht : 0 < beta / P := div_pos hb hP0
  have hsin : ∀ i, 2 * Real.sinh (beta / P * w i) ≤ h / P := by
    intro i
    have hu : 0 ≤ beta / P * w i := (mul_pos ht (hw i)).le
    have h1 := sinh_le_mul _ hu
    have h2 : Real.cosh (beta / P * w i) ≤ Real.cosh (beta * w i) := by
      rw [Real.cosh_le_cosh, abs_of_nonneg hu, abs_of_pos (mul_pos hb (hw i))]
      exact mul_le_mul_of_nonneg_right (div_le_self hb.le hP1) (hw i).le
    have h3 : 2 * beta * w i * Real.cosh (beta * w i) ≤ h := single_le_sum (fun i _ => hterm i) (mem_univ i)
    calc 2 * Real.sinh (beta / P * w i) ≤ 2 * (beta / P * w i * Real.cosh (beta * w i)) := by
          have := mul_le_mul_of_nonneg_left h2 hu
          linarith
      _ = 2 * beta * w i * Real.cosh (beta * w i) / P := by ring
      _ ≤ h / P := div_le_div_of_nonneg_right h3 hP0.le
  have e : h * (spring (beta / P) w R / P) = ∑ p, ∑ i, h / P * ((R i p - R i (p + 1)) ^ 2 / (2 * Real.sinh (beta / P * w i))) := by
    simp only [spring, ← mul_sum]; ring
  rw [e]
  refine sum_le_sum fun p _ => sum_le_sum fun i _ => ?_
  have hs : 0 < 2 * Real.sinh (beta / P * w i) := mul_pos two_pos (Real.sinh_pos_iff.mpr (mul_pos ht (hw i)))
  have h1 := mul_le_mul_of_nonneg_right (hsin i) (div_nonneg (sq_nonneg (R i p - R i (p + 1))) hs.le)
  rwa [mul_div_cancel₀ _ hs.ne'] at h1

/-- The sum over the beads of the first and second order errors. -/
noncomputable def errorSum {P : ℕ} [NeZero P] (C t : ℝ) (R : BeadPath N P) : ℝ :=
  ∑ p, C * (t * ∑ i, |R i p - R i (p + 1)| + t ^ 2 * (1 + sq (fun i => R i p) + sq (fun i => R i (p + 1))) ^ 2
    * Real.exp (C * (t * (1 + sq (fun i => R i p) + sq (fun i => R i (p + 1))))))

theorem sq_le_exp (a x : ℝ) (ha : 0 < a) (hx : 0 ≤ x) : x ^ 2 ≤ 2 / a ^ 2 * Real.exp (a * x) := by
  have h := Real.quadratic_le_exp_of_nonneg (mul_nonneg ha.le hx)
  rw [div_mul_eq_mul_div, le_div_iff₀ (by positivity)]
  nlinarith [mul_nonneg ha.le hx]

set_option maxHeartbeats 1000000 in
theorem errorSum_le (beta : ℝ) (hb : 0 < beta) (w : Fin N → ℝ) (hw : ∀ i, 0 < w i) (C : ℝ) (hC : 0 ≤ C) (η : ℝ) (hη : 0 < η)
    (hη1 : 2 * η ≤ 1) :
    ∃ C' : ℝ, 0 ≤ C' ∧ ∀ᶠ P : ℕ in atTop, ∀ [NeZero P] (R : BeadPath N P),
      errorSum C (beta / P) R ≤ C' / Real.sqrt P
        * Real.exp (2 * η * (beta / P * ∑ p, sq (fun i => R i p)) + spring (beta / P) w R / P) := by
  obtain ⟨h, h0, hh⟩ := steps_le beta hb w hw
  set h2 := 3 / beta + h / 2 with hh2
  have hh20 : 0 ≤ h2 := by positivity
  set h3 := 1 + 2 * h2 with hh3
  have hh30 : 0 ≤ h3 := by positivity
  set K := C * ((Real.sqrt beta / 2 * (N * beta + h) + beta * h3 * (beta + 2)) * (2 / η ^ 2)) * Real.exp (2 * η) with hK
  have hK0 : 0 ≤ K := by positivity
  refine ⟨K, hK0, ?_⟩
  filter_upwards [eventually_ge_atTop 1, (tendsto_natCast_atTop_atTop (R := ℝ)).eventually_ge_atTop ((C * (beta * h3) / η) ^ 2)]
    with P hP1 hPbig hne R
  have hP0 : (0 : ℝ) < P := by exact_mod_cast hP1
  have hP1' : (1 : ℝ) ≤ P := by exact_mod_cast hP1
  set s := Real.sqrt P with hs
  have hs0 : 0 < s := Real.sqrt_pos.mpr hP0
  have hs1 : 1 ≤ s := Real.one_le_sqrt.mpr hP1'
  have hss : s * s = P := Real.mul_self_sqrt hP0.le
  set t := beta / P with ht
  have ht0 : 0 < t := div_pos hb hP0
  have htP : P * t = beta := by rw [ht]; field_simp
  set Y := t * ∑ p, sq (fun i => R i p) with hY
  set D := spring t w R / P with hD
  have hY0 : 0 ≤ Y := mul_nonneg ht0.le (sum_nonneg fun p _ => sq_nonneg' _)
  have hD0 : 0 ≤ D := div_nonneg (spring_nonneg t w (fun i => mul_pos ht0 (hw i)) R) hP0.le
  set z := 1 + Y + D with hz
  have hz1 : 1 ≤ z := by rw [hz]; linarith
  clear_value h2 h3 K s Y z
  have hsteps : ∑ p, ∑ i, (R i p - R i (p + 1)) ^ 2 ≤ h * D := hh P R
  -- the first order errors
  have hfirst : t * ∑ p, ∑ i, |R i p - R i (p + 1)| ≤ Real.sqrt beta / 2 * (N * beta + h) / s * z := by
    have hst : Real.sqrt t = Real.sqrt beta / s := by rw [ht, Real.sqrt_div hb.le, hs]
    have hst0 : 0 < Real.sqrt t := Real.sqrt_pos.mpr ht0
    have h1 : ∀ p i, t * |R i p - R i (p + 1)| ≤ Real.sqrt t / 2 * (t + (R i p - R i (p + 1)) ^ 2) := by
      intro p i
      have e := Real.mul_self_sqrt ht0.le
      have h4 := sq_nonneg (Real.sqrt t - |R i p - R i (p + 1)|)
      rw [← sq_abs (R i p - R i (p + 1))]
      calc t * |R i p - R i (p + 1)| = Real.sqrt t * (Real.sqrt t * |R i p - R i (p + 1)|) := by rw [← mul_assoc, e]
        _ ≤ Real.sqrt t * ((t + |R i p - R i (p + 1)| ^ 2) / 2) := mul_le_mul_of_nonneg_left (by nlinarith) hst0.le
        _ = _ := by ring
    have h2 : t * ∑ p, ∑ i, |R i p - R i (p + 1)| ≤ Real.sqrt t / 2 * (P * (N * t) + ∑ p, ∑ i, (R i p - R i (p + 1)) ^ 2) := by
      have h3 : ∑ p : Fin P, ∑ i : Fin N, Real.sqrt t / 2 * (t + (R i p - R i (p + 1)) ^ 2)
          = Real.sqrt t / 2 * (P * (N * t) + ∑ p, ∑ i, (R i p - R i (p + 1)) ^ 2) := by
        simp only [← mul_sum, sum_add_distrib, sum_const, card_univ, Fintype.card_fin, nsmul_eq_mul]
        ring
      rw [← h3, mul_sum]
      refine sum_le_sum fun p _ => ?_
      rw [mul_sum]
      exact sum_le_sum fun i _ => h1 p i
    refine h2.trans ?_
    have e : (P : ℝ) * (N * t) = N * beta := by rw [← htP]; ring
    rw [e, hst]
    have h5 : (N : ℝ) * beta + ∑ p, ∑ i, (R i p - R i (p + 1)) ^ 2 ≤ (N * beta + h) * z := by
      have : (0 : ℝ) ≤ N * beta := by positivity
      rw [hz]
      nlinarith [mul_nonneg h0 hY0, mul_nonneg this hY0, mul_nonneg this hD0, hsteps]
    calc Real.sqrt beta / s / 2 * (N * beta + ∑ p, ∑ i, (R i p - R i (p + 1)) ^ 2)
        ≤ Real.sqrt beta / s / 2 * ((N * beta + h) * z) := mul_le_mul_of_nonneg_left h5 (by positivity)
      _ = _ := by ring
  -- the largest bead
  have hmax : ∀ p, sq (fun i => R i p) ≤ s * h2 * z := by
    intro p
    have h1 : sq (fun i => R i p) ≤ (1 / P + 2 / s) * (∑ q, sq (fun i => R i q)) + s / 2 * ∑ q, ∑ i, (R i q - R i (q + 1)) ^ 2 := by
      unfold sq
      rw [sum_comm (f := fun q i => R i q ^ 2), sum_comm (f := fun q i => (R i q - R i (q + 1)) ^ 2), mul_sum, mul_sum,
        ← sum_add_distrib]
      exact sum_le_sum fun i _ => point_le (fun q => R i q) s hs0 p
    have e : (∑ q, sq (fun i => R i q)) = P / beta * Y := by
      rw [hY, ht]; field_simp
    have h2' : (1 / P + 2 / s) * (P / beta) ≤ s * (3 / beta) := by
      have h3 : 1 / (P : ℝ) ≤ 1 / s := one_div_le_one_div_of_le hs0 (by rw [← hss]; nlinarith)
      have h4 : (1 / P + 2 / s) ≤ 3 / s := by
        have : 3 / s = 1 / s + 2 / s := by ring
        linarith
      calc (1 / P + 2 / s) * (P / beta) ≤ 3 / s * (P / beta) := mul_le_mul_of_nonneg_right h4 (by positivity)
        _ = s * (3 / beta) := by rw [← hss]; field_simp
    rw [e, ← mul_assoc] at h1
    have h5 := mul_le_mul_of_nonneg_right h2' hY0
    have h6 : s / 2 * ∑ q, ∑ i, (R i q - R i (q + 1)) ^ 2 ≤ s / 2 * (h * D) := mul_le_mul_of_nonneg_left hsteps (by positivity)
    refine h1.trans ((add_le_add h5 h6).trans ?_)
    have h7 : s * h2 * z - (s * (3 / beta) * Y + s / 2 * (h * D)) = s * (h2 + 3 / beta * D + h / 2 * Y) := by
      rw [hz, hh2]; ring
    have h8 : 0 ≤ s * (h2 + 3 / beta * D + h / 2 * Y) := by positivity
    linarith
  set r : Fin P → ℝ := fun p => 1 + sq (fun i => R i p) + sq (fun i => R i (p + 1)) with hr
  have hr0 : ∀ p, 0 ≤ r p := fun p => by
    have := sq_nonneg' fun i => R i p
    have := sq_nonneg' fun i => R i (p + 1)
    simp only [hr]; linarith
  have hrmax : ∀ p, t * r p ≤ beta * h3 / s * z := by
    intro p
    have h1 := hmax p
    have h2' := hmax (p + 1)
    have h4 : r p ≤ s * h3 * z := by
      have h5 : s * h3 * z = s * z + 2 * (s * h2 * z) := by rw [hh3]; ring
      have h6 : 1 ≤ s * z := by nlinarith
      simp only [hr]
      linarith
    calc t * r p ≤ t * (s * h3 * z) := mul_le_mul_of_nonneg_left h4 ht0.le
      _ = beta * h3 / s * z := by rw [ht, ← hss]; field_simp
  have hrsum : ∑ p, t * r p ≤ (beta + 2) * z := by
    have hshift : ∑ p, sq (fun i => R i (p + 1)) = ∑ p, sq (fun i => R i p) :=
      Fintype.sum_equiv (Equiv.addRight 1) _ _ fun _ => rfl
    have e : ∑ p, t * r p = beta + 2 * Y := by
      rw [← mul_sum]
      simp only [hr, sum_add_distrib, hshift, sum_const, card_univ, Fintype.card_fin, nsmul_eq_mul, mul_one]
      rw [hY, ← htP]; ring
    rw [e, hz]
    nlinarith [mul_nonneg hb.le hY0, mul_nonneg hb.le hD0]
  have hexp : ∀ p, Real.exp (C * (t * r p)) ≤ Real.exp (η * z) := by
    intro p
    refine Real.exp_le_exp.mpr ((mul_le_mul_of_nonneg_left (hrmax p) hC).trans ?_)
    have h1 : C * (beta * h3) / η ≤ s := by
      rw [hs]
      exact Real.le_sqrt_of_sq_le hPbig
    have h2 : C * (beta * h3) ≤ η * s := by rwa [div_le_iff₀ hη, mul_comm s] at h1
    have h4 : C * (beta * h3 / s * z) = C * (beta * h3) / s * z := by ring
    rw [h4]
    refine mul_le_mul_of_nonneg_right ?_ (by linarith)
    rwa [div_le_iff₀ hs0]
  have hsecond : ∑ p, t ^ 2 * r p ^ 2 * Real.exp (C * (t * r p)) ≤ beta * h3 * (beta + 2) / s * z ^ 2 * Real.exp (η * z) := by
    calc ∑ p, t ^ 2 * r p ^ 2 * Real.exp (C * (t * r p))
        ≤ ∑ p, (t * r p) * (beta * h3 / s * z * Real.exp (η * z)) := by
          refine sum_le_sum fun p _ => ?_
          have h1 : 0 ≤ t * r p := mul_nonneg ht0.le (hr0 p)
          calc t ^ 2 * r p ^ 2 * Real.exp (C * (t * r p)) = (t * r p) * ((t * r p) * Real.exp (C * (t * r p))) := by ring
            _ ≤ _ := mul_le_mul_of_nonneg_left (mul_le_mul (hrmax p) (hexp p) (Real.exp_pos _).le (h1.trans (hrmax p))) h1
      _ = (∑ p, t * r p) * (beta * h3 / s * z * Real.exp (η * z)) := by rw [sum_mul]
      _ ≤ (beta + 2) * z * (beta * h3 / s * z * Real.exp (η * z)) :=
          mul_le_mul_of_nonneg_right hrsum (by positivity)
      _ = _ := by ring
  have hz2 : z ^ 2 ≤ 2 / η ^ 2 * Real.exp (η * z) := sq_le_exp η z hη (by linarith)
  have hone : 1 ≤ Real.exp (η * z) := Real.one_le_exp (by positivity)
  have htotal : errorSum C t R ≤ C * ((Real.sqrt beta / 2 * (N * beta + h) + beta * h3 * (beta + 2)) * (2 / η ^ 2)) / s
      * Real.exp (2 * η * z) := by
    have e : errorSum C t R = C * (t * ∑ p, ∑ i, |R i p - R i (p + 1)| + ∑ p, t ^ 2 * r p ^ 2 * Real.exp (C * (t * r p))) := by
      unfold errorSum
      rw [← mul_sum, sum_add_distrib, ← mul_sum]
    have h1 : z ≤ 2 / η ^ 2 * Real.exp (2 * η * z) := by
      have h3 : Real.exp (η * z) ≤ Real.exp (2 * η * z) := Real.exp_le_exp.mpr (by nlinarith [mul_pos hη (show 0 < z by linarith)])
      have h4 : (0 : ℝ) ≤ 2 / η ^ 2 := by positivity
      nlinarith [mul_le_mul_of_nonneg_left h3 h4]
    have h2' : z ^ 2 * Real.exp (η * z) ≤ 2 / η ^ 2 * Real.exp (2 * η * z) := by
      have e2 : Real.exp (2 * η * z) = Real.exp (η * z) * Real.exp (η * z) := by rw [← Real.exp_add]; congr 1; ring
      rw [e2, ← mul_assoc]
      exact mul_le_mul_of_nonneg_right hz2 (Real.exp_pos _).le
    rw [e]
    have h5 : Real.sqrt beta / 2 * (N * beta + h) / s * z ≤ Real.sqrt beta / 2 * (N * beta + h) / s * (2 / η ^ 2 * Real.exp (2 * η * z)) :=
      mul_le_mul_of_nonneg_left h1 (by positivity)
    have h6 : beta * h3 * (beta + 2) / s * z ^ 2 * Real.exp (η * z) ≤ beta * h3 * (beta + 2) / s * (2 / η ^ 2 * Real.exp (2 * η * z)) := by
      rw [mul_assoc]
      exact mul_le_mul_of_nonneg_left h2' (by positivity)
    calc _ ≤ C * (Real.sqrt beta / 2 * (N * beta + h) / s * (2 / η ^ 2 * Real.exp (2 * η * z))
          + beta * h3 * (beta + 2) / s * (2 / η ^ 2 * Real.exp (2 * η * z))) :=
          mul_le_mul_of_nonneg_left (add_le_add (hfirst.trans h5) (hsecond.trans h6)) hC
      _ = _ := by ring
  refine htotal.trans ?_
  have hfin : Real.exp (2 * η * z) ≤ Real.exp (2 * η) * Real.exp (2 * η * Y + D) := by
    rw [← Real.exp_add]
    refine Real.exp_le_exp.mpr ?_
    rw [hz]
    nlinarith [mul_le_mul_of_nonneg_right hη1 hD0]
  calc _ ≤ C * ((Real.sqrt beta / 2 * (N * beta + h) + beta * h3 * (beta + 2)) * (2 / η ^ 2)) / s
        * (Real.exp (2 * η) * Real.exp (2 * η * Y + D)) := mul_le_mul_of_nonneg_left hfin (by positivity)
    _ = _ := by rw [hK]; ring

end Pibronic.PIMC
