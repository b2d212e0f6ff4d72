import Verif.Lemmas.Refine

set_option autoImplicit false
set_option linter.unusedSectionVars false

/-! The potential taken at another bead of the path that is not far away. -/
namespace Pibronic.PIMC
open Finset Filter Topology Spec.PIMC MeasureTheory
open scoped Matrix.Norms.L2Operator

variable {A N : ℕ} [NeZero A]

/-! ### sums over the beads -/

/-- The errors when bead `q` is replaced by bead `c q`. -/
noncomputable def shiftError {P : ℕ} [NeZero P] (C t : ℝ) (c : Fin P → Fin P) (R : BeadPath N P) : ℝ :=
  ∑ q, C * (Real.sqrt t * (t * (1 + sq (fun i => R i q) + sq fun i => R i (c q)) + sq fun i => R i q - R i (c q))
    + t ^ 2 * (1 + sq (fun i => R i q) + sq fun i => R i (c q)) ^ 2
      * Real.exp (C * (t * (1 + sq (fun i => R i q) + sq fun i => R i (c q)))))

/-- The beads `c q` are not larger and not further away than `k` allows. -/
def Near {P : ℕ} [NeZero P] (k : ℝ) (c : Fin P → Fin P) (R : BeadPath N P) : Prop :=
  ∑ q, sq (fun i => R i (c q)) ≤ k * ∑ q, sq (fun i => R i q) ∧
  ∑ q, sq (fun i => R i q - R i (c q)) ≤ k * ∑ q, ∑ i, (R i q - R i (q + 1)) ^ 2

set_option maxHeartbeats 1000000 in
theorem shiftError_le (beta : ℝ) (hb : 0 < beta) (w : Fin N → ℝ) (hw : ∀ i, 0 < w i) (C : ℝ) (hC : 0 ≤ C) (k : ℝ) (hk : 0 ≤ k)
    (η : ℝ) (hη : 0 < η) (hη1 : 2 * η ≤ 1 / 2) :
    ∃ C' : ℝ, 0 ≤ C' ∧ ∀ᶠ P : ℕ in atTop, ∀ [NeZero P] (c : Fin P → Fin P) (R : BeadPath N P), Near k c R →
      shiftError C (beta / P) c R ≤ C' / Real.sqrt P
        * Real.exp (2 * η * (beta / P * ∑ p, sq (fun i => R i p)) + spring (beta / P) w R / P / 2) ∧
      beta / P * C * ∑ q, sq (fun i => R i q - R i (c q)) ≤ spring (beta / P) w R / P / 2 := by
  obtain ⟨h, h0, hh⟩ := steps_le beta hb w hw
  set h2 := 3 / beta + h / 2 with hh2
  have hh20 : 0 ≤ h2 := by positivity
  set h3 := 1 + 2 * h2 with hh3
  have hh30 : 0 ≤ h3 := by positivity
  set k1 := beta + 1 + k + k * h with hk1
  have hk10 : 0 ≤ k1 := by positivity
  set K := C * ((Real.sqrt beta * k1 + beta * h3 * k1) * (2 / η ^ 2)) * Real.exp (2 * η) with hK
  have hK0 : 0 ≤ K := by positivity
  refine ⟨K, hK0, ?_⟩
  filter_upwards [eventually_ge_atTop 1, (tendsto_natCast_atTop_atTop (R := ℝ)).eventually_ge_atTop ((C * (beta * h3) / η) ^ 2),
    (tendsto_natCast_atTop_atTop (R := ℝ)).eventually_ge_atTop (2 * (beta * C * (k * h)))]
    with P hP1 hPbig hPbig2 hne c R hnear
  obtain ⟨hn1, hn2⟩ := hnear
  have hP0 : (0 : ℝ) < P := by exact_mod_cast hP1
  have hP1' : (1 : ℝ) ≤ P := by exact_mod_cast hP1
  set s := Real.sqrt P with hs
  have hs0 : 0 < s := Real.sqrt_pos.mpr hP0
  have hs1 : 1 ≤ s := Real.one_le_sqrt.mpr hP1'
  have hss : s * s = P := Real.mul_self_sqrt hP0.le
  set t := beta / P with ht
  have ht0 : 0 < t := div_pos hb hP0
  have htP : P * t = beta := by rw [ht]; field_simp
  set Y := t * ∑ p, sq (fun i => R i p) with hY
  set D := spring t w R / P with hD
  have hY0 : 0 ≤ Y := mul_nonneg ht0.le (sum_nonneg fun p _ => sq_nonneg' _)
  have hD0 : 0 ≤ D := div_nonneg (spring_nonneg t w (fun i => mul_pos ht0 (hw i)) R) hP0.le
  set z := 1 + Y + D with hz
  have hz1 : 1 ≤ z := by rw [hz]; linarith
  have hsteps : ∑ p, ∑ i, (R i p - R i (p + 1)) ^ 2 ≤ h * D := hh P R
  have hmove : ∑ q, sq (fun i => R i q - R i (c q)) ≤ k * h * D := by
    refine hn2.trans ((mul_le_mul_of_nonneg_left hsteps hk).trans (le_of_eq ?_))
    ring
  refine ⟨?_, ?_⟩
  swap
  · have h1 : t * C * ∑ q, sq (fun i => R i q - R i (c q)) ≤ t * C * (k * h * D) :=
      mul_le_mul_of_nonneg_left hmove (by positivity)
    refine h1.trans ?_
    have h4 : t * C * (k * h) ≤ 1 / 2 := by
      rw [ht, div_mul_eq_mul_div, div_mul_eq_mul_div, div_le_iff₀ hP0]
      linarith
    have h5 := mul_le_mul_of_nonneg_right h4 hD0
    linarith
  clear_value h2 h3 K s Y z k1
  -- the largest bead
  have hmax : ∀ p, sq (fun i => R i p) ≤ s * h2 * z := by
    intro p
    have h1 : sq (fun i => R i p) ≤ (1 / P + 2 / s) * (∑ q, sq (fun i => R i q)) + s / 2 * ∑ q, ∑ i, (R i q - R i (q + 1)) ^ 2 := by
      unfold sq
      rw [sum_comm (f := fun q i => R i q ^ 2), sum_comm (f := fun q i => (R i q - R i (q + 1)) ^ 2), mul_sum, mul_sum,
        ← sum_add_distrib]
      exact sum_le_sum fun i _ => point_le (fun q => R i q) s hs0 p
    have e : (∑ q, sq (fun i => R i q)) = P / beta * Y := by
      rw [hY, ht]; field_simp
    have h2' : (1 / P + 2 / s) * (P / beta) ≤ s * (3 / beta) := by
      have h3 : 1 / (P : ℝ) ≤ 1 / s := one_div_le_one_div_of_le hs0 (by rw [← hss]; nlinarith)
      have h4 : (1 / P + 2 / s) ≤ 3 / s := by
        have : 3 / s = 1 / s + 2 / s := by ring
        linarith
      calc (1 / P + 2 / s) * (P / beta) ≤ 3 / s * (P / beta) := mul_le_mul_of_nonneg_right h4 (by positivity)
        _ = s * (3 / beta) := by rw [← hss]; field_simp
    rw [e, ← mul_assoc] at h1
    have h5 := mul_le_mul_of_nonneg_right h2' hY0
    have h6 : s / 2 * ∑ q, ∑ i, (R i q - R i (q + 1)) ^ 2 ≤ s / 2 * (h * D) := mul_le_mul_of_nonneg_left hsteps (by positivity)
    refine h1.trans ((add_le_add h5 h6).trans ?_)
    have h7 : s * h2 * z - (s * (3 / beta) * Y + s / 2 * (h * D)) = s * (h2 + 3 / beta * D + h / 2 * Y) := by
      rw [hz, hh2]; ring
    have h8 : 0 ≤ s * (h2 + 3 / beta * D + h / 2 * Y) := by positivity
    linarith
  set r : Fin P → ℝ := fun p => 1 + sq (fun i => R i p) + sq (fun i => R i (c p)) with hr
  have hr0 : ∀ p, 0 ≤ r p := fun p => by
    have := sq_nonneg' fun i => R i p
    have := sq_nonneg' fun i => R i (c p)
    simp only [hr]; linarith
  have hrmax : ∀ p, t * r p ≤ beta * h3 / s * z := by
    intro p
    have h1 := hmax p
    have h2' := hmax (c p)
    have h4 : r p ≤ s * h3 * z := by
      have h5 : s * h3 * z = s * z + 2 * (s * h2 * z) := by rw [hh3]; ring
      have h6 : 1 ≤ s * z := by nlinarith
      simp only [hr]
      linarith
    calc t * r p ≤ t * (s * h3 * z) := mul_le_mul_of_nonneg_left h4 ht0.le
      _ = beta * h3 / s * z := by rw [ht, ← hss]; field_simp
  have hrsum0 : ∑ p, t * r p ≤ beta + (1 + k) * Y := by
    have e : ∑ p, t * r p = beta + Y + t * ∑ p, sq (fun i => R i (c p)) := by
      rw [← mul_sum]
      simp only [hr, sum_add_distrib, sum_const, card_univ, Fintype.card_fin, nsmul_eq_mul, mul_one]
      rw [hY, ← htP]; ring
    have h1 := mul_le_mul_of_nonneg_left hn1 ht0.le
    have e2 : t * (k * ∑ q, sq (fun i => R i q)) = k * Y := by rw [hY]; ring
    rw [e]
    linarith
  have hkD : 0 ≤ k * h * D := by positivity
  have hkY : 0 ≤ k * h * Y := by positivity
  have hrsum : ∑ p, t * r p ≤ k1 * z := by
    refine hrsum0.trans ?_
    rw [hk1, hz]
    nlinarith [mul_nonneg hb.le hY0, mul_nonneg hb.le hD0, mul_nonneg hk hD0, mul_nonneg hk h0]
  have hboth : ∑ p, t * r p + ∑ q, sq (fun i => R i q - R i (c q)) ≤ k1 * z := by
    refine (add_le_add hrsum0 hmove).trans ?_
    rw [hk1, hz]
    nlinarith [mul_nonneg hb.le hY0, mul_nonneg hb.le hD0, mul_nonneg hk hD0, mul_nonneg hk h0]
  have hfirst : Real.sqrt t * ∑ q, (t * r q + sq (fun i => R i q - R i (c q))) ≤ Real.sqrt beta * k1 / s * z := by
    have hst : Real.sqrt t = Real.sqrt beta / s := by rw [ht, Real.sqrt_div hb.le, hs]
    rw [sum_add_distrib, hst]
    calc _ ≤ Real.sqrt beta / s * (k1 * z) := mul_le_mul_of_nonneg_left hboth (by positivity)
      _ = _ := by ring
  have hexp : ∀ p, Real.exp (C * (t * r p)) ≤ Real.exp (η * z) := by
    intro p
    refine Real.exp_le_exp.mpr ((mul_le_mul_of_nonneg_left (hrmax p) hC).trans ?_)
    have h1 : C * (beta * h3) / η ≤ s := by
      rw [hs]
      exact Real.le_sqrt_of_sq_le hPbig
    have h2 : C * (beta * h3) ≤ η * s := by rwa [div_le_iff₀ hη, mul_comm s] at h1
    have h4 : C * (beta * h3 / s * z) = C * (beta * h3) / s * z := by ring
    rw [h4]
    refine mul_le_mul_of_nonneg_right ?_ (by linarith)
    rwa [div_le_iff₀ hs0]
  have hsecond : ∑ p, t ^ 2 * r p ^ 2 * Real.exp (C * (t * r p)) ≤ beta * h3 * k1 / s * z ^ 2 * Real.exp (η * z) := by
    calc ∑ p, t ^ 2 * r p ^ 2 * Real.exp (C * (t * r p))
        ≤ ∑ p, (t * r p) * (beta * h3 / s * z * Real.exp (η * z)) := by
          refine sum_le_sum fun p _ => ?_
          have h1 : 0 ≤ t * r p := mul_nonneg ht0.le (hr0 p)
          calc t ^ 2 * r p ^ 2 * Real.exp (C * (t * r p)) = (t * r p) * ((t * r p) * Real.exp (C * (t * r p))) := by ring
            _ ≤ _ := mul_le_mul_of_nonneg_left (mul_le_mul (hrmax p) (hexp p) (Real.exp_pos _).le (h1.trans (hrmax p))) h1
      _ = (∑ p, t * r p) * (beta * h3 / s * z * Real.exp (η * z)) := by rw [sum_mul]
      _ ≤ k1 * z * (beta * h3 / s * z * Real.exp (η * z)) :=
          mul_le_mul_of_nonneg_right hrsum (by positivity)
      _ = _ := by ring
  have hz2 : z ^ 2 ≤ 2 / η ^ 2 * Real.exp (η * z) := sq_le_exp η z hη (by linarith)
  have hone : 1 ≤ Real.exp (η * z) := Real.one_le_exp (by positivity)
  have htotal : shiftError C t c R ≤ C * ((Real.sqrt beta * k1 + beta * h3 * k1) * (2 / η ^ 2)) / s
      * Real.exp (2 * η * z) := by
    have e : shiftError C t c R = C * (Real.sqrt t * ∑ q, (t * r q + sq (fun i => R i q - R i (c q)))
        + ∑ p, t ^ 2 * r p ^ 2 * Real.exp (C * (t * r p))) := by
      unfold shiftError
      rw [← mul_sum, sum_add_distrib, ← mul_sum]
    have h1 : z ≤ 2 / η ^ 2 * Real.exp (2 * η * z) := by
      have h3 : Real.exp (η * z) ≤ Real.exp (2 * η * z) := Real.exp_le_exp.mpr (by nlinarith [mul_pos hη (show 0 < z by linarith)])
      have h4 : (0 : ℝ) ≤ 2 / η ^ 2 := by positivity
      nlinarith [mul_le_mul_of_nonneg_left h3 h4]
    have h2' : z ^ 2 * Real.exp (η * z) ≤ 2 / η ^ 2 * Real.exp (2 * η * z) := by
      have e2 : Real.exp (2 * η * z) = Real.exp (η * z) * Real.exp (η * z) := by rw [← Real.exp_add]; congr 1; ring
      rw [e2, ← mul_assoc]
      exact mul_le_mul_of_nonneg_right hz2 (Real.exp_pos _).le
    rw [e]
    have h5 : Real.sqrt beta * k1 / s * z ≤ Real.sqrt beta * k1 / s * (2 / η ^ 2 * Real.exp (2 * η * z)) :=
      mul_le_mul_of_nonneg_left h1 (by positivity)
    have h6 : beta * h3 * k1 / s * z ^ 2 * Real.exp (η * z) ≤ beta * h3 * k1 / s * (2 / η ^ 2 * Real.exp (2 * η * z)) := by
      rw [mul_assoc]
      exact mul_le_mul_of_nonneg_left h2' (by positivity)
    calc _ ≤ C * (Real.sqrt beta * k1 / s * (2 / η ^ 2 * Real.exp (2 * η * z))
          + beta * h3 * k1 / s * (2 / η ^ 2 * Real.exp (2 * η * z))) :=
          mul_le_mul_of_nonneg_left (add_le_add (hfirst.trans h5) (hsecond.trans h6)) hC
      _ = _ := by ring
  refine htotal.trans ?_
  have hfin : Real.exp (2 * η * z) ≤ Real.exp (2 * η) * Real.exp (2 * η * Y + D / 2) := by
    rw [← Real.exp_add]
    refine Real.exp_le_exp.mpr ?_
    rw [hz]
    nlinarith [mul_le_mul_of_nonneg_right hη1 hD0]
  calc _ ≤ C * ((Real.sqrt beta * k1 + beta * h3 * k1) * (2 / η ^ 2)) / s
        * (Real.exp (2 * η) * Real.exp (2 * η * Y + D / 2)) := mul_le_mul_of_nonneg_left hfin (by positivity)
    _ = _ := by rw [hK]; ring

/-! ### one bead -/

theorem terms_sub_le (E : Matrix (Fin A) (Fin A) ℝ) (L : Fin N → Matrix (Fin A) (Fin A) ℝ)
    (Q : Fin N → Fin N → Matrix (Fin A) (Fin A) ℝ) : ∃ B : ℝ, 0 ≤ B ∧ ∀ t, 0 < t → t ≤ 1 → ∀ x y,
      t * ‖terms E L Q x - terms E L Q y‖ ≤ B * (Real.sqrt t * (t * (1 + sq x + sq y) + sq fun i => x i - y i)) := by
  refine ⟨∑ i, ‖L i‖ + ∑ i, ∑ j, ‖Q i j‖, by positivity, fun t ht ht1 x y => ?_⟩
  have hst0 : 0 < Real.sqrt t := Real.sqrt_pos.mpr ht
  have hst := Real.mul_self_sqrt ht.le
  set s := Real.sqrt t with hs
  set e := sq fun i => x i - y i with he
  have he0 : 0 ≤ e := sq_nonneg' _
  have hsx := sq_nonneg' x
  have hsy := sq_nonneg' y
  have hx : ∀ i, x i ^ 2 ≤ sq x := fun i => single_le_sum (f := fun i => x i ^ 2) (fun _ _ => sq_nonneg _) (mem_univ i)
  have hy : ∀ i, y i ^ 2 ≤ sq y := fun i => single_le_sum (f := fun i => y i ^ 2) (fun _ _ => sq_nonneg _) (mem_univ i)
  have hd : ∀ i, (x i - y i) ^ 2 ≤ e := fun i =>
    single_le_sum (f := fun i => (x i - y i) ^ 2) (fun _ _ => sq_nonneg _) (mem_univ i)
  set G := s * (t * (1 + sq x + sq y) + e) with hG
  -- `t a b ≤ s (t a² + b²) / 2`
  have hAM : ∀ a b : ℝ, t * (a * b) ≤ s * (t * a ^ 2 + b ^ 2) / 2 := by
    intro a b
    rw [← hst]
    have := mul_nonneg hst0.le (sq_nonneg (s * a - b))
    nlinarith
  have e1 : terms E L Q x - terms E L Q y = ∑ i, (x i - y i) • L i
      + ∑ i, ∑ j, ((x i * x j - y i * y j) / 2) • Q i j := by
    unfold terms
    simp only [sub_smul, sub_div, sum_sub_distrib]
    abel
  have h1 : ∀ i, t * |x i - y i| ≤ G := by
    intro i
    have h := hAM 1 |x i - y i|
    rw [one_mul, sq_abs] at h
    refine h.trans ?_
    have h2 : t * 1 ^ 2 + (x i - y i) ^ 2 ≤ t * (1 + sq x + sq y) + e := by
      have := hd i
      nlinarith [mul_nonneg ht.le hsx, mul_nonneg ht.le hsy]
    have h3 := mul_le_mul_of_nonneg_left h2 hst0.le
    have h4 : 0 ≤ s * (t * 1 ^ 2 + (x i - y i) ^ 2) := by positivity
    rw [hG]; linarith
  have h2 : ∀ i j, t * |(x i * x j - y i * y j) / 2| ≤ G := by
    intro i j
    have e2 : (x i * x j - y i * y j) / 2 = (x i - y i) * (x j / 2) + (y i / 2) * (x j - y j) := by ring
    have h3 : |(x i * x j - y i * y j) / 2| ≤ |x j / 2| * |x i - y i| + |y i / 2| * |x j - y j| := by
      rw [e2]
      refine (abs_add_le _ _).trans ?_
      rw [abs_mul, abs_mul, mul_comm |x i - y i|]
    have h4 := hAM |x j / 2| |x i - y i|
    have h5 := hAM |y i / 2| |x j - y j|
    rw [sq_abs, sq_abs] at h4 h5
    have h6 := mul_le_mul_of_nonneg_left h3 ht.le
    have h7 : t * (x j / 2) ^ 2 + (x i - y i) ^ 2 + (t * (y i / 2) ^ 2 + (x j - y j) ^ 2) ≤ 2 * (t * (1 + sq x + sq y) + e) := by
      have := hd i
      have := hd j
      have := hx j
      have := hy i
      nlinarith [mul_nonneg ht.le hsx, mul_nonneg ht.le hsy, mul_le_mul_of_nonneg_left (hx j) ht.le,
        mul_le_mul_of_nonneg_left (hy i) ht.le]
    have h8 := mul_le_mul_of_nonneg_left h7 hst0.le
    rw [hG]; linarith
  rw [e1]
  have h3 : t * ‖∑ i, (x i - y i) • L i‖ ≤ (∑ i, ‖L i‖) * G := by
    refine (mul_le_mul_of_nonneg_left (norm_sum_le _ _) ht.le).trans ?_
    rw [mul_sum, sum_mul]
    refine sum_le_sum fun i _ => ?_
    rw [norm_smul, Real.norm_eq_abs, ← mul_assoc, mul_comm]
    exact mul_le_mul_of_nonneg_left (h1 i) (norm_nonneg _)
  have h4 : t * ‖∑ i, ∑ j, ((x i * x j - y i * y j) / 2) • Q i j‖ ≤ (∑ i, ∑ j, ‖Q i j‖) * G := by
    refine (mul_le_mul_of_nonneg_left (norm_sum_le _ _) ht.le).trans ?_
    rw [mul_sum, sum_mul]
    refine sum_le_sum fun i _ => (mul_le_mul_of_nonneg_left (norm_sum_le _ _) ht.le).trans ?_
    rw [mul_sum, sum_mul]
    refine sum_le_sum fun j _ => ?_
    rw [norm_smul, Real.norm_eq_abs, ← mul_assoc, mul_comm]
    exact mul_le_mul_of_nonneg_left (h2 i j) (norm_nonneg _)
  have h5 := mul_le_mul_of_nonneg_left (norm_add_le (∑ i, (x i - y i) • L i)
    (∑ i, ∑ j, ((x i * x j - y i * y j) / 2) • Q i j)) ht.le
  linarith

theorem pot_near (w : Fin N → ℝ) (hw : ∀ i, 0 < w i) (δ : ℝ) (hδ : 0 < δ) (hδ1 : δ ≤ 1) :
    ∃ B : ℝ, 0 ≤ B ∧ ∀ x y : Fin N → ℝ,
      (1 - 3 * δ / 4) * pot w y ≤ (1 - δ / 2) * pot w x + B * sq fun i => x i - y i := by
  refine ⟨∑ i, w i * (1 + 4 / δ), sum_nonneg fun i _ => by have := hw i; positivity, fun x y => ?_⟩
  have hsq : ∀ i, (x i - y i) ^ 2 ≤ sq fun i => x i - y i := fun i =>
    single_le_sum (f := fun i => (x i - y i) ^ 2) (fun _ _ => sq_nonneg _) (mem_univ i)
  unfold pot
  rw [mul_sum, mul_sum, sum_mul, ← sum_add_distrib]
  refine sum_le_sum fun i _ => ?_
  have hwi := hw i
  have h1 : y i ^ 2 ≤ (1 + δ / 4) * x i ^ 2 + (1 + 4 / δ) * (x i - y i) ^ 2 := by
    have e : (1 + δ / 4) * x i ^ 2 + (1 + 4 / δ) * (x i - y i) ^ 2 - y i ^ 2
        = (δ / 4 * x i + (x i - y i)) ^ 2 * (4 / δ) := by
      field_simp
      ring
    have : 0 ≤ (δ / 4 * x i + (x i - y i)) ^ 2 * (4 / δ) := by positivity
    linarith
  have h2 := mul_le_mul_of_nonneg_left (mul_le_mul_of_nonneg_left h1 (by linarith : 0 ≤ 1 - 3 * δ / 4)) hwi.le
  have h3 := mul_le_mul_of_nonneg_left (hsq i) (by positivity : 0 ≤ w i * (1 + 4 / δ))
  have h4 : 0 ≤ w i * x i ^ 2 := by positivity
  have h5 : 0 ≤ w i * (1 + 4 / δ) * (x i - y i) ^ 2 := by positivity
  nlinarith [mul_nonneg (mul_nonneg hδ.le hδ.le) h4, mul_nonneg hδ.le h5]

set_option maxHeartbeats 1000000 in
/-- The bounds for one bead: the potential at the bead and at another bead. -/
theorem shift_bounds (m : Vib A N) (hv : ∀ i, 0 < m.omega i) (hs : Symmetric m) (δ : ℝ) (hδ : 0 < δ) (hδ1 : δ ≤ 1)
    (hm : ∀ x v, δ * ((∑ i, m.omega i * x i ^ 2) * ∑ a, v a ^ 2) ≤ curvature m x v) :
    ∃ C : ℝ, 0 ≤ C ∧ ∀ t, 0 < t → t ≤ 1 → ∀ x y : Fin N → ℝ,
      ‖NormedSpace.exp (-t • terms m.energy m.linear m.quadratic x)‖
        ≤ Real.exp (t * ((1 - δ / 2) * pot m.omega x + C * (sq fun i => x i - y i) + C)) ∧
      ‖NormedSpace.exp (-t • terms m.energy m.linear m.quadratic y)‖
        ≤ Real.exp (t * ((1 - δ / 2) * pot m.omega x + C * (sq fun i => x i - y i) + C)) ∧
      ‖NormedSpace.exp (-t • terms m.energy m.linear m.quadratic y) - NormedSpace.exp (-t • terms m.energy m.linear m.quadratic x)‖
        ≤ C * (Real.sqrt t * (t * (1 + sq x + sq y) + sq fun i => x i - y i)
          + t ^ 2 * (1 + sq x + sq y) ^ 2 * Real.exp (C * (t * (1 + sq x + sq y)))) := by
  obtain ⟨hE, hL, hQ⟩ := hs
  obtain ⟨C2, hC2, h2⟩ := terms_form_ge m hv δ hδ hm m.energy m.linear
  obtain ⟨B2, hB2, g2⟩ := terms_norm_le m.energy m.linear m.quadratic
  obtain ⟨B3, hB3, g3⟩ := terms_sub_le m.energy m.linear m.quadratic
  obtain ⟨B4, hB4, g4⟩ := pot_near m.omega hv δ hδ hδ1
  set C := C2 + B2 + B3 + B4 + 2 * B2 ^ 2 with hC
  refine ⟨C, by positivity, fun t ht ht1 x y => ?_⟩
  set V := terms m.energy m.linear m.quadratic with hV
  have hpx : 0 ≤ pot m.omega x := sum_nonneg fun i _ => by have := hv i; positivity
  have hexp : ∀ x, ‖NormedSpace.exp (-t • V x)‖ ≤ Real.exp (t * ((1 - 3 * δ / 4) * pot m.omega x + C2)) := by
    intro x
    have h := norm_exp_neg_le (t • V x) ((terms_symm _ _ _ hE hL hQ x).smul t) (-(t * ((1 - 3 * δ / 4) * pot m.omega x + C2)))
      (fun v => by
        rw [quad_smul]
        have := mul_le_mul_of_nonneg_left (h2 x v) ht.le
        linarith)
    rwa [neg_neg, ← neg_smul] at h
  have he0 : 0 ≤ sq fun i => x i - y i := sq_nonneg' _
  set e := sq fun i => x i - y i with he
  have hB2' : 0 ≤ 2 * B2 ^ 2 := by positivity
  have hC0 : 0 ≤ C := by positivity
  have hCB4 : B4 ≤ C := by rw [hC]; linarith
  have hCC2 : C2 ≤ C := by rw [hC]; linarith
  refine ⟨?_, ?_, ?_⟩
  · refine (hexp x).trans (Real.exp_le_exp.mpr (mul_le_mul_of_nonneg_left ?_ ht.le))
    have h1 : (1 - 3 * δ / 4) * pot m.omega x ≤ (1 - δ / 2) * pot m.omega x :=
      mul_le_mul_of_nonneg_right (by linarith) hpx
    have h3 : 0 ≤ C * e := mul_nonneg hC0 he0
    linarith
  · refine (hexp y).trans (Real.exp_le_exp.mpr (mul_le_mul_of_nonneg_left ?_ ht.le))
    have h1 := g4 x y
    have h3 : B4 * e ≤ C * e := mul_le_mul_of_nonneg_right hCB4 he0
    linarith
  · set r := 1 + sq x + sq y with hr
    have hsx := sq_nonneg' x
    have hsy := sq_nonneg' y
    have hr1 : 1 ≤ r := by rw [hr]; linarith
    have mV : ∀ u, 1 + sq u ≤ r → ‖-t • V u‖ ≤ B2 * (t * r) := by
      intro u hu
      rw [norm_smul, norm_neg, Real.norm_eq_abs, abs_of_pos ht]
      have := mul_le_mul_of_nonneg_left ((g2 u).trans (mul_le_mul_of_nonneg_left hu hB2)) ht.le
      linarith
    have mx := mV x (by rw [hr]; linarith)
    have my := mV y (by rw [hr]; linarith)
    have mD : ‖-t • V y + 0 - -t • V x‖ ≤ B3 * (Real.sqrt t * (t * r + e)) := by
      have e1 : -t • V y + 0 - -t • V x = t • (V x - V y) := by
        rw [smul_sub, neg_smul, neg_smul]; abel
      rw [e1, norm_smul, Real.norm_eq_abs, abs_of_pos ht]
      exact g3 t ht ht1 x y
    have h := norm_exp_mul_exp_sub_le (-t • V y) 0 (-t • V x)
    simp only [NormedSpace.exp_zero, mul_one, norm_zero, add_zero] at h mD
    refine h.trans ?_
    have htr : 0 ≤ t * r := by positivity
    have hBC : B2 ≤ C := by rw [hC]; linarith
    have hE1 : Real.exp (B2 * (t * r)) ≤ Real.exp (C * (t * r)) := Real.exp_le_exp.mpr (mul_le_mul_of_nonneg_right hBC htr)
    have n1 : ‖-t • V y‖ ^ 2 * Real.exp ‖-t • V y‖ ≤ (B2 * (t * r)) ^ 2 * Real.exp (C * (t * r)) :=
      mul_le_mul (pow_le_pow_left₀ (norm_nonneg _) my 2) ((Real.exp_le_exp.mpr my).trans hE1) (Real.exp_pos _).le (by positivity)
    have n2 : ‖-t • V x‖ ^ 2 * Real.exp ‖-t • V x‖ ≤ (B2 * (t * r)) ^ 2 * Real.exp (C * (t * r)) :=
      mul_le_mul (pow_le_pow_left₀ (norm_nonneg _) mx 2) ((Real.exp_le_exp.mpr mx).trans hE1) (Real.exp_pos _).le (by positivity)
    have k1 : B3 ≤ C := by rw [hC]; linarith
    have k2 : 2 * B2 ^ 2 ≤ C := by rw [hC]; linarith
    have p1 := mul_le_mul_of_nonneg_right k1 (by positivity : 0 ≤ Real.sqrt t * (t * r + e))
    have p2 := mul_le_mul_of_nonneg_right k2 (by positivity : 0 ≤ t ^ 2 * r ^ 2 * Real.exp (C * (t * r)))
    have e1 : (B2 * (t * r)) ^ 2 * Real.exp (C * (t * r)) = B2 ^ 2 * (t ^ 2 * r ^ 2 * Real.exp (C * (t * r))) := by ring
    rw [e1] at n1 n2
    linarith

/-! ### the whole product -/

/-- `gPlain` with the potential of bead `q` taken at bead `c q`. -/
noncomputable def gShift {P : ℕ} [NeZero P] (t : ℝ) (m : Vib A N) (c : Fin P → Fin P) (R : BeadPath N P) : ℝ :=
  Matrix.trace (List.ofFn fun q : Fin P => free t m.omega R q
    • NormedSpace.exp (-t • terms m.energy m.linear m.quadratic fun i => R i (c q))).prod

theorem gShift_continuous {P : ℕ} [NeZero P] (t : ℝ) (m : Vib A N) (c : Fin P → Fin P) :
    Continuous fun R : BeadPath N P => gShift t m c R := by
  unfold gShift
  refine Continuous.matrix_trace (continuous_prod_ofFn _ fun p => ?_)
  have h1 : Continuous fun R : BeadPath N P => free t m.omega R p := by unfold free propagator; fun_prop
  have h2 : Continuous fun R : BeadPath N P =>
      NormedSpace.exp (-t • terms m.energy m.linear m.quadratic fun i => R i (c p)) := by
    refine (continuous_matrix_exp A).comp ?_
    unfold terms
    fun_prop
  exact h1.smul h2

set_option maxHeartbeats 1000000 in
theorem shift_product (m : Vib A N) (hv : ∀ i, 0 < m.omega i) (hs : Symmetric m) (δ : ℝ) (hδ : 0 < δ) (hδ1 : δ ≤ 1)
    (hm : ∀ x v, δ * ((∑ i, m.omega i * x i ^ 2) * ∑ a, v a ^ 2) ≤ curvature m x v) :
    ∃ C : ℝ, 0 ≤ C ∧ ∀ (P : ℕ) [NeZero P] (t : ℝ), 0 < t → t ≤ 1 → ∀ (c : Fin P → Fin P) (R : BeadPath N P),
      |gShift t m c R| ≤ C * (Real.exp (P * t * C + t * C * ∑ q, sq (fun i => R i q - R i (c q))) * trial t m.omega (1 - δ / 2) R) ∧
      |gShift t m c R - gPlain t m R| ≤ C * (shiftError C t c R
        * (Real.exp (P * t * C + t * C * ∑ q, sq (fun i => R i q - R i (c q))) * trial t m.omega (1 - δ / 2) R)) := by
  obtain ⟨C0, hC0, hb⟩ := shift_bounds m hv hs δ hδ hδ1 hm
  obtain ⟨k, hk0, hk⟩ := trace_le_norm A
  refine ⟨C0 + k, by positivity, fun P _ t ht ht1 c R => ?_⟩
  set C := C0 + k with hC
  have hCk : k ≤ C := by rw [hC]; linarith
  have hCC : C0 ≤ C := by rw [hC]; linarith
  have hC' : 0 ≤ C := hk0.trans hCk
  have hfree : ∀ p, 0 < free t m.omega R p := fun p => prod_pos fun i _ => propagator_pos _ _ _ _ (mul_pos ht (hv i))
  set T : Fin P → Matrix (Fin A) (Fin A) ℝ := fun q => free t m.omega R q
    • NormedSpace.exp (-t • terms m.energy m.linear m.quadratic fun i => R i (c q)) with hT
  set S : Fin P → Matrix (Fin A) (Fin A) ℝ := fun q => free t m.omega R q
    • NormedSpace.exp (-t • terms m.energy m.linear m.quadratic fun i => R i q) with hS
  set g : Fin P → ℝ := fun q => Real.exp (t * ((1 - δ / 2) * pot m.omega (fun i => R i q)
    + C * (sq fun i => R i q - R i (c q)) + C)) with hg
  set b : Fin P → ℝ := fun q => free t m.omega R q * g q with hbd
  set d : Fin P → ℝ := fun q => C * (Real.sqrt t * (t * (1 + sq (fun i => R i q) + sq fun i => R i (c q))
    + sq fun i => R i q - R i (c q)) + t ^ 2 * (1 + sq (fun i => R i q) + sq fun i => R i (c q)) ^ 2
      * Real.exp (C * (t * (1 + sq (fun i => R i q) + sq fun i => R i (c q))))) with hdd
  have hpot : ∀ x, 0 ≤ pot m.omega x := fun x => sum_nonneg fun i _ => by have := hv i; positivity
  have hle : ∀ q, Real.exp (t * ((1 - δ / 2) * pot m.omega (fun i => R i q) + C0 * (sq fun i => R i q - R i (c q)) + C0)) ≤ g q := by
    intro q
    refine Real.exp_le_exp.mpr (mul_le_mul_of_nonneg_left ?_ ht.le)
    have := mul_le_mul_of_nonneg_right hCC (sq_nonneg' fun i => R i q - R i (c q))
    linarith
  have hone : ∀ q, 1 ≤ g q := by
    intro q
    refine Real.one_le_exp (mul_nonneg ht.le ?_)
    have h1 := mul_nonneg (by linarith : 0 ≤ 1 - δ / 2) (hpot fun i => R i q)
    have h2 := mul_nonneg hC' (sq_nonneg' fun i => R i q - R i (c q))
    linarith
  have nT : ∀ q, ‖T q‖ ≤ b q := by
    intro q
    simp only [hT, hbd]
    rw [norm_smul, Real.norm_eq_abs, abs_of_pos (hfree q)]
    exact mul_le_mul_of_nonneg_left ((hb t ht ht1 (fun i => R i q) (fun i => R i (c q))).2.1.trans (hle q)) (hfree q).le
  have nS : ∀ q, ‖S q‖ ≤ b q := by
    intro q
    simp only [hS, hbd]
    rw [norm_smul, Real.norm_eq_abs, abs_of_pos (hfree q)]
    exact mul_le_mul_of_nonneg_left ((hb t ht ht1 (fun i => R i q) (fun i => R i (c q))).1.trans (hle q)) (hfree q).le
  have nd : ∀ q, ‖T q - S q‖ ≤ d q * b q := by
    intro q
    simp only [hT, hS, hbd]
    rw [← smul_sub, norm_smul, Real.norm_eq_abs, abs_of_pos (hfree q)]
    have h1 := (hb t ht ht1 (fun i => R i q) (fun i => R i (c q))).2.2
    have he0 : 0 ≤ sq fun i => R i q - R i (c q) := sq_nonneg' _
    set r := 1 + sq (fun i => R i q) + sq (fun i => R i (c q)) with hr
    have hr0 : 0 ≤ r := by
      have := sq_nonneg' fun i => R i q
      have := sq_nonneg' fun i => R i (c q)
      rw [hr]; linarith
    have hE1 : Real.exp (C0 * (t * r)) ≤ Real.exp (C * (t * r)) :=
      Real.exp_le_exp.mpr (mul_le_mul_of_nonneg_right hCC (mul_nonneg ht.le hr0))
    have h2 : C0 * (Real.sqrt t * (t * r + sq fun i => R i q - R i (c q)) + t ^ 2 * r ^ 2 * Real.exp (C0 * (t * r))) ≤ d q := by
      simp only [hdd]
      rw [← hr]
      refine mul_le_mul hCC (add_le_add le_rfl (mul_le_mul_of_nonneg_left hE1 (by positivity))) (by positivity) hC'
    have hdp : 0 ≤ d q := by
      simp only [hdd]
      rw [← hr]
      positivity
    calc _ ≤ free t m.omega R q * d q := mul_le_mul_of_nonneg_left (h1.trans h2) (hfree q).le
      _ ≤ free t m.omega R q * d q * g q := le_mul_of_one_le_right (mul_nonneg (hfree q).le hdp) (hone q)
      _ = _ := by ring
  have hprod : ∏ q, b q = Real.exp (P * t * C + t * C * ∑ q, sq (fun i => R i q - R i (c q))) * trial t m.omega (1 - δ / 2) R := by
    simp only [hbd, hg, trial, prod_mul_distrib, ← Real.exp_sum, free]
    rw [mul_left_comm, ← Real.exp_add]
    congr 2
    simp only [← mul_sum, sum_add_distrib, sum_const, card_univ, Fintype.card_fin, nsmul_eq_mul]
    ring
  have hd : ∑ q, d q = shiftError C t c R := rfl
  obtain ⟨n1, n2⟩ := norm_prod_sub_prod_le T S b d nT nS nd
  rw [hprod] at n1 n2
  rw [hd] at n2
  have htr : ∀ (M : Matrix (Fin A) (Fin A) ℝ) (e : ℝ), ‖M‖ ≤ e → |M.trace| ≤ C * e := fun M e h =>
    (hk M).trans (mul_le_mul hCk h (norm_nonneg _) hC')
  refine ⟨htr _ _ n1, ?_⟩
  unfold gShift gPlain
  rw [← Matrix.trace_sub]
  exact htr _ _ n2

/-- Many beads: taking the potential at near beads does not change the integral. -/
theorem shift_limit (beta : ℝ) (hb : 0 < beta) (m : Vib A N) (hv : ∀ i, 0 < m.omega i) (hs : Symmetric m) (hm : Confined m)
    (k : ℝ) (hk : 0 ≤ k) :
    ∃ K : ℝ, 0 ≤ K ∧ ∀ᶠ P : ℕ in atTop, ∀ [NeZero P] (c : Fin P → Fin P), (∀ R : BeadPath N P, Near k c R) →
      Integrable (fun R : BeadPath N P => gShift (beta / P) m c R) ∧
      |(∫ R : BeadPath N P, gShift (beta / P) m c R) - ∫ R : BeadPath N P, gPlain (beta / P) m R|
        ≤ K / Real.sqrt P * Real.sqrt (2 * Real.pi) ^ (N * P) := by
  obtain ⟨δ, hδ, hδ1, hcurv⟩ := confined_uniform m hv hm
  obtain ⟨C, hC, hprod⟩ := shift_product m hv hs δ hδ hδ1 hcurv
  obtain ⟨K0, -, hplain⟩ := plain_limit beta hb m hv hs hm
  obtain ⟨ω, hω0, hω⟩ : ∃ ω, 0 < ω ∧ ∀ i, ω ≤ m.omega i := by
    rcases isEmpty_or_nonempty (Fin N) with h | h
    · exact ⟨1, one_pos, fun i => h.elim i⟩
    · obtain ⟨i, hi⟩ := Finite.exists_min m.omega
      exact ⟨m.omega i, hv i, hi⟩
  set η := min (1 / 4) (δ * ω / 16) with hη
  have hη0 : 0 < η := lt_min (by norm_num) (by positivity)
  have hη1 : 2 * η ≤ 1 / 2 := by have := min_le_left (1 / 4 : ℝ) (δ * ω / 16); rw [hη]; linarith
  have hη2 : η ≤ δ * ω / 16 := min_le_right _ _
  obtain ⟨C', hC', herr⟩ := shiftError_le beta hb m.omega hv C hC k hk η hη0 hη1
  obtain ⟨D, hD, htri⟩ := trial_bounded beta hb m.omega hv (1 - δ / 4) (by linarith)
  set f := C * Real.exp (beta * C) with hf
  have hf0 : 0 ≤ f := by positivity
  refine ⟨f * C' * D, by positivity, ?_⟩
  filter_upwards [herr, htri, hplain, (tendsto_natCast_atTop_atTop (R := ℝ)).eventually_ge_atTop beta, eventually_ge_atTop 1]
    with P he ht hpl hPb hP1 hne c hnear
  obtain ⟨hint, hbound⟩ := ht
  have hP0 : (0 : ℝ) < P := by exact_mod_cast hP1
  set t := beta / P with htd
  have ht0 : 0 < t := div_pos hb hP0
  have ht1 : t ≤ 1 := by rw [htd, div_le_one hP0]; exact hPb
  have htP : P * t = beta := by rw [htd]; field_simp
  have hw : ∀ i, 0 < t * m.omega i := fun i => mul_pos ht0 (hv i)
  have hpotsq : ∀ x : Fin N → ℝ, 2 * η * sq x ≤ δ / 4 * pot m.omega x := by
    intro x
    unfold sq pot
    rw [mul_sum, mul_sum]
    refine sum_le_sum fun i _ => ?_
    have h1 : 2 * η ≤ δ / 8 * m.omega i := by
      have := mul_le_mul_of_nonneg_left (hω i) (by positivity : 0 ≤ δ / 8)
      linarith
    have := mul_le_mul_of_nonneg_right h1 (sq_nonneg (x i))
    linarith
  have hweak : ∀ R : BeadPath N P, Real.exp (2 * η * (t * ∑ p, sq (fun i => R i p))) * trial t m.omega (1 - δ / 2) R
      ≤ trial t m.omega (1 - δ / 4) R := by
    intro R
    have h1 : Real.exp (2 * η * (t * ∑ p, sq (fun i => R i p))) ≤ Real.exp (∑ p, t * (δ / 4 * pot m.omega fun i => R i p)) := by
      refine Real.exp_le_exp.mpr ?_
      rw [mul_left_comm, mul_sum, mul_sum]
      exact sum_le_sum fun p _ => mul_le_mul_of_nonneg_left (hpotsq _) ht0.le
    refine (mul_le_mul_of_nonneg_right h1 (trial_pos t m.omega _ hw R).le).trans (le_of_eq ?_)
    rw [Real.exp_sum, trial, trial, ← prod_mul_distrib]
    refine prod_congr rfl fun p _ => ?_
    rw [mul_left_comm, ← Real.exp_add]
    congr 2
    ring
  set F : BeadPath N P → ℝ := fun R => trial t m.omega (1 - δ / 4) R * Real.exp (spring t m.omega R / P) with hF
  have hspr0 : ∀ R : BeadPath N P, 0 ≤ spring t m.omega R / P := fun R => div_nonneg (spring_nonneg t m.omega hw R) hP0.le
  have hE : ∀ R : BeadPath N P, Real.exp (P * t * C + t * C * ∑ q, sq (fun i => R i q - R i (c q)))
      ≤ Real.exp (beta * C) * Real.exp (spring t m.omega R / P / 2) := by
    intro R
    rw [← Real.exp_add, htP]
    exact Real.exp_le_exp.mpr (add_le_add le_rfl (he c R (hnear R)).2)
  have htrial : ∀ R : BeadPath N P, trial t m.omega (1 - δ / 2) R ≤ trial t m.omega (1 - δ / 4) R := by
    intro R
    refine le_trans ?_ (hweak R)
    exact le_mul_of_one_le_left (trial_pos t m.omega _ hw R).le (Real.one_le_exp (mul_nonneg (by positivity)
        (mul_nonneg ht0.le (sum_nonneg fun p _ => sq_nonneg' _))))
  have hi1 : Integrable fun R : BeadPath N P => gShift t m c R :=
    (hint.const_mul f).mono' (gShift_continuous t m c).aestronglyMeasurable (Eventually.of_forall fun R => by
      rw [Real.norm_eq_abs]
      refine (hprod P t ht0 ht1 c R).1.trans ?_
      have h1 : Real.exp (spring t m.omega R / P / 2) ≤ Real.exp (spring t m.omega R / P) :=
        Real.exp_le_exp.mpr (by have := hspr0 R; linarith)
      calc _ ≤ C * (Real.exp (beta * C) * Real.exp (spring t m.omega R / P) * trial t m.omega (1 - δ / 4) R) := by
            refine mul_le_mul_of_nonneg_left (mul_le_mul ((hE R).trans ?_) (htrial R) (trial_pos t m.omega _ hw R).le ?_) hC
            · exact mul_le_mul_of_nonneg_left h1 (Real.exp_pos _).le
            · positivity
        _ = _ := by simp only [hf]; ring)
  have hi2 : Integrable fun R : BeadPath N P => gPlain t m R := hpl.2.1
  refine ⟨hi1, ?_⟩
  rw [← integral_sub hi1 hi2]
  have hdiff : ∀ R : BeadPath N P, ‖gShift t m c R - gPlain t m R‖ ≤ f * (C' / Real.sqrt P) * F R := by
    intro R
    rw [Real.norm_eq_abs]
    refine (hprod P t ht0 ht1 c R).2.trans ?_
    have h1 := (he c R (hnear R)).1
    have htp := (trial_pos t m.omega (1 - δ / 2) hw R).le
    have hse : 0 ≤ shiftError C t c R := by
      unfold shiftError
      refine sum_nonneg fun q _ => ?_
      have := sq_nonneg' fun i => R i q
      have := sq_nonneg' fun i => R i (c q)
      have := sq_nonneg' fun i => R i q - R i (c q)
      positivity
    calc C * (shiftError C t c R * (Real.exp (P * t * C + t * C * ∑ q, sq (fun i => R i q - R i (c q))) * trial t m.omega (1 - δ / 2) R))
        ≤ C * (C' / Real.sqrt P * Real.exp (2 * η * (t * ∑ p, sq (fun i => R i p)) + spring t m.omega R / P / 2)
          * (Real.exp (beta * C) * Real.exp (spring t m.omega R / P / 2) * trial t m.omega (1 - δ / 2) R)) :=
          mul_le_mul_of_nonneg_left (mul_le_mul h1 (mul_le_mul_of_nonneg_right (hE R) htp)
            (mul_nonneg (Real.exp_pos _).le htp) (by positivity)) hC
      _ = f * (C' / Real.sqrt P) * ((Real.exp (2 * η * (t * ∑ p, sq (fun i => R i p))) * trial t m.omega (1 - δ / 2) R)
          * (Real.exp (spring t m.omega R / P / 2) * Real.exp (spring t m.omega R / P / 2))) := by
          rw [Real.exp_add, hf]; ring
      _ ≤ f * (C' / Real.sqrt P) * F R := by
          refine mul_le_mul_of_nonneg_left ?_ (by positivity)
          rw [← Real.exp_add, add_halves]
          exact mul_le_mul_of_nonneg_right (hweak R) (Real.exp_pos _).le
  have h3 := norm_integral_le_of_norm_le (hint.const_mul (f * (C' / Real.sqrt P))) (Eventually.of_forall hdiff)
  rw [integral_const_mul, Real.norm_eq_abs] at h3
  refine h3.trans ((mul_le_mul_of_nonneg_left hbound (by positivity)).trans (le_of_eq ?_))
  ring

end Pibronic.PIMC
