import Verif.Lemmas.JackknifeLimit
import Mathlib.Analysis.SpecialFunctions.Sqrt
import Mathlib.Algebra.Order.Chebyshev

set_option autoImplicit false

/-!
The size of jackknife errors.  The estimates are quotients of means; the estimate without one sample differs from the
estimate by the influence of this sample over the sum of the denominators.
-/
namespace Pibronic.Stats
open Finset Filter Topology

/-- The jackknife error times the square root of the number of samples tends to `σ`, and the correction of the estimate
is of smaller order. -/
structure JackError (v : ℕ → ℝ) (f : ∀ n, Fin n → ℝ) (σ : ℝ) : Prop where
  error : Tendsto (fun n : ℕ => Real.sqrt n * (Real.sqrt ((n : ℝ) - 1) * npStd 1 (f n))) atTop (𝓝 σ)
  centre : Tendsto (fun n : ℕ => Real.sqrt n * (((n : ℝ) * v n - ((n : ℝ) - 1) * npMean (f n)) - v n)) atTop (𝓝 0)

/-- Averages of nonnegative numbers with weights that are nearly constant. -/
theorem weighted {c w : ∀ n, Fin n → ℝ} {s L : ℝ} (hc : Tendsto (fun n : ℕ => (∑ i, c n i) / n) atTop (𝓝 s))
    (h0 : ∀ n i, 0 ≤ c n i) (hw : ∀ ε > 0, ∀ᶠ n in atTop, ∀ i, |w n i - L| ≤ ε) :
    Tendsto (fun n : ℕ => (∑ i, c n i * w n i) / n) atTop (𝓝 (s * L)) := by
  have hs : 0 ≤ s := ge_of_tendsto' hc fun n => div_nonneg (sum_nonneg fun i _ => h0 n i) (Nat.cast_nonneg n)
  have h1 : Tendsto (fun n : ℕ => (∑ i, c n i * (w n i - L)) / n) atTop (𝓝 0) := by
    rw [Metric.tendsto_atTop']
    intro ε hε
    have h2 := hw (ε / (2 * (s + 1))) (by positivity)
    have h3 : ∀ᶠ n : ℕ in atTop, (∑ i, c n i) / n < s + 1 := hc.eventually (gt_mem_nhds (by linarith))
    obtain ⟨n0, hn0⟩ := eventually_atTop.1 (h2.and h3)
    refine ⟨n0, fun n hn => ?_⟩
    obtain ⟨a1, a2⟩ := hn0 n hn.le
    rw [Real.dist_eq, sub_zero, abs_div, Nat.abs_cast]
    calc |∑ i, c n i * (w n i - L)| / n ≤ (∑ i, c n i * (ε / (2 * (s + 1)))) / n := by
          refine div_le_div_of_nonneg_right ((abs_sum_le_sum_abs _ _).trans (sum_le_sum fun i _ => ?_)) (Nat.cast_nonneg n)
          rw [abs_mul, abs_of_nonneg (h0 n i)]
          exact mul_le_mul_of_nonneg_left (a1 i) (h0 n i)
      _ = (∑ i, c n i) / n * (ε / (2 * (s + 1))) := by rw [← sum_mul]; ring
      _ ≤ (s + 1) * (ε / (2 * (s + 1))) := mul_le_mul_of_nonneg_right a2.le (by positivity)
      _ = ε / 2 := by field_simp
      _ < ε := by linarith
  have h4 := h1.add (hc.mul_const L)
  rw [zero_add] at h4
  refine h4.congr fun n => ?_
  rw [← mul_comm L, ← mul_div_assoc, ← add_div, mul_sum, ← sum_add_distrib]
  congr 1
  exact sum_congr rfl fun i _ => by ring

section
variable {z : ℕ → ℝ} {a : ℝ} (hz : Tendsto (fun n : ℕ => npMean fun k : Fin n => z k) atTop (𝓝 a))
include hz

/-- A continuous function of the mean without one sample is nearly constant. -/
theorem leave_one_out {g : ℝ → ℝ} (hg : ContinuousAt g a) :
    ∀ ε > 0, ∀ᶠ n : ℕ in atTop, ∀ i : Fin n, |g ((npSum (fun k : Fin n => z k) - z i) / n) - g a| ≤ ε := by
  intro ε hε
  obtain ⟨η, hη, h⟩ := Metric.continuousAt_iff.1 hg ε hε
  have h1 : ∀ᶠ n : ℕ in atTop, |(npMean fun k : Fin n => z k) - a| < η / 2 :=
    (Metric.tendsto_nhds.1 hz (η / 2) (by positivity)).mono fun n hn => by rwa [Real.dist_eq] at hn
  filter_upwards [h1, sample_growth hz (η / 4) (by positivity), eventually_gt_atTop 0] with n h1 h2 h3 i
  have hn : (0 : ℝ) < n := by exact_mod_cast h3
  have h4 : (npSum (fun k : Fin n => z k) - z i) / n - a = ((npMean fun k : Fin n => z k) - a) - z i / n := by
    simp only [npMean]; ring
  refine (h (x := (npSum (fun k : Fin n => z k) - z i) / n) ?_).le
  rw [Real.dist_eq, h4]
  have h5 : |z i / n| ≤ η / 4 := by
    rw [abs_div, Nat.abs_cast, div_le_iff₀ hn]
    exact h2 i
  calc _ ≤ |(npMean fun k : Fin n => z k) - a| + |z i / n| := abs_sub _ _
    _ < η := by linarith

variable (ha : a ≠ 0) {b : ℝ} (hz2 : Tendsto (fun n : ℕ => npMean fun k : Fin n => z k ^ 2) atTop (𝓝 b))
  {y : ∀ n, Fin n → ℝ} (hy0 : ∀ᶠ n in atTop, ∑ i, y n i = 0) {s : ℝ}
  (hy2 : Tendsto (fun n : ℕ => (∑ i, y n i ^ 2) / n) atTop (𝓝 s))
include ha hy2

/-- The sum of the squares of the influences. -/
theorem influence_squares :
    Tendsto (fun n : ℕ => (n : ℝ) * ∑ i, (y n i / (npSum (fun k : Fin n => z k) - z i)) ^ 2) atTop (𝓝 (s / a ^ 2)) := by
  have h := weighted hy2 (fun n i => sq_nonneg _)
    (leave_one_out hz (g := fun x => (x ^ 2)⁻¹) (((continuous_pow 2).continuousAt).inv₀ (pow_ne_zero 2 ha)))
  rw [← div_eq_mul_inv] at h
  refine h.congr' ?_
  filter_upwards [eventually_gt_atTop 0] with n hn
  have hn0 : (n : ℝ) ≠ 0 := by exact_mod_cast hn.ne'
  rw [mul_sum, sum_div]
  refine sum_congr rfl fun i _ => ?_
  by_cases h0 : npSum (fun k : Fin n => z k) - z i = 0
  · simp [h0]
  · field_simp

include hz2 hy0

/-- The sum of the influences. -/
theorem influence_sum :
    Tendsto (fun n : ℕ => Real.sqrt n * ∑ i, y n i / (npSum (fun k : Fin n => z k) - z i)) atTop (𝓝 0) := by
  have hc : Tendsto (fun n : ℕ => (∑ i : Fin n, (y n i ^ 2 + z i ^ 2)) / n) atTop (𝓝 (s + b)) := by
    refine (hy2.add hz2).congr fun n => ?_
    simp only [npMean, npSum, sum_add_distrib, add_div]
  have h1 := weighted hc (fun n i => by positivity)
    (leave_one_out hz (g := fun x => |x⁻¹|) (ContinuousAt.abs (continuousAt_id.inv₀ ha)))
  have h2 : Tendsto (fun n : ℕ => |(npMean fun k : Fin n => z k)⁻¹|) atTop (𝓝 |a⁻¹|) := (hz.inv₀ ha).abs
  have h3 : Tendsto (fun n : ℕ => (Real.sqrt n)⁻¹) atTop (𝓝 0) :=
    (Real.tendsto_sqrt_atTop.comp tendsto_natCast_atTop_atTop).inv_tendsto_atTop
  have h4 := h3.mul (h1.mul h2)
  rw [zero_mul] at h4
  refine squeeze_zero_norm' ?_ h4
  have hd : ∀ᶠ n : ℕ in atTop, ∀ i : Fin n, npSum (fun k : Fin n => z k) - z i ≠ 0 := by
    filter_upwards [leave_one_out hz (g := fun x => x) continuousAt_id (|a| / 2) (by positivity)] with n hn i h
    have := hn i
    rw [h, zero_div, zero_sub, abs_neg] at this
    have := abs_pos.mpr ha
    linarith
  filter_upwards [eventually_gt_atTop 0, hy0, hz.eventually (eventually_ne_nhds ha), hd] with n hn hy hm hd
  have hn' : (0 : ℝ) < n := by exact_mod_cast hn
  have hsn : 0 < Real.sqrt n := Real.sqrt_pos.mpr hn'
  set S := npSum fun k : Fin n => z k with hS
  have hmS : (npMean fun k : Fin n => z k) = S / n := rfl
  have hS0 : S ≠ 0 := fun h => hm (by rw [hmS, h, zero_div])
  have e1 : ∑ i, y n i / (S - z i) = ∑ i, y n i * z i / (S * (S - z i)) := by
    have : ∑ i, y n i / S = 0 := by rw [← sum_div, hy, zero_div]
    rw [← sub_zero (∑ i, y n i / (S - z i)), ← this, ← sum_sub_distrib]
    refine sum_congr rfl fun i _ => ?_
    have := hd i
    field_simp
    ring
  rw [e1, Real.norm_eq_abs, abs_mul, abs_of_pos hsn, hmS]
  have e2 : Real.sqrt n = n * (Real.sqrt n)⁻¹ := by
    rw [eq_mul_inv_iff_mul_eq₀ hsn.ne']
    exact Real.mul_self_sqrt hn'.le
  have e3 : |∑ i, y n i * z i / (S * (S - z i))|
      ≤ ∑ i : Fin n, (y n i ^ 2 + z i ^ 2) * |((S - z i) / n)⁻¹| / n * |(S / n)⁻¹| / n := by
    refine (abs_sum_le_sum_abs _ _).trans (sum_le_sum fun i _ => ?_)
    have h5 : |y n i * z i| ≤ y n i ^ 2 + z i ^ 2 := by
      rw [abs_le]
      constructor <;> nlinarith [sq_nonneg (y n i + z i), sq_nonneg (y n i - z i), sq_nonneg (y n i), sq_nonneg (z i)]
    rw [abs_div, abs_mul S, inv_div, inv_div, abs_div, abs_div, Nat.abs_cast]
    have h6 : 0 < |S| := abs_pos.mpr hS0
    have h7 : 0 < |S - z i| := abs_pos.mpr (hd i)
    have h8 : (y n i ^ 2 + z i ^ 2) * ((n : ℝ) / |S - z i|) / n * (n / |S|) / n = (y n i ^ 2 + z i ^ 2) / (|S| * |S - z i|) := by
      field_simp
    rw [h8]
    exact div_le_div_of_nonneg_right h5 (by positivity)
  calc Real.sqrt n * |∑ i, y n i * z i / (S * (S - z i))|
      ≤ Real.sqrt n * ∑ i : Fin n, (y n i ^ 2 + z i ^ 2) * |((S - z i) / n)⁻¹| / n * |(S / n)⁻¹| / n :=
        mul_le_mul_of_nonneg_left e3 hsn.le
    _ = _ := by
        rw [← sum_div, ← sum_mul, ← sum_div]
        nth_rewrite 1 [e2]
        field_simp

/-- The jackknife error of an estimate whose values without one sample differ from it by the influence of the sample, up
to terms of smaller order. -/
theorem jackError {v : ℕ → ℝ} {f ρ : ∀ n, Fin n → ℝ}
    (hf : ∀ᶠ n in atTop, ∀ i, f n i = v n + y n i / (npSum (fun k : Fin n => z k) - z i) + ρ n i)
    (hρ : Tendsto (fun n : ℕ => Real.sqrt n * ∑ i, |ρ n i|) atTop (𝓝 0)) :
    JackError v f (Real.sqrt (s / a ^ 2)) := by
  have h1 := influence_squares hz ha hy2
  have h2 := influence_sum hz ha hz2 hy0 hy2
  set q : ∀ n, Fin n → ℝ := fun n i => y n i / (npSum (fun k : Fin n => z k) - z i) with hq
  -- the remainder
  have h3 : Tendsto (fun n : ℕ => Real.sqrt n * ∑ i, ρ n i) atTop (𝓝 0) :=
    squeeze_zero_norm (fun n => by
      rw [Real.norm_eq_abs, abs_mul, abs_of_nonneg (Real.sqrt_nonneg _)]
      exact mul_le_mul_of_nonneg_left (abs_sum_le_sum_abs _ _) (Real.sqrt_nonneg _)) hρ
  have h4 : Tendsto (fun n : ℕ => (n : ℝ) * ∑ i, ρ n i ^ 2) atTop (𝓝 0) := by
    have := hρ.mul hρ
    rw [mul_zero] at this
    refine squeeze_zero (fun n => mul_nonneg (Nat.cast_nonneg n) (sum_nonneg fun i _ => sq_nonneg _)) (fun n => ?_) this
    have h5 : ∑ i, ρ n i ^ 2 ≤ (∑ i, |ρ n i|) ^ 2 := by
      have := sum_sq_le_sq_sum_of_nonneg (s := univ) (f := fun i => |ρ n i|) fun i _ => abs_nonneg _
      simpa only [sq_abs] using this
    calc (n : ℝ) * ∑ i, ρ n i ^ 2 ≤ n * (∑ i, |ρ n i|) ^ 2 := mul_le_mul_of_nonneg_left h5 (Nat.cast_nonneg n)
      _ = (Real.sqrt n * Real.sqrt n) * (∑ i, |ρ n i|) ^ 2 := by rw [Real.mul_self_sqrt (Nat.cast_nonneg n)]
      _ = _ := by ring
  have h5 : Tendsto (fun n : ℕ => (n : ℝ) * ∑ i, q n i * ρ n i) atTop (𝓝 0) := by
    have h6 := (h1.mul h4).sqrt
    rw [mul_zero, Real.sqrt_zero] at h6
    refine squeeze_zero_norm (fun n => ?_) h6
    rw [Real.norm_eq_abs]
    refine Real.abs_le_sqrt ?_
    have := sum_mul_sq_le_sq_mul_sq univ (q n) (ρ n)
    calc ((n : ℝ) * ∑ i, q n i * ρ n i) ^ 2 = n ^ 2 * (∑ i, q n i * ρ n i) ^ 2 := by ring
      _ ≤ n ^ 2 * ((∑ i, q n i ^ 2) * ∑ i, ρ n i ^ 2) := mul_le_mul_of_nonneg_left this (by positivity)
      _ = _ := by ring
  have hsum : Tendsto (fun n : ℕ => Real.sqrt n * ∑ i, (q n i + ρ n i)) atTop (𝓝 0) := by
    have := h2.add h3
    rw [add_zero] at this
    refine this.congr fun n => ?_
    rw [sum_add_distrib, mul_add]
  have hsq : Tendsto (fun n : ℕ => (n : ℝ) * ∑ i, (q n i + ρ n i) ^ 2) atTop (𝓝 (s / a ^ 2)) := by
    have := (h1.add (h5.const_mul 2)).add h4
    rw [mul_zero, add_zero, add_zero] at this
    refine this.congr fun n => ?_
    have e : ∀ i, (q n i + ρ n i) ^ 2 = q n i ^ 2 + 2 * (q n i * ρ n i) + ρ n i ^ 2 := fun i => by ring
    simp only [e, sum_add_distrib, ← mul_sum]
    ring
  have hmean : ∀ᶠ n : ℕ in atTop, npMean (f n) = v n + (∑ i, (q n i + ρ n i)) / n := by
    filter_upwards [hf, eventually_gt_atTop 0] with n hn h0
    have : (n : ℝ) ≠ 0 := by exact_mod_cast h0.ne'
    have hn' : ∀ i, f n i = v n + (q n i + ρ n i) := fun i => by rw [hn i, add_assoc]
    simp only [npMean, npSum, hn']
    rw [sum_add_distrib, sum_const, card_univ, Fintype.card_fin, nsmul_eq_mul]
    field_simp
  have hinv : Tendsto (fun n : ℕ => 1 / (n : ℝ)) atTop (𝓝 0) := tendsto_one_div_atTop_nhds_zero_nat
  constructor
  · have h7 : Tendsto (fun n : ℕ => (n : ℝ) * ∑ i, (q n i + ρ n i) ^ 2 - (Real.sqrt n * ∑ i, (q n i + ρ n i)) ^ 2 * (1 / n))
        atTop (𝓝 (s / a ^ 2)) := by
      have := hsq.sub ((hsum.pow 2).mul hinv)
      simpa using this
    refine h7.sqrt.congr' ?_
    filter_upwards [hf, hmean, eventually_ge_atTop 2] with n hn hm h2
    have hn2 : (2 : ℝ) ≤ n := by exact_mod_cast h2
    have hn0 : (n : ℝ) ≠ 0 := by linarith
    unfold npStd
    rw [← Real.sqrt_mul (by linarith), mul_div_cancel₀ _ (by linarith), ← Real.sqrt_mul (Nat.cast_nonneg n)]
    congr 1
    rw [hm]
    set M := ∑ i, (q n i + ρ n i) with hM
    have e : ∀ i, (f n i - (v n + M / n)) ^ 2 = (q n i + ρ n i) ^ 2 - 2 * (M / n) * (q n i + ρ n i) + (M / n) ^ 2 := by
      intro i
      rw [hn i]
      ring
    simp only [e, sum_add_distrib, sum_sub_distrib, ← mul_sum, sum_const, card_univ, Fintype.card_fin, nsmul_eq_mul]
    have hM' : ∑ i, q n i + ∑ i, ρ n i = M := by rw [hM, sum_add_distrib]
    rw [hM', mul_pow, Real.sq_sqrt (Nat.cast_nonneg n)]
    field_simp
    ring
  · have h7 : Tendsto (fun n : ℕ => -(1 - 1 / (n : ℝ)) * (Real.sqrt n * ∑ i, (q n i + ρ n i))) atTop (𝓝 0) := by
      have := ((hinv.const_sub 1).neg).mul hsum
      simpa using this
    refine h7.congr' ?_
    filter_upwards [hmean, eventually_gt_atTop 0] with n hm h0
    have hn0 : (n : ℝ) ≠ 0 := by exact_mod_cast h0.ne'
    rw [hm]
    field_simp
    ring

end

/-! ### the two estimates -/

/-- The averages of three quantities and of their products settle. -/
structure Moments (x : Fin 3 → ℕ → ℝ) (m : Fin 3 → ℝ) (c : Fin 3 → Fin 3 → ℝ) : Prop where
  mean : ∀ j, Tendsto (fun n : ℕ => npMean fun k : Fin n => x j k) atTop (𝓝 (m j))
  product : ∀ j l, Tendsto (fun n : ℕ => npMean fun k : Fin n => x j k * x l k) atTop (𝓝 (c j l))

namespace Moments
variable {x : Fin 3 → ℕ → ℝ} {m : Fin 3 → ℝ} {c : Fin 3 → Fin 3 → ℝ}

/-- The average of the square of a combination. -/
theorem combination (h : Moments x m c) {w : ℕ → Fin 3 → ℝ} {L : Fin 3 → ℝ}
    (hw : ∀ j, Tendsto (fun n => w n j) atTop (𝓝 (L j))) :
    Tendsto (fun n : ℕ => (∑ i : Fin n, (∑ j, w n j * x j i) ^ 2) / n) atTop (𝓝 (∑ j, ∑ l, L j * L l * c j l)) := by
  have h1 : Tendsto (fun n : ℕ => ∑ j, ∑ l, w n j * w n l * npMean fun k : Fin n => x j k * x l k) atTop
      (𝓝 (∑ j, ∑ l, L j * L l * c j l)) :=
    tendsto_finsetSum _ fun j _ => tendsto_finsetSum _ fun l _ => ((hw j).mul (hw l)).mul (h.product j l)
  refine h1.congr fun n => ?_
  simp only [npMean, npSum, sum_div, mul_sum, Fin.sum_univ_three]
  simp only [← sum_add_distrib]
  refine sum_congr rfl fun i _ => ?_
  ring

theorem denominators (h : Moments x m c) (ha : m 2 ≠ 0) :
    ∀ᶠ n : ℕ in atTop, ∀ i : Fin n, npSum (fun k : Fin n => x 2 k) - x 2 i ≠ 0 := by
  filter_upwards [leave_one_out (h.mean 2) (g := fun x => x) continuousAt_id (|m 2| / 2) (by positivity)] with n hn i h
  have := hn i
  rw [h, zero_div, zero_sub, abs_neg] at this
  have := abs_pos.mpr ha
  linarith

private theorem energy_step (h : Moments x m c) (ha : m 2 ≠ 0) :
    ∀ᶠ n : ℕ in atTop, npSum (fun k : Fin n => x 2 k) ≠ 0 ∧
      ∀ i : Fin n, -1 * calculateJackknifeTerm (fun k : Fin n => x 0 k) i / calculateJackknifeTerm (fun k : Fin n => x 2 k) i
      = -1 * (npMean fun k : Fin n => x 0 k) / (npMean fun k : Fin n => x 2 k)
        + (x 0 i + -1 * (npMean fun k : Fin n => x 0 k) / (npMean fun k : Fin n => x 2 k) * x 2 i)
          / (npSum (fun k : Fin n => x 2 k) - x 2 i) := by
  filter_upwards [eventually_ge_atTop 2, (h.mean 2).eventually (eventually_ne_nhds ha), h.denominators ha] with n hn hm hd
  have hn2 : (2 : ℝ) ≤ n := by exact_mod_cast hn
  have hn1 : (n : ℝ) - 1 ≠ 0 := by linarith
  have hn0 : (n : ℝ) ≠ 0 := by linarith
  have hS : npSum (fun k : Fin n => x 2 k) ≠ 0 := fun h => hm (by rw [npMean, h, zero_div])
  refine ⟨hS, fun i => ?_⟩
  have := hd i
  simp only [calculateJackknifeTerm, npMean]
  field_simp
  ring

/-- The jackknife error of the energy. -/
theorem jack_energy (h : Moments x m c) (ha : m 2 ≠ 0) :
    let L : Fin 3 → ℝ := ![1, 0, -1 * m 0 / m 2]
    JackError (fun n => -1 * (npMean fun k : Fin n => x 0 k) / npMean fun k : Fin n => x 2 k)
      (fun n i => -1 * calculateJackknifeTerm (fun k : Fin n => x 0 k) i / calculateJackknifeTerm (fun k : Fin n => x 2 k) i)
      (Real.sqrt ((∑ j, ∑ l, L j * L l * c j l) / m 2 ^ 2)) := by
  intro L
  set v : ℕ → ℝ := fun n => -1 * (npMean fun k : Fin n => x 0 k) / npMean fun k : Fin n => x 2 k with hv
  have hvl : Tendsto v atTop (𝓝 (-1 * m 0 / m 2)) := ((h.mean 0).const_mul (-1)).div (h.mean 2) ha
  have hy2 := h.combination (w := fun n => ![1, 0, v n]) (L := L) fun j => by
    fin_cases j
    · exact tendsto_const_nhds
    · exact tendsto_const_nhds
    · exact hvl
  have hz2 : Tendsto (fun n : ℕ => npMean fun k : Fin n => x 2 k ^ 2) atTop (𝓝 (c 2 2)) := by
    simpa only [pow_two] using h.product 2 2
  have hstep := h.energy_step ha
  refine jackError (h.mean 2) ha hz2 (y := fun n i => ∑ j, (![1, 0, v n] : Fin 3 → ℝ) j * x j i) ?_ hy2
    (ρ := fun _ _ => 0) ?_ (by simp)
  · filter_upwards [hstep, eventually_gt_atTop 0] with n hn h0
    have hn0 : (n : ℝ) ≠ 0 := by exact_mod_cast h0.ne'
    have hS := hn.1
    simp only [Fin.sum_univ_three, Matrix.cons_val_zero, Matrix.cons_val_one, Matrix.cons_val, one_mul, zero_mul, add_zero,
      sum_add_distrib, ← mul_sum, hv]
    simp only [npMean, npSum] at hS ⊢
    field_simp
    ring
  · filter_upwards [hstep] with n hn i
    rw [hn.2 i]
    simp [Fin.sum_univ_three, hv]

/-- The jackknife error of the heat capacity. -/
theorem jack_heat (h : Moments x m c) (ha : m 2 ≠ 0) (κ : ℝ) :
    let e := -1 * m 0 / m 2
    let L : Fin 3 → ℝ := ![-2 * e / κ, -1 / κ, (m 1 / m 2 - 2 * e ^ 2) / κ]
    JackError (fun n => ((npMean fun k : Fin n => x 1 k) / (npMean fun k : Fin n => x 2 k)
        - (-1 * (npMean fun k : Fin n => x 0 k) / npMean fun k : Fin n => x 2 k) ^ 2) / κ)
      (fun n i => (calculateJackknifeTerm (fun k : Fin n => x 1 k) i / calculateJackknifeTerm (fun k : Fin n => x 2 k) i
        - (-1 * calculateJackknifeTerm (fun k : Fin n => x 0 k) i / calculateJackknifeTerm (fun k : Fin n => x 2 k) i) ^ 2) / κ)
      (Real.sqrt ((∑ j, ∑ l, L j * L l * c j l) / m 2 ^ 2)) := by
  intro e L
  set v : ℕ → ℝ := fun n => -1 * (npMean fun k : Fin n => x 0 k) / npMean fun k : Fin n => x 2 k with hv
  set t : ℕ → ℝ := fun n => (npMean fun k : Fin n => x 1 k) / npMean fun k : Fin n => x 2 k with ht
  have hvl : Tendsto v atTop (𝓝 e) := ((h.mean 0).const_mul (-1)).div (h.mean 2) ha
  have htl : Tendsto t atTop (𝓝 (m 1 / m 2)) := (h.mean 1).div (h.mean 2) ha
  set w : ℕ → Fin 3 → ℝ := fun n => ![-2 * v n / κ, -1 / κ, (t n - 2 * v n ^ 2) / κ] with hw
  have hy2 := h.combination (w := w) (L := L) fun j => by
    fin_cases j
    · exact (hvl.const_mul (-2)).div_const κ
    · exact tendsto_const_nhds
    · exact (htl.sub ((hvl.pow 2).const_mul 2)).div_const κ
  have hz2 : Tendsto (fun n : ℕ => npMean fun k : Fin n => x 2 k ^ 2) atTop (𝓝 (c 2 2)) := by
    simpa only [pow_two] using h.product 2 2
  have hstep := h.energy_step ha
  -- the influences on the energy
  have hye := h.combination (w := fun n => ![1, 0, v n]) (L := ![1, 0, e]) fun j => by
    fin_cases j
    · exact tendsto_const_nhds
    · exact tendsto_const_nhds
    · exact hvl
  have hqe := influence_squares (h.mean 2) ha hye
  have h3 : Tendsto (fun n : ℕ => (Real.sqrt n)⁻¹) atTop (𝓝 0) :=
    (Real.tendsto_sqrt_atTop.comp tendsto_natCast_atTop_atTop).inv_tendsto_atTop
  refine jackError (h.mean 2) ha hz2 (y := fun n i => ∑ j, w n j * x j i) ?_ hy2
    (ρ := fun n i => -((x 0 i + v n * x 2 i) / (npSum (fun k : Fin n => x 2 k) - x 2 i)) ^ 2 / κ) ?_ ?_
  · filter_upwards [hstep, eventually_gt_atTop 0] with n hn h0
    have hn0 : (n : ℝ) ≠ 0 := by exact_mod_cast h0.ne'
    have hS := hn.1
    have e1 : ∑ i : Fin n, x 0 i = -(v n * ∑ i : Fin n, x 2 i) := by
      simp only [hv, npMean, npSum] at hS ⊢
      field_simp
    have e2 : ∑ i : Fin n, x 1 i = t n * ∑ i : Fin n, x 2 i := by
      simp only [ht, npMean, npSum] at hS ⊢
      field_simp
    simp only [Fin.sum_univ_three, hw, Matrix.cons_val_zero, Matrix.cons_val_one, Matrix.cons_val,
      sum_add_distrib, ← mul_sum]
    rw [e1, e2]
    ring
  · filter_upwards [hstep, h.denominators ha, eventually_ge_atTop 2] with n hn hd h2 i
    rw [hn.2 i]
    have hn2 : (2 : ℝ) ≤ n := by exact_mod_cast h2
    have hn1 : (n : ℝ) - 1 ≠ 0 := by linarith
    have hS := hn.1
    have hdi := hd i
    have e2 : calculateJackknifeTerm (fun k : Fin n => x 1 k) i / calculateJackknifeTerm (fun k : Fin n => x 2 k) i
        = t n + (-x 1 i + t n * x 2 i) / (npSum (fun k : Fin n => x 2 k) - x 2 i) := by
      have hn0 : (n : ℝ) ≠ 0 := by linarith
      simp only [calculateJackknifeTerm, ht, npMean]
      field_simp
      ring
    rw [e2]
    change (t n + (-x 1 i + t n * x 2 i) / (npSum (fun k : Fin n => x 2 k) - x 2 i)
      - (v n + (x 0 i + v n * x 2 i) / (npSum (fun k : Fin n => x 2 k) - x 2 i)) ^ 2) / κ = (t n - v n ^ 2) / κ + _ + _
    simp only [Fin.sum_univ_three, hw, Matrix.cons_val_zero, Matrix.cons_val_one, Matrix.cons_val]
    generalize npSum (fun k : Fin n => x 2 k) - x 2 i = D at hdi
    field_simp
    ring
  · have h4 := (h3.mul hqe).mul_const |κ|⁻¹
    rw [zero_mul, zero_mul] at h4
    refine h4.congr' ?_
    filter_upwards [eventually_gt_atTop 0] with n h0
    have hn' : (0 : ℝ) < n := by exact_mod_cast h0
    have hsn : 0 < Real.sqrt n := Real.sqrt_pos.mpr hn'
    have e2 : (n : ℝ) = Real.sqrt n * Real.sqrt n := (Real.mul_self_sqrt hn'.le).symm
    have e3 : ∀ i : Fin n, |-((x 0 i + v n * x 2 i) / (npSum (fun k : Fin n => x 2 k) - x 2 i)) ^ 2 / κ|
        = ((∑ j, (![1, 0, v n] : Fin 3 → ℝ) j * x j i) / (npSum (fun k : Fin n => x 2 k) - x 2 i)) ^ 2 * |κ|⁻¹ := by
      intro i
      rw [abs_div, abs_neg, abs_of_nonneg (sq_nonneg _), div_eq_mul_inv]
      simp [Fin.sum_univ_three]
    simp only [e3]
    rw [← sum_mul]
    nth_rewrite 2 [e2]
    field_simp

end Moments
end Pibronic.Stats
