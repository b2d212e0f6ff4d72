import Verif.Model.Stats
import Mathlib.Topology.Algebra.Order.Field
import Mathlib.Analysis.SpecificLimits.Basic
import Mathlib.Analysis.SpecificLimits.Normed
import Mathlib.Algebra.BigOperators.Field

set_option autoImplicit false

/-!
Limits of jackknife estimates.  `Jack v L f`: the estimates `v n` from `n` samples converge to `L` and
the values `f n i`, from the samples without the `i`-th, are close to `v n`.
-/
namespace Pibronic.Stats
open Finset Filter Topology

/-- See above. -/
structure Jack (v : ℕ → ℝ) (L : ℝ) (f : ∀ n, Fin n → ℝ) : Prop where
  lim : Tendsto v atTop (𝓝 L)
  zero : Tendsto (fun n => ∑ i, (f n i - v n)) atTop (𝓝 0)
  sup : ∀ ε > 0, ∀ᶠ n in atTop, ∀ i, |f n i - v n| ≤ ε
  bdd : ∃ C, ∀ᶠ n in atTop, ∑ i, |f n i - v n| ≤ C

namespace Jack
variable {v w : ℕ → ℝ} {L M : ℝ} {f g : ∀ n, Fin n → ℝ}

theorem bdd_pos (h : Jack v L f) : ∃ C > 0, ∀ᶠ n in atTop, ∑ i, |f n i - v n| ≤ C := by
  obtain ⟨C, hC⟩ := h.bdd
  exact ⟨max C 1, lt_max_of_lt_right one_pos, hC.mono fun n hn => hn.trans (le_max_left _ _)⟩

/-- The sum of products of deviations vanishes. -/
theorem cross (hf : Jack v L f) (hg : Jack w M g) :
    Tendsto (fun n => ∑ i, |f n i - v n| * |g n i - w n|) atTop (𝓝 0) := by
  rw [Metric.tendsto_atTop']
  intro ε hε
  obtain ⟨C, hC, hb⟩ := hg.bdd_pos
  obtain ⟨n0, h0⟩ := eventually_atTop.1 ((hf.sup (ε / (2 * C)) (by positivity)).and hb)
  refine ⟨n0, fun n hn => ?_⟩
  obtain ⟨h1, h2⟩ := h0 n hn.le
  rw [Real.dist_eq, sub_zero, abs_of_nonneg (sum_nonneg fun i _ => mul_nonneg (abs_nonneg _) (abs_nonneg _))]
  calc ∑ i, |f n i - v n| * |g n i - w n| ≤ ∑ i, ε / (2 * C) * |g n i - w n| :=
        sum_le_sum fun i _ => mul_le_mul_of_nonneg_right (h1 i) (abs_nonneg _)
    _ = ε / (2 * C) * ∑ i, |g n i - w n| := (mul_sum _ _ _).symm
    _ ≤ ε / (2 * C) * C := mul_le_mul_of_nonneg_left h2 (by positivity)
    _ = ε / 2 := by field_simp
    _ < ε := half_lt_self hε

theorem add (hf : Jack v L f) (hg : Jack w M g) : Jack (fun n => v n + w n) (L + M) fun n i => f n i + g n i where
  lim := hf.lim.add hg.lim
  zero := by
    have := hf.zero.add hg.zero
    rw [add_zero] at this
    refine this.congr fun n => ?_
    rw [← sum_add_distrib]
    exact sum_congr rfl fun i _ => by ring
  sup ε hε := by
    filter_upwards [hf.sup (ε / 2) (half_pos hε), hg.sup (ε / 2) (half_pos hε)] with n h1 h2 i
    calc |f n i + g n i - (v n + w n)| = |(f n i - v n) + (g n i - w n)| := by congr 1; ring
      _ ≤ |f n i - v n| + |g n i - w n| := abs_add_le _ _
      _ ≤ ε := by linarith [h1 i, h2 i]
  bdd := by
    obtain ⟨C, hC⟩ := hf.bdd
    obtain ⟨D, hD⟩ := hg.bdd
    refine ⟨C + D, ?_⟩
    filter_upwards [hC, hD] with n h1 h2
    calc ∑ i, |f n i + g n i - (v n + w n)| ≤ ∑ i, (|f n i - v n| + |g n i - w n|) := by
          refine sum_le_sum fun i _ => ?_
          rw [show f n i + g n i - (v n + w n) = (f n i - v n) + (g n i - w n) by ring]
          exact abs_add_le _ _
      _ ≤ C + D := by rw [sum_add_distrib]; exact add_le_add h1 h2

theorem const_mul (c : ℝ) (hf : Jack v L f) : Jack (fun n => c * v n) (c * L) fun n i => c * f n i where
  lim := hf.lim.const_mul c
  zero := by
    have := hf.zero.const_mul c
    rw [mul_zero] at this
    refine this.congr fun n => ?_
    rw [mul_sum]
    exact sum_congr rfl fun i _ => by ring
  sup ε hε := by
    filter_upwards [hf.sup (ε / (|c| + 1)) (by positivity)] with n h1 i
    rw [← mul_sub, abs_mul]
    calc |c| * |f n i - v n| ≤ |c| * (ε / (|c| + 1)) := mul_le_mul_of_nonneg_left (h1 i) (abs_nonneg _)
      _ ≤ (|c| + 1) * (ε / (|c| + 1)) := mul_le_mul_of_nonneg_right (by linarith) (by positivity)
      _ = ε := by field_simp
  bdd := by
    obtain ⟨C, hC⟩ := hf.bdd
    refine ⟨|c| * C, ?_⟩
    filter_upwards [hC] with n h1
    simp only [← mul_sub, abs_mul]
    rw [← mul_sum]
    exact mul_le_mul_of_nonneg_left h1 (abs_nonneg _)

theorem neg (hf : Jack v L f) : Jack (fun n => -v n) (-L) fun n i => -f n i := by
  simpa using hf.const_mul (-1)

theorem sub (hf : Jack v L f) (hg : Jack w M g) : Jack (fun n => v n - w n) (L - M) fun n i => f n i - g n i := by
  simpa [sub_eq_add_neg] using hf.add hg.neg

theorem div_const (hf : Jack v L f) (c : ℝ) : Jack (fun n => v n / c) (L / c) fun n i => f n i / c := by
  simpa [div_eq_inv_mul] using hf.const_mul c⁻¹

/-- A bound for convergent estimates. -/
theorem bound (hf : Jack v L f) : ∀ᶠ n in atTop, |v n| ≤ |L| + 1 := by
  have := hf.lim.abs.eventually (gt_mem_nhds (show |L| < |L| + 1 by linarith))
  exact this.mono fun n h => h.le

theorem mul (hf : Jack v L f) (hg : Jack w M g) : Jack (fun n => v n * w n) (L * M) fun n i => f n i * g n i where
  lim := hf.lim.mul hg.lim
  zero := by
    have hx : Tendsto (fun n => ∑ i, (f n i - v n) * (g n i - w n)) atTop (𝓝 0) := by
      refine squeeze_zero_norm (fun n => ?_) (cross hf hg)
      rw [Real.norm_eq_abs]
      refine (abs_sum_le_sum_abs _ _).trans (le_of_eq ?_)
      exact sum_congr rfl fun i _ => abs_mul _ _
    have := ((hf.lim.mul hg.zero).add (hg.lim.mul hf.zero)).add hx
    simp only [mul_zero, add_zero] at this
    refine this.congr fun n => ?_
    rw [mul_sum, mul_sum, ← sum_add_distrib, ← sum_add_distrib]
    exact sum_congr rfl fun i _ => by ring
  sup ε hε := by
    set K := |L| + |M| + 3 with hK
    have hK0 : 0 < K := by positivity
    filter_upwards [hf.sup (min 1 (ε / K)) (by positivity), hg.sup (min 1 (ε / K)) (by positivity), hf.bound,
      hg.bound] with n h1 h2 h3 h4 i
    have e1 := (h1 i).trans (min_le_right _ _)
    have e2 := (h2 i).trans (min_le_right _ _)
    have e3 := (h1 i).trans (min_le_left _ _)
    have hd : 0 ≤ ε / K := by positivity
    calc |f n i * g n i - v n * w n|
        = |v n * (g n i - w n) + w n * (f n i - v n) + (f n i - v n) * (g n i - w n)| := by congr 1; ring
      _ ≤ |v n| * |g n i - w n| + |w n| * |f n i - v n| + |f n i - v n| * |g n i - w n| := by
          refine (abs_add_le _ _).trans (add_le_add ((abs_add_le _ _).trans (le_of_eq ?_)) (le_of_eq ?_))
          · rw [abs_mul, abs_mul]
          · rw [abs_mul]
      _ ≤ (|L| + 1) * (ε / K) + (|M| + 1) * (ε / K) + 1 * (ε / K) := by
          refine add_le_add (add_le_add ?_ ?_) ?_
          · exact mul_le_mul h3 e2 (abs_nonneg _) (by positivity)
          · exact mul_le_mul h4 e1 (abs_nonneg _) (by positivity)
          · exact mul_le_mul e3 e2 (abs_nonneg _) one_pos.le
      _ = ε := by rw [hK]; field_simp; ring
  bdd := by
    obtain ⟨C, hC0, hC⟩ := hf.bdd_pos
    obtain ⟨D, hD0, hD⟩ := hg.bdd_pos
    refine ⟨(|L| + 1) * D + (|M| + 1) * C + 1 * D, ?_⟩
    filter_upwards [hC, hD, hf.bound, hg.bound, hf.sup 1 one_pos] with n h1 h2 h3 h4 h5
    calc ∑ i, |f n i * g n i - v n * w n|
        ≤ ∑ i, (|v n| * |g n i - w n| + |w n| * |f n i - v n| + 1 * |g n i - w n|) := by
          refine sum_le_sum fun i _ => ?_
          rw [show f n i * g n i - v n * w n
            = v n * (g n i - w n) + w n * (f n i - v n) + (f n i - v n) * (g n i - w n) by ring]
          refine (abs_add_le _ _).trans (add_le_add ((abs_add_le _ _).trans (le_of_eq ?_)) ?_)
          · rw [abs_mul, abs_mul]
          · rw [abs_mul]
            exact mul_le_mul_of_nonneg_right (h5 i) (abs_nonneg _)
      _ = |v n| * ∑ i, |g n i - w n| + |w n| * ∑ i, |f n i - v n| + 1 * ∑ i, |g n i - w n| := by
          rw [mul_sum, mul_sum, mul_sum, ← sum_add_distrib, ← sum_add_distrib]
      _ ≤ _ := by
          have n1 : 0 ≤ ∑ i, |g n i - w n| := sum_nonneg fun i _ => abs_nonneg _
          have n2 : 0 ≤ ∑ i, |f n i - v n| := sum_nonneg fun i _ => abs_nonneg _
          exact add_le_add (add_le_add (mul_le_mul h3 h2 n1 (by positivity)) (mul_le_mul h4 h1 n2 (by positivity)))
            (mul_le_mul_of_nonneg_left h2 one_pos.le)

theorem inv (hf : Jack v L f) (hL : L ≠ 0) : Jack (fun n => (v n)⁻¹) L⁻¹ fun n i => (f n i)⁻¹ := by
  have hL0 : 0 < |L| := abs_pos.2 hL
  -- the estimates stay away from zero
  have hv : ∀ᶠ n in atTop, |L| / 2 ≤ |v n| :=
    (hf.lim.abs.eventually (lt_mem_nhds (show |L| / 2 < |L| by linarith))).mono fun n h => h.le
  have hfi : ∀ᶠ n in atTop, ∀ i, |L| / 4 ≤ |f n i| := by
    filter_upwards [hv, hf.sup (|L| / 4) (by positivity)] with n h1 h2 i
    have := abs_sub_abs_le_abs_sub (v n) (f n i)
    rw [abs_sub_comm] at this
    linarith [h2 i]
  -- the deviations
  have hdev : ∀ᶠ n in atTop, ∀ i, (f n i)⁻¹ - (v n)⁻¹ = -(v n)⁻¹ * (f n i)⁻¹ * (f n i - v n) ∧
      |(v n)⁻¹ * (f n i)⁻¹| ≤ 8 / |L| ^ 2 := by
    filter_upwards [hv, hfi] with n h1 h2 i
    have a1 : v n ≠ 0 := abs_pos.1 (by linarith)
    have a2 : f n i ≠ 0 := abs_pos.1 (by linarith [h2 i])
    refine ⟨by field_simp; ring, ?_⟩
    rw [← mul_inv, abs_inv, abs_mul, inv_eq_one_div, div_le_div_iff₀ (by positivity) (by positivity)]
    have := mul_le_mul h1 (h2 i) (by positivity) (abs_nonneg _)
    nlinarith
  have hsm : ∀ᶠ n in atTop, ∀ i, |(f n i)⁻¹ - (v n)⁻¹| ≤ 8 / |L| ^ 2 * |f n i - v n| := by
    filter_upwards [hdev] with n h i
    obtain ⟨h1, h2⟩ := h i
    rw [h1, neg_mul, neg_mul, abs_neg, abs_mul]
    exact mul_le_mul_of_nonneg_right h2 (abs_nonneg _)
  refine ⟨hf.lim.inv₀ hL, ?_, ?_, ?_⟩
  · -- first and second order
    have h2nd : Tendsto (fun n => ∑ i, ((v n)⁻¹ * (f n i)⁻¹ - (v n)⁻¹ ^ 2) * (f n i - v n)) atTop (𝓝 0) := by
      have hb : Tendsto (fun n => (|L⁻¹| + 1) * (8 / |L| ^ 2) * ∑ i, |f n i - v n| * |f n i - v n|) atTop (𝓝 0) := by
        have := (cross hf hf).const_mul ((|L⁻¹| + 1) * (8 / |L| ^ 2))
        rwa [mul_zero] at this
      refine squeeze_zero_norm' ?_ hb
      have hvb : ∀ᶠ n in atTop, |(v n)⁻¹| ≤ |L⁻¹| + 1 :=
        ((hf.lim.inv₀ hL).abs.eventually (gt_mem_nhds (show |L⁻¹| < |L⁻¹| + 1 by linarith))).mono fun n h => h.le
      filter_upwards [hsm, hvb] with n h1 h2
      rw [Real.norm_eq_abs]
      refine (abs_sum_le_sum_abs _ _).trans ?_
      rw [mul_sum]
      refine sum_le_sum fun i _ => ?_
      rw [abs_mul, show (v n)⁻¹ * (f n i)⁻¹ - (v n)⁻¹ ^ 2 = (v n)⁻¹ * ((f n i)⁻¹ - (v n)⁻¹) by ring, abs_mul]
      calc |(v n)⁻¹| * |(f n i)⁻¹ - (v n)⁻¹| * |f n i - v n|
          ≤ (|L⁻¹| + 1) * (8 / |L| ^ 2 * |f n i - v n|) * |f n i - v n| :=
            mul_le_mul_of_nonneg_right (mul_le_mul h2 (h1 i) (abs_nonneg _) (by positivity)) (abs_nonneg _)
        _ = _ := by ring
    have h1st := ((hf.lim.inv₀ hL).pow 2).mul hf.zero
    rw [mul_zero] at h1st
    have := (h2nd.add h1st).neg
    rw [add_zero, neg_zero] at this
    refine this.congr' ?_
    filter_upwards [hdev] with n h
    rw [mul_sum, ← sum_add_distrib, ← sum_neg_distrib]
    refine sum_congr rfl fun i _ => ?_
    rw [(h i).1]
    ring
  · intro ε hε
    filter_upwards [hsm, hf.sup (ε / (8 / |L| ^ 2)) (by positivity)] with n h1 h2 i
    refine (h1 i).trans ?_
    calc 8 / |L| ^ 2 * |f n i - v n| ≤ 8 / |L| ^ 2 * (ε / (8 / |L| ^ 2)) :=
          mul_le_mul_of_nonneg_left (h2 i) (by positivity)
      _ = ε := by field_simp
  · obtain ⟨C, hC⟩ := hf.bdd
    refine ⟨8 / |L| ^ 2 * C, ?_⟩
    filter_upwards [hsm, hC] with n h1 h2
    calc ∑ i, |(f n i)⁻¹ - (v n)⁻¹| ≤ ∑ i, 8 / |L| ^ 2 * |f n i - v n| := sum_le_sum fun i _ => h1 i
      _ = 8 / |L| ^ 2 * ∑ i, |f n i - v n| := (mul_sum _ _ _).symm
      _ ≤ _ := mul_le_mul_of_nonneg_left h2 (by positivity)

theorem div (hf : Jack v L f) (hg : Jack w M g) (hM : M ≠ 0) :
    Jack (fun n => v n / w n) (L / M) fun n i => f n i / g n i := by
  simpa [div_eq_mul_inv] using hf.mul (hg.inv hM)

/-- The jackknife estimate has the same limit. -/
theorem estimate (hf : Jack v L f) :
    Tendsto (fun n : ℕ => (n : ℝ) * v n - ((n : ℝ) - 1) * npMean (f n)) atTop (𝓝 L) := by
  have h1 : Tendsto (fun n : ℕ => ((n : ℝ) - 1) / n) atTop (𝓝 1) := by
    have : Tendsto (fun n : ℕ => 1 - 1 / (n : ℝ)) atTop (𝓝 (1 - 0)) :=
      tendsto_const_nhds.sub tendsto_one_div_atTop_nhds_zero_nat
    rw [sub_zero] at this
    refine this.congr' ?_
    filter_upwards [eventually_gt_atTop 0] with n hn
    have : (n : ℝ) ≠ 0 := by exact_mod_cast hn.ne'
    field_simp
  have := hf.lim.sub (h1.mul hf.zero)
  simp only [mul_zero, sub_zero] at this
  refine this.congr' ?_
  filter_upwards [eventually_gt_atTop 0] with n hn
  have hn0 : (n : ℝ) ≠ 0 := by exact_mod_cast hn.ne'
  have : ∑ i, (f n i - v n) = ∑ i, f n i - n * v n := by
    rw [sum_sub_distrib, sum_const, card_univ, Fintype.card_fin, nsmul_eq_mul]
  rw [this, npMean, npSum]
  field_simp
  ring

/-- The sum of the squared deviations vanishes. -/
theorem squares (hf : Jack v L f) : Tendsto (fun n => ∑ i, (f n i - v n) ^ 2) atTop (𝓝 0) := by
  refine (cross hf hf).congr fun n => sum_congr rfl fun i _ => ?_
  rw [← sq, sq_abs]

end Jack

/-- The mean converges: the samples grow more slowly than their number. -/
theorem sample_growth {x : ℕ → ℝ} {m : ℝ} (hm : Tendsto (fun n : ℕ => npMean fun k : Fin n => x k) atTop (𝓝 m)) :
    ∀ ε > 0, ∀ᶠ n : ℕ in atTop, ∀ k : Fin n, |x k| ≤ ε * n := by
  have hx : Tendsto (fun n : ℕ => x n / ((n : ℝ) + 1)) atTop (𝓝 0) := by
    have h1 : Tendsto (fun n : ℕ => (n : ℝ) / ((n : ℝ) + 1)) atTop (𝓝 1) := tendsto_natCast_div_add_atTop 1
    have := ((tendsto_add_atTop_iff_nat 1).2 hm).sub (h1.mul hm)
    simp only [one_mul, sub_self] at this
    refine this.congr' ?_
    filter_upwards [eventually_gt_atTop 0] with n hn
    have hn0 : (n : ℝ) ≠ 0 := by exact_mod_cast hn.ne'
    have hn1 : (n : ℝ) + 1 ≠ 0 := by positivity
    simp only [npMean, npSum]
    rw [Fin.sum_univ_castSucc]
    simp only [Fin.val_castSucc, Fin.val_last]
    push_cast
    field_simp
    ring
  intro ε hε
  obtain ⟨K, hK⟩ := eventually_atTop.1 ((tendsto_order.1 hx.abs).2 ε (by simpa using hε))
  obtain ⟨n1, hn1⟩ := exists_nat_gt ((∑ k ∈ range K, |x k|) / ε)
  filter_upwards [eventually_ge_atTop n1] with n hn k
  have hnn : (∑ k ∈ range K, |x k|) < ε * n := by
    rw [div_lt_iff₀ hε] at hn1
    calc _ < n1 * ε := hn1
      _ ≤ n * ε := mul_le_mul_of_nonneg_right (by exact_mod_cast hn) hε.le
      _ = _ := mul_comm _ _
  by_cases hk : (k : ℕ) < K
  · exact (single_le_sum (f := fun k => |x k|) (fun _ _ => abs_nonneg _) (mem_range.2 hk)).trans hnn.le
  · have h := (hK k (by omega)).le
    rw [abs_div, abs_of_pos (show (0 : ℝ) < (k : ℕ) + 1 by positivity), div_le_iff₀ (by positivity)] at h
    refine h.trans (mul_le_mul_of_nonneg_left ?_ hε.le)
    exact_mod_cast k.2

/-- The jackknife terms of samples whose mean and whose mean absolute value converge. -/
theorem jack_term {x : ℕ → ℝ} {m a : ℝ} (hm : Tendsto (fun n : ℕ => npMean fun k : Fin n => x k) atTop (𝓝 m))
    (ha : Tendsto (fun n : ℕ => npMean fun k : Fin n => |x k|) atTop (𝓝 a)) :
    Jack (fun n => npMean fun k : Fin n => x k) m fun n => calculateJackknifeTerm fun k : Fin n => x k := by
  set v : ℕ → ℝ := fun n => npMean fun k : Fin n => x k with hv
  -- the deviation of one term
  have hdev : ∀ n : ℕ, 2 ≤ n → ∀ i : Fin n, calculateJackknifeTerm (fun k : Fin n => x k) i - v n
      = (v n - x i) / ((n : ℝ) - 1) := by
    intro n hn i
    have h0 : (n : ℝ) ≠ 0 := by positivity
    have h1 : (n : ℝ) - 1 ≠ 0 := by
      have : (2 : ℝ) ≤ n := by exact_mod_cast hn
      linarith
    simp only [calculateJackknifeTerm, hv, npMean]
    field_simp
    ring
  have hbd : ∀ᶠ n in atTop, |v n| ≤ |m| + 1 :=
    (hm.abs.eventually (gt_mem_nhds (show |m| < |m| + 1 by linarith))).mono fun n h => h.le
  refine ⟨hm, ?_, ?_, ?_⟩
  · refine tendsto_const_nhds.congr' ?_
    filter_upwards [eventually_ge_atTop 2] with n hn
    have h0 : (n : ℝ) ≠ 0 := by positivity
    rw [sum_congr rfl fun i _ => hdev n hn i, ← sum_div, sum_sub_distrib, sum_const, card_univ, Fintype.card_fin,
      nsmul_eq_mul]
    simp only [hv, npMean, npSum]
    rw [mul_div_cancel₀ _ h0, sub_self, zero_div]
  · intro ε hε
    obtain ⟨n1, hn1⟩ := exists_nat_gt (4 * (|m| + 1) / ε)
    filter_upwards [eventually_ge_atTop 2, hbd, sample_growth hm (ε / 4) (by positivity), eventually_ge_atTop n1]
      with n hn h1 h2 hn2 i
    have hn' : (2 : ℝ) ≤ n := by exact_mod_cast hn
    rw [hdev n hn i, abs_div, abs_of_pos (show (0 : ℝ) < n - 1 by linarith), div_le_iff₀ (by linarith)]
    have h3 : 4 * (|m| + 1) ≤ ε * n := by
      rw [div_lt_iff₀ hε] at hn1
      have : (n1 : ℝ) ≤ n := by exact_mod_cast hn2
      nlinarith
    calc |v n - x i| ≤ |v n| + |x i| := abs_sub _ _
      _ ≤ (|m| + 1) + ε / 4 * n := add_le_add h1 (h2 i)
      _ ≤ ε * (n - 1) := by nlinarith
  · refine ⟨2 * ((|m| + 1) + (|a| + 1)), ?_⟩
    have hab : ∀ᶠ n : ℕ in atTop, (npMean fun k : Fin n => |x k|) ≤ |a| + 1 :=
      (ha.eventually (gt_mem_nhds (show a < |a| + 1 by linarith [le_abs_self a]))).mono fun n h => h.le
    filter_upwards [eventually_ge_atTop 2, hbd, hab] with n hn h1 h2
    have hn' : (2 : ℝ) ≤ n := by exact_mod_cast hn
    rw [sum_congr rfl fun i _ => by rw [hdev n hn i]]
    simp only [abs_div, abs_of_pos (show (0 : ℝ) < (n : ℝ) - 1 by linarith)]
    rw [← sum_div, div_le_iff₀ (by linarith)]
    have h3 : ∑ k : Fin n, |x k| ≤ (|a| + 1) * n := by
      simp only [npMean, npSum] at h2
      rwa [div_le_iff₀ (by linarith)] at h2
    calc ∑ i : Fin n, |v n - x i| ≤ ∑ i : Fin n, (|v n| + |x i|) := sum_le_sum fun i _ => abs_sub _ _
      _ = n * |v n| + ∑ i : Fin n, |x i| := by
          rw [sum_add_distrib, sum_const, card_univ, Fintype.card_fin, nsmul_eq_mul]
      _ ≤ n * (|m| + 1) + (|a| + 1) * n := add_le_add (mul_le_mul_of_nonneg_left h1 (by linarith)) h3
      _ ≤ 2 * ((|m| + 1) + (|a| + 1)) * (n - 1) := by
          have : 0 ≤ (|m| + 1) + (|a| + 1) := by positivity
          nlinarith

end Pibronic.Stats
