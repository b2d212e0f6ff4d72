import Verif.Props.Sampling
import Mathlib.Probability.CentralLimitTheorem

set_option autoImplicit false

/-! The standard error of the mean of independent draws: how often the expectation lies within a multiple of it, and
what it does for draws without a second moment. -/
namespace Pibronic.ErrorBars
open Finset MeasureTheory ProbabilityTheory Filter Topology Pibronic.Stats Pibronic.Props.Sampling

/-- The variance of a list is the mean of the squares less the square of the mean. -/
theorem npStd_zero {n : ℕ} (a : Arr n) : npStd 0 a = Real.sqrt (npMean (fun k => a k ^ 2) - npMean a ^ 2) := by
  unfold npStd
  congr 1
  rcases Nat.eq_zero_or_pos n with rfl | hn
  · simp [npMean, npSum]
  have h : (n : ℝ) ≠ 0 := by exact_mod_cast hn.ne'
  have e : ∀ i, (a i - npMean a) ^ 2 = a i ^ 2 - 2 * npMean a * a i + npMean a ^ 2 := fun i => by ring
  simp only [e, sum_add_distrib, sum_sub_distrib, sum_const, card_univ, Fintype.card_fin, nsmul_eq_mul, ← mul_sum, sub_zero]
  have e2 : ∑ i, a i = n * npMean a := by
    unfold npMean npSum
    field_simp
  rw [e2]
  simp only [npMean, npSum]
  field_simp
  ring

section
variable {Ω E : Type*} [MeasurableSpace Ω] [MeasurableSpace E] (μ : Measure Ω)
    (ν : Measure E) (R : ℕ → Ω → E) (hR : ∀ k, Measurable (R k)) (hlaw : ∀ k, μ.map (R k) = ν)
    (F : E → ℝ) (hF : Measurable F)
include hR hlaw hF

omit hR hlaw hF in
private theorem sqrt_ratio : Tendsto (fun n : ℕ => Real.sqrt n / Real.sqrt ((n : ℝ) - 1)) atTop (𝓝 1) := by
  have h : Tendsto (fun n : ℕ => Real.sqrt ((n : ℝ) / ((n : ℝ) - 1))) atTop (𝓝 (Real.sqrt 1)) := by
    refine (Real.continuous_sqrt.tendsto 1).comp ?_
    have h1 : Tendsto (fun n : ℕ => 1 - 1 / (n : ℝ)) atTop (𝓝 (1 - 0)) :=
      tendsto_const_nhds.sub tendsto_one_div_atTop_nhds_zero_nat
    have h2 := h1.inv₀ (by norm_num)
    rw [sub_zero, inv_one] at h2
    refine h2.congr' ?_
    filter_upwards [eventually_gt_atTop 1] with n hn
    have : (1 : ℝ) < n := by exact_mod_cast hn
    have h3 : (n : ℝ) - 1 ≠ 0 := by linarith
    have h4 : (n : ℝ) ≠ 0 := by linarith
    rw [one_sub_div h4, inv_div]
  rw [Real.sqrt_one] at h
  refine h.congr' ?_
  filter_upwards with n
  exact Real.sqrt_div (Nat.cast_nonneg n) _

/-- The error times the square root of the number of draws tends to the standard deviation. -/
theorem error_tendsto [IsProbabilityMeasure ν] (hind : ∀ j k, j ≠ k → IndepFun (R j) (R k) μ) (h2 : MemLp F 2 ν) :
    ∀ᵐ ω ∂μ, Tendsto (fun n : ℕ => Real.sqrt n * (basicEstimateZ fun k : Fin n => F (R k ω)).2) atTop
      (𝓝 (Real.sqrt (Var[F; ν]))) := by
  have h1 : Integrable F ν := h2.integrable one_le_two
  filter_upwards [mean_tendsto μ ν R hR hlaw hind F hF h1,
    mean_tendsto μ ν R hR hlaw hind (fun x => F x ^ 2) (hF.pow_const 2) h2.integrable_sq] with ω k1 k2
  have hv : Var[F; ν] = ∫ x, F x ^ 2 ∂ν - (∫ x, F x ∂ν) ^ 2 := by
    rw [variance_eq_sub h2]
    rfl
  have h3 := (Real.continuous_sqrt.tendsto _).comp (k2.sub (k1.pow 2))
  rw [← hv] at h3
  have h4 := h3.mul sqrt_ratio
  rw [mul_one] at h4
  refine h4.congr fun n => ?_
  simp only [basicEstimateZ, npStd_zero, Function.comp]
  ring

/-- Without a second moment the error times the square root of the number of draws grows beyond all bounds. -/
theorem error_atTop [IsProbabilityMeasure ν] (hind : ∀ j k, j ≠ k → IndepFun (R j) (R k) μ) (h1 : Integrable F ν)
    (h2 : ¬ MemLp F 2 ν) :
    ∀ᵐ ω ∂μ, Tendsto (fun n : ℕ => Real.sqrt n * (basicEstimateZ fun k : Fin n => F (R k ω)).2) atTop atTop := by
  have hsq : ¬ Integrable (fun x => F x ^ 2) ν := fun h => h2 ((memLp_two_iff_integrable_sq hF.aestronglyMeasurable).mpr h)
  -- the truncated squares
  let G : ℕ → E → ℝ := fun m x => min (F x ^ 2) m
  have hG : ∀ m, Measurable (G m) := fun m => (hF.pow_const 2).min measurable_const
  have hG0 : ∀ m x, 0 ≤ G m x := fun m x => le_min (sq_nonneg _) (Nat.cast_nonneg m)
  have hGi : ∀ m, Integrable (G m) ν := fun m => Integrable.of_bound (hG m).aestronglyMeasurable m
    (Eventually.of_forall fun x => by rw [Real.norm_of_nonneg (hG0 m x)]; exact min_le_right _ _)
  have hlim : Tendsto (fun m => ∫ x, G m x ∂ν) atTop atTop := by
    refine tendsto_atTop_atTop_of_monotone (fun a b hab => integral_mono (hGi a) (hGi b) fun x =>
      min_le_min le_rfl (Nat.cast_le.mpr hab)) fun b => ?_
    by_contra hcon
    push Not at hcon
    apply hsq
    refine ⟨(hF.pow_const 2).aestronglyMeasurable, ?_⟩
    have hl : Tendsto (fun m => ∫⁻ x, ENNReal.ofReal (G m x) ∂ν) atTop (𝓝 (∫⁻ x, ENNReal.ofReal (F x ^ 2) ∂ν)) := by
      refine lintegral_tendsto_of_tendsto_of_monotone (fun m => (hG m).ennreal_ofReal.aemeasurable)
        (Eventually.of_forall fun x a b hab => ENNReal.ofReal_le_ofReal (min_le_min le_rfl (by exact_mod_cast hab)))
        (Eventually.of_forall fun x => ?_)
      refine ENNReal.tendsto_ofReal (tendsto_const_nhds.congr' ?_)
      obtain ⟨m, hm⟩ := exists_nat_ge (F x ^ 2)
      filter_upwards [eventually_ge_atTop m] with a ha
      exact (min_eq_left (hm.trans (by exact_mod_cast ha))).symm
    have hle : ∫⁻ x, ENNReal.ofReal (F x ^ 2) ∂ν ≤ ENNReal.ofReal b := le_of_tendsto' hl fun m => by
      rw [← ofReal_integral_eq_lintegral_ofReal (hGi m) (Eventually.of_forall (hG0 m))]
      exact ENNReal.ofReal_le_ofReal (hcon m).le
    refine lt_of_le_of_lt (le_trans (le_of_eq ?_) hle) ENNReal.ofReal_lt_top
    refine lintegral_congr fun x => ?_
    rw [← ofReal_norm_eq_enorm, Real.norm_of_nonneg (sq_nonneg _)]
  have hall := ae_all_iff.mpr fun m => mean_tendsto μ ν R hR hlaw hind (G m) (hG m) (hGi m)
  filter_upwards [mean_tendsto μ ν R hR hlaw hind F hF h1, hall] with ω k1 k2
  have hvar : Tendsto (fun n : ℕ => npMean (fun k : Fin n => F (R k ω) ^ 2) - npMean (fun k : Fin n => F (R k ω)) ^ 2)
      atTop atTop := by
    refine tendsto_atTop.mpr fun b => ?_
    obtain ⟨m, hm⟩ := (tendsto_atTop.mp hlim (b + (∫ x, F x ∂ν) ^ 2 + 1)).exists
    have k3 := (k2 m).sub (k1.pow 2)
    have : b < ∫ x, G m x ∂ν - (∫ x, F x ∂ν) ^ 2 := by linarith
    filter_upwards [k3.eventually_const_lt this] with n hn
    refine hn.le.trans (sub_le_sub_right ?_ _)
    unfold npMean npSum
    exact div_le_div_of_nonneg_right (sum_le_sum fun k _ => min_le_left _ _) (Nat.cast_nonneg n)
  have h3 := (Real.tendsto_sqrt_atTop.comp hvar).atTop_mul_pos one_pos sqrt_ratio
  refine h3.congr fun n => ?_
  simp only [basicEstimateZ, npStd_zero, Function.comp]
  ring

omit hlaw in
private theorem npMean_measurable (n : ℕ) : Measurable fun ω => npMean fun k : Fin n => F (R k ω) := by
  unfold npMean npSum
  exact (Finset.measurable_fun_sum univ fun (k : Fin n) _ => hF.comp (hR k)).div_const _

/-- How often the expectation lies within `c` errors of the mean, for many draws. -/
theorem coverage [IsProbabilityMeasure μ] [IsProbabilityMeasure ν] (hind : iIndepFun R μ) (h2 : MemLp F 2 ν)
    (hv : Var[F; ν] ≠ 0) (c : ℝ) (hc : 0 < c) :
    Tendsto (fun n : ℕ => μ.real {ω | |(basicEstimateZ fun k : Fin n => F (R k ω)).1 - ∫ x, F x ∂ν|
        ≤ c * (basicEstimateZ fun k : Fin n => F (R k ω)).2}) atTop
      (𝓝 ((gaussianReal 0 1).real (Set.Icc (-c) c))) := by
  let X : ℕ → Ω → ℝ := fun k ω => F (R k ω)
  have hX : ∀ k, Measurable (X k) := fun k => hF.comp (hR k)
  have hident : ∀ k, IdentDistrib (R k) (R 0) μ μ := fun k =>
    ⟨(hR k).aemeasurable, (hR 0).aemeasurable, (hlaw k).trans (hlaw 0).symm⟩
  have hmp : MeasurePreserving (R 0) μ ν := ⟨hR 0, hlaw 0⟩
  have hm : μ[X 0] = ∫ x, F x ∂ν := by
    rw [← hlaw 0]
    exact (integral_map (hR 0).aemeasurable hF.aestronglyMeasurable).symm
  have hvar : Var[X 0; μ] = Var[F; ν] := by
    rw [← hlaw 0]
    exact (variance_map hF.aemeasurable (hR 0).aemeasurable).symm
  have hX2 : MemLp (X 0) 2 μ := h2.comp_measurePreserving hmp
  let v := Var[F; ν]
  have hv0 : 0 < v := lt_of_le_of_ne (variance_nonneg _ _) (Ne.symm hv)
  have hY : HasLaw (fun x : ℝ => x) (gaussianReal 0 Var[X 0; μ].toNNReal) (gaussianReal 0 Var[X 0; μ].toNNReal) := HasLaw.id
  have hclt := tendstoInDistribution_inv_sqrt_mul_sum_sub hY hX2 (hind.comp (fun _ => F) fun _ => hF)
    fun k => (hident k).comp hF
  have hm2 : ∀ n : ℕ, Measurable fun ω => Real.sqrt n * (basicEstimateZ fun k : Fin n => F (R k ω)).2 := by
    intro n
    simp only [basicEstimateZ, npStd_zero]
    have a1 := npMean_measurable R hR F hF n
    have a2 := npMean_measurable R hR (fun x => F x ^ 2) (hF.pow_const 2) n
    exact measurable_const.mul ((a2.sub (a1.pow_const 2)).sqrt.div_const _)
  have hy : TendstoInMeasure μ (fun (n : ℕ) ω => Real.sqrt n * (basicEstimateZ fun k : Fin n => F (R k ω)).2) atTop
      fun _ => Real.sqrt v := by
    refine tendstoInMeasure_of_tendsto_ae (fun n => ?_)
      (error_tendsto μ ν R hR hlaw F hF (fun j k hjk => hind.indepFun hjk) h2)
    exact (hm2 n).aestronglyMeasurable
  have hs := hclt.continuous_comp_prodMk_of_tendstoInMeasure_const (g := fun q : ℝ × ℝ => |q.1| - c * q.2) (by fun_prop)
    hy fun n => (hm2 n).aemeasurable
  have hnn : Var[X 0; μ].toNNReal ≠ 0 := by
    rw [hvar]
    exact (Real.toNNReal_pos.mpr hv0).ne'
  have hlaw1 : (gaussianReal 0 1).map (Real.sqrt v * ·) = gaussianReal 0 Var[X 0; μ].toNNReal := by
    rw [gaussianReal_map_const_mul, mul_zero, hvar]
    congr 1
    ext
    simp [Real.sq_sqrt hv0.le, v, hv0.le]
  have := nullSingletonClass_gaussianReal (μ := 0) hnn
  have hg : Measurable fun z : ℝ => |z| - c * Real.sqrt v := by fun_prop
  have hnull : (gaussianReal 0 Var[X 0; μ].toNNReal).map (fun z : ℝ => |z| - c * Real.sqrt v) (frontier (Set.Iic 0)) = 0 := by
    rw [frontier_Iic, Measure.map_apply hg (measurableSet_singleton _)]
    refine measure_mono_null (t := {c * Real.sqrt v, -(c * Real.sqrt v)}) (fun z hz => ?_)
      (Set.Finite.measure_zero (by simp) _)
    have : |z| = c * Real.sqrt v := by
      have : |z| - c * Real.sqrt v = 0 := hz
      linarith
    rcases abs_choice z with h | h <;> rw [h] at this
    · left; exact this
    · right; rw [Set.mem_singleton_iff]; linarith
  have ht := ProbabilityMeasure.tendsto_measure_of_null_frontier_of_tendsto' hs.tendsto hnull
  have hp : IsProbabilityMeasure ((gaussianReal 0 Var[X 0; μ].toNNReal).map fun z : ℝ => |z| - c * Real.sqrt v) :=
    Measure.isProbabilityMeasure_map hg.aemeasurable
  have ht2 := (ENNReal.tendsto_toReal (a := ((gaussianReal 0 Var[X 0; μ].toNNReal).map
    fun z : ℝ => |z| - c * Real.sqrt v) (Set.Iic 0)) (measure_ne_top _ _)).comp ht
  have hlim : (((gaussianReal 0 Var[X 0; μ].toNNReal).map (fun z : ℝ => |z| - c * Real.sqrt v)) (Set.Iic 0)).toReal
      = (gaussianReal 0 1).real (Set.Icc (-c) c) := by
    rw [Measure.map_apply hg measurableSet_Iic, ← hlaw1, Measure.map_apply (by fun_prop) (hg measurableSet_Iic)]
    unfold Measure.real
    congr 2
    ext z
    have hsv : 0 < Real.sqrt v := Real.sqrt_pos.mpr hv0
    simp only [Set.mem_preimage, Set.mem_Iic, Set.mem_Icc, sub_nonpos, abs_mul, abs_of_pos hsv, ← abs_le]
    rw [mul_comm, mul_le_mul_iff_left₀ hsv]
  refine (hlim ▸ ht2).congr' ?_
  filter_upwards [eventually_gt_atTop 1] with n hn
  simp only [Function.comp, ProbabilityMeasure.coe_mk]
  rw [Measure.map_apply₀ (hs.forall_aemeasurable n) measurableSet_Iic.nullMeasurableSet]
  unfold Measure.real
  congr 2
  ext ω
  have h0 : (0 : ℝ) < n := by exact_mod_cast (zero_lt_one.trans hn)
  have hsn : 0 < Real.sqrt n := Real.sqrt_pos.mpr h0
  have e1 : (Real.sqrt n)⁻¹ * (∑ k ∈ range n, X k ω - n * μ[X 0])
      = Real.sqrt n * ((basicEstimateZ fun k : Fin n => F (R k ω)).1 - ∫ x, F x ∂ν) := by
    rw [hm]
    simp only [basicEstimateZ, npMean, npSum]
    rw [Fin.sum_univ_eq_sum_range (fun k => F (R k ω))]
    have : (n : ℝ) = Real.sqrt n * Real.sqrt n := (Real.mul_self_sqrt h0.le).symm
    rw [inv_mul_eq_iff_eq_mul₀ hsn.ne', ← mul_assoc, ← this]
    field_simp
    rfl
  simp only [Set.mem_preimage, Set.mem_Iic, Set.mem_ofPred_eq, sub_nonpos]
  rw [e1, abs_mul, abs_of_pos hsn, mul_left_comm, mul_le_mul_iff_right₀ hsn]

end
end Pibronic.ErrorBars
