import Verif.Lemmas.ErrorBars
import Verif.Lemmas.JackknifeError

set_option autoImplicit false
set_option linter.unusedSectionVars false

/-! How often a value lies within a multiple of the error of an estimate that is, up to terms that vanish, a mean of
independent draws. -/
namespace Pibronic.DeltaMethod
open Finset MeasureTheory ProbabilityTheory Filter Topology Pibronic.Stats Pibronic.Props.Sampling

section
variable {Ω : Type*} [MeasurableSpace Ω] {μ : Measure Ω} [IsProbabilityMeasure μ]

/-- The probability that a variable which becomes normal lies within `c` times a number that tends to its standard
deviation. -/
theorem interval {T S : ℕ → Ω → ℝ} {σ : ℝ} (hσ : 0 < σ)
    (hT : TendstoInDistribution T atTop (fun z : ℝ => σ * z) (fun _ => μ) (gaussianReal 0 1))
    (hS : TendstoInMeasure μ S atTop fun _ => σ) (hSm : ∀ n, Measurable (S n)) (c : ℝ) :
    Tendsto (fun n : ℕ => μ.real {ω | |T n ω| ≤ c * S n ω}) atTop (𝓝 ((gaussianReal 0 1).real (Set.Icc (-c) c))) := by
  have hs := hT.continuous_comp_prodMk_of_tendstoInMeasure_const (g := fun q : ℝ × ℝ => |q.1| - c * q.2) (by fun_prop)
    hS fun n => (hSm n).aemeasurable
  have := nullSingletonClass_gaussianReal (μ := 0) (v := 1) one_ne_zero
  have hg : Measurable fun z : ℝ => |σ * z| - c * σ := by fun_prop
  have hnull : (gaussianReal 0 1).map (fun z : ℝ => |σ * z| - c * σ) (frontier (Set.Iic 0)) = 0 := by
    rw [frontier_Iic, Measure.map_apply hg (measurableSet_singleton _)]
    refine measure_mono_null (t := {c, -c}) (fun z hz => ?_) (Set.Finite.measure_zero (by simp) _)
    have h : |z| = c := by
      have : |σ * z| - c * σ = 0 := hz
      rw [abs_mul, abs_of_pos hσ] at this
      have : σ * (|z| - c) = 0 := by linarith
      rcases mul_eq_zero.mp this with h | h
      · exact absurd h hσ.ne'
      · linarith
    rcases abs_choice z with h' | h' <;> rw [h'] at h
    · left; exact h
    · right; rw [Set.mem_singleton_iff]; linarith
  have ht := ProbabilityMeasure.tendsto_measure_of_null_frontier_of_tendsto' hs.tendsto hnull
  have hp : IsProbabilityMeasure ((gaussianReal 0 1).map fun z : ℝ => |σ * z| - c * σ) :=
    Measure.isProbabilityMeasure_map hg.aemeasurable
  have ht2 := (ENNReal.tendsto_toReal (a := ((gaussianReal 0 1).map
    fun z : ℝ => |σ * z| - c * σ) (Set.Iic 0)) (measure_ne_top _ _)).comp ht
  have hlim : (((gaussianReal 0 1).map (fun z : ℝ => |σ * z| - c * σ)) (Set.Iic 0)).toReal
      = (gaussianReal 0 1).real (Set.Icc (-c) c) := by
    rw [Measure.map_apply hg measurableSet_Iic]
    unfold Measure.real
    congr 2
    ext z
    simp only [Set.mem_preimage, Set.mem_Iic, Set.mem_Icc, sub_nonpos, abs_mul, abs_of_pos hσ, ← abs_le]
    rw [mul_comm, mul_le_mul_iff_left₀ hσ]
  refine (hlim ▸ ht2).congr fun n => ?_
  simp only [Function.comp, ProbabilityMeasure.coe_mk]
  rw [Measure.map_apply₀ (hs.forall_aemeasurable n) measurableSet_Iic.nullMeasurableSet]
  unfold Measure.real
  congr 2
  ext ω
  simp only [Set.mem_preimage, Set.mem_Iic, Set.mem_ofPred_eq, sub_nonpos]

/-- A variable that converges in distribution times one that vanishes vanishes. -/
theorem small_product {Ω' : Type*} [MeasurableSpace Ω'] {μ' : Measure Ω'} [IsProbabilityMeasure μ'] {X H : ℕ → Ω → ℝ}
    {Z : Ω' → ℝ} (hX : TendstoInDistribution X atTop Z (fun _ => μ) μ') (hH : TendstoInMeasure μ H atTop fun _ => 0)
    (hHm : ∀ n, Measurable (H n)) : TendstoInMeasure μ (fun n ω => H n ω * X n ω) atTop fun _ => 0 := by
  have hs := hX.continuous_comp_prodMk_of_tendstoInMeasure_const (g := fun q : ℝ × ℝ => q.2 * q.1) (by fun_prop)
    hH fun n => (hHm n).aemeasurable
  rw [tendstoInMeasure_iff_norm]
  intro ε hε
  have hcl : IsClosed {q : ℝ | ε ≤ |q|} := isClosed_le continuous_const continuous_abs
  have hz : (μ'.map fun ω => (fun q : ℝ × ℝ => q.2 * q.1) (Z ω, 0)) {q : ℝ | ε ≤ |q|} = 0 := by
    have : (fun ω => (fun q : ℝ × ℝ => q.2 * q.1) (Z ω, 0)) = fun _ : Ω' => (0 : ℝ) := by
      funext ω; simp
    rw [this, Measure.map_apply measurable_const hcl.measurableSet]
    have : (fun _ : Ω' => (0 : ℝ)) ⁻¹' {q : ℝ | ε ≤ |q|} = ∅ := by
      ext ω
      simpa using hε
    rw [this, measure_empty]
  have hnull : (μ'.map fun ω => (fun q : ℝ × ℝ => q.2 * q.1) (Z ω, 0)) (frontier {q : ℝ | ε ≤ |q|}) = 0 :=
    measure_mono_null hcl.frontier_subset hz
  have ht := ProbabilityMeasure.tendsto_measure_of_null_frontier_of_tendsto' hs.tendsto hnull
  simp only [ProbabilityMeasure.coe_mk] at ht
  rw [hz] at ht
  refine ht.congr fun n => ?_
  rw [Measure.map_apply₀ (hs.forall_aemeasurable n) hcl.measurableSet.nullMeasurableSet]
  congr 1
  ext ω
  simp

end

section
variable {Ω E : Type*} [MeasurableSpace Ω] [MeasurableSpace E] (μ : Measure Ω)
    (ν : Measure E) (R : ℕ → Ω → E) (hR : ∀ k, Measurable (R k)) (hlaw : ∀ k, μ.map (R k) = ν)
include hR

theorem npMean_measurable (F : E → ℝ) (hF : Measurable F) (n : ℕ) :
    Measurable fun ω => npMean fun k : Fin n => F (R k ω) := by
  unfold npMean npSum
  exact (Finset.measurable_fun_sum univ fun (k : Fin n) _ => hF.comp (hR k)).div_const _

include hlaw

/-- The averages of three quantities and of their products settle. -/
theorem moments [IsProbabilityMeasure ν] (hind : ∀ j k, j ≠ k → IndepFun (R j) (R k) μ) (X : Fin 3 → E → ℝ)
    (hX : ∀ j, Measurable (X j)) (h2 : ∀ j, MemLp (X j) 2 ν) :
    ∀ᵐ ω ∂μ, Moments (fun j k => X j (R k ω)) (fun j => ∫ x, X j x ∂ν) (fun j l => ∫ x, X j x * X l x ∂ν) := by
  have a := ae_all_iff.mpr fun j => mean_tendsto μ ν R hR hlaw hind (X j) (hX j) ((h2 j).integrable one_le_two)
  have b := ae_all_iff.mpr fun j => ae_all_iff.mpr fun l => mean_tendsto μ ν R hR hlaw hind (fun x => X j x * X l x)
    ((hX j).mul (hX l)) ((h2 j).integrable_mul (h2 l))
  filter_upwards [a, b] with ω h1 h3
  exact ⟨h1, h3⟩

variable [IsProbabilityMeasure μ] [IsProbabilityMeasure ν] (hind : iIndepFun R μ)
include hind

/-- The central limit theorem for draws with mean zero. -/
theorem clt (F : E → ℝ) (hF : Measurable F) (h2 : MemLp F 2 ν) (h0 : ∫ x, F x ∂ν = 0) :
    TendstoInDistribution (fun (n : ℕ) ω => Real.sqrt n * npMean fun k : Fin n => F (R k ω)) atTop
      (fun z : ℝ => Real.sqrt Var[F; ν] * z) (fun _ => μ) (gaussianReal 0 1) := by
  let X : ℕ → Ω → ℝ := fun k ω => F (R k ω)
  have hident : ∀ k, IdentDistrib (R k) (R 0) μ μ := fun k =>
    ⟨(hR k).aemeasurable, (hR 0).aemeasurable, (hlaw k).trans (hlaw 0).symm⟩
  have hmp : MeasurePreserving (R 0) μ ν := ⟨hR 0, hlaw 0⟩
  have hm : μ[X 0] = 0 := by
    rw [← h0, ← hlaw 0]
    exact (integral_map (hR 0).aemeasurable hF.aestronglyMeasurable).symm
  have hvar : Var[X 0; μ] = Var[F; ν] := by
    rw [← hlaw 0]
    exact (variance_map hF.aemeasurable (hR 0).aemeasurable).symm
  have hX2 : MemLp (X 0) 2 μ := h2.comp_measurePreserving hmp
  have hv0 : 0 ≤ Var[F; ν] := variance_nonneg _ _
  have hY : HasLaw (fun z : ℝ => Real.sqrt Var[F; ν] * z) (gaussianReal 0 Var[X 0; μ].toNNReal) (gaussianReal 0 1) := by
    refine ⟨by fun_prop, ?_⟩
    rw [gaussianReal_map_const_mul, mul_zero, hvar]
    congr 1
    ext
    simp [Real.sq_sqrt hv0, hv0]
  have h := tendstoInDistribution_inv_sqrt_mul_sum_sub hY hX2 (hind.comp (fun _ => F) fun _ => hF)
    fun k => (hident k).comp hF
  refine h.congr (fun n => Eventually.of_forall fun ω => ?_) (Eventually.of_forall fun _ => rfl)
  change (Real.sqrt n)⁻¹ * (∑ k ∈ range n, X k ω - n * μ[X 0]) = _
  rw [hm, mul_zero, sub_zero]
  simp only [npMean, npSum]
  rw [Fin.sum_univ_eq_sum_range (fun k => F (R k ω))]
  rcases Nat.eq_zero_or_pos n with rfl | hn
  · simp
  have h0 : (0 : ℝ) < n := by exact_mod_cast hn
  have hsn : 0 < Real.sqrt n := Real.sqrt_pos.mpr h0
  have e : (n : ℝ) = Real.sqrt n * Real.sqrt n := (Real.mul_self_sqrt h0.le).symm
  rw [inv_mul_eq_iff_eq_mul₀ hsn.ne', ← mul_assoc, ← e]
  field_simp
  rfl

/-- How often `val` lies within `c` errors of an estimate `V` that is, up to terms that vanish, a mean of draws. -/
theorem covers (U U' : E → ℝ) (hU : Measurable U) (hU' : Measurable U') (h2 : MemLp U 2 ν) (h2' : MemLp U' 2 ν)
    (h0 : ∫ x, U x ∂ν = 0) (h0' : ∫ x, U' x ∂ν = 0) (hv : Var[U; ν] ≠ 0)
    (V err G H : ℕ → Ω → ℝ) (val : ℝ) (hV : ∀ n, Measurable (V n)) (herrm : ∀ n, Measurable (err n))
    (hG : ∀ n, Measurable (G n)) (hH : ∀ n, Measurable (H n))
    (hG1 : ∀ᵐ ω ∂μ, Tendsto (fun n => G n ω) atTop (𝓝 1)) (hH0 : ∀ᵐ ω ∂μ, Tendsto (fun n => H n ω) atTop (𝓝 0))
    (hV0 : ∀ᵐ ω ∂μ, Tendsto (fun n : ℕ => Real.sqrt n * (V n ω - val) - G n ω * (Real.sqrt n * npMean fun k : Fin n => U (R k ω))
      - H n ω * (Real.sqrt n * npMean fun k : Fin n => U' (R k ω))) atTop (𝓝 0))
    (herr : ∀ᵐ ω ∂μ, Tendsto (fun n : ℕ => Real.sqrt n * err n ω) atTop (𝓝 (Real.sqrt Var[U; ν]))) (c : ℝ) :
    Tendsto (fun n : ℕ => μ.real {ω | |V n ω - val| ≤ c * err n ω}) atTop
      (𝓝 ((gaussianReal 0 1).real (Set.Icc (-c) c))) := by
  have hσ : 0 < Real.sqrt Var[U; ν] := Real.sqrt_pos.mpr (lt_of_le_of_ne (variance_nonneg _ _) (Ne.symm hv))
  let X : ℕ → Ω → ℝ := fun n ω => Real.sqrt n * npMean fun k : Fin n => U (R k ω)
  let X' : ℕ → Ω → ℝ := fun n ω => Real.sqrt n * npMean fun k : Fin n => U' (R k ω)
  have hX : ∀ n, Measurable (X n) := fun n => measurable_const.mul (npMean_measurable R hR U hU n)
  have hX' : ∀ n, Measurable (X' n) := fun n => measurable_const.mul (npMean_measurable R hR U' hU' n)
  let ρ : ℕ → Ω → ℝ := fun n ω => Real.sqrt n * (V n ω - val) - G n ω * X n ω - H n ω * X' n ω
  have hρ : ∀ n, Measurable (ρ n) := fun n =>
    ((measurable_const.mul ((hV n).sub_const val)).sub ((hG n).mul (hX n))).sub ((hH n).mul (hX' n))
  have c1 := (clt μ ν R hR hlaw hind U hU h2 h0).continuous_comp_prodMk_of_tendstoInMeasure_const
    (g := fun q : ℝ × ℝ => q.2 * q.1) (by fun_prop)
    (tendstoInMeasure_of_tendsto_ae (fun n => (hG n).aestronglyMeasurable) hG1) fun n => (hG n).aemeasurable
  have c2 := c1.add_of_tendstoInMeasure_const (small_product (clt μ ν R hR hlaw hind U' hU' h2' h0')
    (tendstoInMeasure_of_tendsto_ae (fun n => (hH n).aestronglyMeasurable) hH0) hH)
    fun n => ((hH n).mul (hX' n)).aemeasurable
  have c3 := c2.add_of_tendstoInMeasure_const (tendstoInMeasure_of_tendsto_ae (fun n => (hρ n).aestronglyMeasurable) hV0)
    fun n => (hρ n).aemeasurable
  have c4 : TendstoInDistribution (fun (n : ℕ) ω => Real.sqrt n * (V n ω - val)) atTop
      (fun z : ℝ => Real.sqrt Var[U; ν] * z) (fun _ => μ) (gaussianReal 0 1) := by
    refine c3.congr (fun n => Eventually.of_forall fun ω => ?_) (Eventually.of_forall fun z => ?_)
    · change G n ω * X n ω + H n ω * X' n ω + ρ n ω = _
      simp only [ρ]
      ring
    · simp
  have h := interval (S := fun n ω => Real.sqrt n * err n ω) hσ c4 (tendstoInMeasure_of_tendsto_ae
    (fun n => (measurable_const.mul (herrm n)).aestronglyMeasurable) herr) (fun n => measurable_const.mul (herrm n)) c
  refine h.congr' ?_
  filter_upwards [eventually_gt_atTop 0] with n hn
  have hsn : 0 < Real.sqrt n := Real.sqrt_pos.mpr (by exact_mod_cast hn)
  congr 1
  ext ω
  simp only [Set.mem_ofPred_eq]
  rw [abs_mul, abs_of_pos hsn, mul_left_comm, mul_le_mul_iff_right₀ hsn]

end
/-! ### a quotient of means, and the second quantity -/

section
variable {Ω E : Type*} [MeasurableSpace Ω] [MeasurableSpace E] (μ : Measure Ω)
    (ν : Measure E) (R : ℕ → Ω → E) (X : Fin 3 → E → ℝ)

/-- Minus the quotient of the means. -/
noncomputable def first (n : ℕ) (ω : Ω) : ℝ :=
  -1 * (npMean fun k : Fin n => X 0 (R k ω)) / npMean fun k : Fin n => X 2 (R k ω)

/-- The same without one draw. -/
noncomputable def firstWithout (n : ℕ) (ω : Ω) (i : Fin n) : ℝ :=
  -1 * calculateJackknifeTerm (fun k : Fin n => X 0 (R k ω)) i / calculateJackknifeTerm (fun k : Fin n => X 2 (R k ω)) i

/-- The other quotient less the square of the first, over a constant. -/
noncomputable def second (κ : ℝ) (n : ℕ) (ω : Ω) : ℝ :=
  ((npMean fun k : Fin n => X 1 (R k ω)) / (npMean fun k : Fin n => X 2 (R k ω)) - first R X n ω ^ 2) / κ

/-- The same without one draw. -/
noncomputable def secondWithout (κ : ℝ) (n : ℕ) (ω : Ω) (i : Fin n) : ℝ :=
  (calculateJackknifeTerm (fun k : Fin n => X 1 (R k ω)) i / calculateJackknifeTerm (fun k : Fin n => X 2 (R k ω)) i
    - firstWithout R X n ω i ^ 2) / κ

/-- What one draw contributes to the deviation of the first quantity. -/
noncomputable def firstPart (x : E) : ℝ :=
  -(X 0 x + (-1 * (∫ x, X 0 x ∂ν) / ∫ x, X 2 x ∂ν) * X 2 x) / ∫ x, X 2 x ∂ν

/-- What one draw contributes to the deviation of the second quantity. -/
noncomputable def secondPart (κ : ℝ) (x : E) : ℝ :=
  (X 1 x - (∫ x, X 1 x ∂ν) / (∫ x, X 2 x ∂ν) * X 2 x + 2 * (-1 * (∫ x, X 0 x ∂ν) / ∫ x, X 2 x ∂ν)
    * (X 0 x + (-1 * (∫ x, X 0 x ∂ν) / ∫ x, X 2 x ∂ν) * X 2 x)) / (κ * ∫ x, X 2 x ∂ν)

variable (hX : ∀ j, Measurable (X j)) (h2 : ∀ j, MemLp (X j) 2 ν)

include hX in
theorem firstPart_measurable : Measurable (firstPart ν X) :=
  (((hX 0).add ((hX 2).const_mul _)).neg).div_const _

include hX in
theorem secondPart_measurable (κ : ℝ) : Measurable (secondPart ν X κ) :=
  (((hX 1).sub ((hX 2).const_mul _)).add (((hX 0).add ((hX 2).const_mul _)).const_mul _)).div_const _

include h2 in
theorem firstPart_memLp : MemLp (firstPart ν X) 2 ν := by
  have := (((h2 0).add ((h2 2).const_mul (-1 * (∫ x, X 0 x ∂ν) / ∫ x, X 2 x ∂ν))).neg).mul_const (∫ x, X 2 x ∂ν)⁻¹
  exact this

include h2 in
theorem secondPart_memLp (κ : ℝ) : MemLp (secondPart ν X κ) 2 ν := by
  set e := -1 * (∫ x, X 0 x ∂ν) / ∫ x, X 2 x ∂ν with he
  have := (((h2 1).sub ((h2 2).const_mul ((∫ x, X 1 x ∂ν) / ∫ x, X 2 x ∂ν))).add
    (((h2 0).add ((h2 2).const_mul e)).const_mul (2 * e))).mul_const (κ * ∫ x, X 2 x ∂ν)⁻¹
  exact this

variable [IsProbabilityMeasure ν]

include h2 in
theorem firstPart_mean (ha : ∫ x, X 2 x ∂ν ≠ 0) : ∫ x, firstPart ν X x ∂ν = 0 := by
  have i0 := (h2 0).integrable one_le_two
  have i2 := (h2 2).integrable one_le_two
  unfold firstPart
  rw [integral_div, integral_neg, integral_add i0 (i2.const_mul _), integral_const_mul]
  field_simp
  ring

include h2 in
theorem secondPart_mean (ha : ∫ x, X 2 x ∂ν ≠ 0) (κ : ℝ) : ∫ x, secondPart ν X κ x ∂ν = 0 := by
  have i0 := (h2 0).integrable one_le_two
  have i1 := (h2 1).integrable one_le_two
  have i2 := (h2 2).integrable one_le_two
  have key : ∀ b e : ℝ, ∫ x, X 1 x - b * X 2 x + 2 * e * (X 0 x + e * X 2 x) ∂ν
      = (∫ x, X 1 x ∂ν) - b * (∫ x, X 2 x ∂ν) + 2 * e * ((∫ x, X 0 x ∂ν) + e * ∫ x, X 2 x ∂ν) := by
    intro b e
    have j1 : Integrable (fun x => X 1 x - b * X 2 x) ν := i1.sub (i2.const_mul b)
    have j0 : Integrable (fun x => X 0 x + e * X 2 x) ν := i0.add (i2.const_mul e)
    rw [integral_add j1 (j0.const_mul _), integral_sub i1 (i2.const_mul b), integral_const_mul, integral_const_mul,
      integral_add i0 (i2.const_mul e), integral_const_mul]
  unfold secondPart
  rw [integral_div, key]
  have : (∫ x, X 1 x ∂ν) - (∫ x, X 1 x ∂ν) / (∫ x, X 2 x ∂ν) * (∫ x, X 2 x ∂ν)
      + 2 * (-1 * (∫ x, X 0 x ∂ν) / ∫ x, X 2 x ∂ν) * ((∫ x, X 0 x ∂ν)
        + (-1 * (∫ x, X 0 x ∂ν) / ∫ x, X 2 x ∂ν) * ∫ x, X 2 x ∂ν) = 0 := by
    field_simp
    ring
  rw [this, zero_div]

include h2 in
/-- The second moment of a combination. -/
private theorem combination_sq (L : Fin 3 → ℝ) :
    ∑ j, ∑ l, L j * L l * ∫ x, X j x * X l x ∂ν = ∫ x, (∑ j, L j * X j x) ^ 2 ∂ν := by
  have hi : ∀ j l, Integrable (fun x => L j * L l * (X j x * X l x)) ν := fun j l =>
    ((h2 j).integrable_mul (h2 l)).const_mul _
  have e : ∀ x, (∑ j, L j * X j x) ^ 2 = ∑ j, ∑ l, L j * L l * (X j x * X l x) := by
    intro x
    rw [pow_two, sum_mul_sum]
    exact sum_congr rfl fun j _ => sum_congr rfl fun l _ => by ring
  simp only [e]
  rw [integral_finsetSum _ fun j _ => integrable_finsetSum _ fun l _ => hi j l]
  refine sum_congr rfl fun j _ => ?_
  rw [integral_finsetSum _ fun l _ => hi j l]
  exact sum_congr rfl fun l _ => (integral_const_mul _ _).symm

private theorem variance_of_part {U : E → ℝ} (hU : MemLp U 2 ν) (h0 : ∫ x, U x ∂ν = 0) : Var[U; ν] = ∫ x, U x ^ 2 ∂ν := by
  rw [variance_eq_sub hU, h0]
  simp

variable (hR : ∀ k, Measurable (R k)) (hlaw : ∀ k, μ.map (R k) = ν)
include hX h2 hR hlaw

/-- The jackknife error of the first quantity. -/
theorem first_error (hind : ∀ j k, j ≠ k → IndepFun (R j) (R k) μ) (ha : ∫ x, X 2 x ∂ν ≠ 0) :
    ∀ᵐ ω ∂μ, JackError (fun n => first R X n ω) (fun n => firstWithout R X n ω) (Real.sqrt Var[firstPart ν X; ν]) := by
  filter_upwards [moments μ ν R hR hlaw hind X hX h2] with ω h
  have := h.jack_energy ha
  simp only at this
  rw [combination_sq ν X h2, ← integral_div] at this
  rw [variance_of_part ν (firstPart_memLp ν X h2) (firstPart_mean ν X h2 ha)]
  convert! this using 4 with x
  simp only [firstPart, Fin.sum_univ_three, Matrix.cons_val_zero, Matrix.cons_val_one, Matrix.cons_val]
  ring

/-- The jackknife error of the second quantity. -/
theorem second_error (hind : ∀ j k, j ≠ k → IndepFun (R j) (R k) μ) (ha : ∫ x, X 2 x ∂ν ≠ 0) (κ : ℝ) :
    ∀ᵐ ω ∂μ, JackError (fun n => second R X κ n ω) (fun n => secondWithout R X κ n ω)
      (Real.sqrt Var[secondPart ν X κ; ν]) := by
  filter_upwards [moments μ ν R hR hlaw hind X hX h2] with ω h
  have := h.jack_heat ha κ
  simp only at this
  rw [combination_sq ν X h2, ← integral_div] at this
  rw [variance_of_part ν (secondPart_memLp ν X h2 κ) (secondPart_mean ν X h2 ha κ)]
  convert! this using 4 with x
  simp only [secondPart, Fin.sum_univ_three, Matrix.cons_val_zero, Matrix.cons_val_one, Matrix.cons_val]
  rw [← div_pow]
  by_cases hκ : κ = 0
  · simp [hκ]
  field_simp
  ring

omit h2 hlaw in
theorem first_measurable (n : ℕ) : Measurable (first R X n) :=
  ((npMean_measurable R hR _ (hX 0) n).const_mul _).div (npMean_measurable R hR _ (hX 2) n)

omit h2 hlaw in
theorem second_measurable (κ : ℝ) (n : ℕ) : Measurable (second R X κ n) :=
  (((npMean_measurable R hR _ (hX 1) n).div (npMean_measurable R hR _ (hX 2) n)).sub
    ((first_measurable R X hX hR n).pow_const 2)).div_const _

omit h2 hlaw in
private theorem term_measurable (j : Fin 3) (n : ℕ) (i : Fin n) :
    Measurable fun ω => calculateJackknifeTerm (fun k : Fin n => X j (R k ω)) i := by
  simp only [calculateJackknifeTerm, npSum]
  exact ((Finset.measurable_fun_sum univ fun (k : Fin n) _ => (hX j).comp (hR k)).sub ((hX j).comp (hR i))).div_const _

omit h2 hlaw in
theorem firstWithout_measurable (n : ℕ) (i : Fin n) : Measurable fun ω => firstWithout R X n ω i :=
  ((term_measurable R X hX hR 0 n i).const_mul _).div (term_measurable R X hX hR 2 n i)

omit h2 hlaw in
theorem secondWithout_measurable (κ : ℝ) (n : ℕ) (i : Fin n) : Measurable fun ω => secondWithout R X κ n ω i :=
  (((term_measurable R X hX hR 1 n i).div (term_measurable R X hX hR 2 n i)).sub
    ((firstWithout_measurable R X hX hR n i).pow_const 2)).div_const _

end

section
variable {Ω : Type*} [MeasurableSpace Ω] {n : ℕ} (f : Ω → Fin n → ℝ) (hf : ∀ i, Measurable fun ω => f ω i)
include hf

private theorem mean_measurable : Measurable fun ω => npMean (f ω) := by
  unfold npMean npSum
  exact (Finset.measurable_fun_sum univ fun i _ => hf i).div_const _

theorem error_measurable : Measurable fun ω => Real.sqrt ((n : ℝ) - 1) * npStd 1 (f ω) := by
  unfold npStd
  exact measurable_const.mul ((Finset.measurable_fun_sum univ fun i _ =>
    ((hf i).sub (mean_measurable f hf)).pow_const 2).div_const _).sqrt

theorem corrected_measurable (v : Ω → ℝ) (hv : Measurable v) :
    Measurable fun ω => (n : ℝ) * v ω - ((n : ℝ) - 1) * npMean (f ω) :=
  (hv.const_mul _).sub ((mean_measurable f hf).const_mul _)

end

section
variable {Ω E : Type*} [MeasurableSpace Ω] [MeasurableSpace E] (μ : Measure Ω) [IsProbabilityMeasure μ]
    (ν : Measure E) [IsProbabilityMeasure ν] (R : ℕ → Ω → E) (X : Fin 3 → E → ℝ)
    (hX : ∀ j, Measurable (X j)) (h2 : ∀ j, MemLp (X j) 2 ν) (hR : ∀ k, Measurable (R k)) (hlaw : ∀ k, μ.map (R k) = ν)
    (hind : iIndepFun R μ) (ha : ∫ x, X 2 x ∂ν ≠ 0)
include hX h2 hR hlaw hind ha

/-- How often the limit of the first quantity lies within `c` jackknife errors of an estimate. -/
theorem first_covers (hv : Var[firstPart ν X; ν] ≠ 0) (V : ℕ → Ω → ℝ) (hVm : ∀ n, Measurable (V n))
    (hV : ∀ᵐ ω ∂μ, Tendsto (fun n : ℕ => Real.sqrt n * (V n ω - first R X n ω)) atTop (𝓝 0)) (c : ℝ) :
    Tendsto (fun n : ℕ => μ.real {ω | |V n ω - (-1 * (∫ x, X 0 x ∂ν) / ∫ x, X 2 x ∂ν)|
      ≤ c * (Real.sqrt ((n : ℝ) - 1) * npStd 1 (firstWithout R X n ω))}) atTop
      (𝓝 ((gaussianReal 0 1).real (Set.Icc (-c) c))) := by
  have hpair : ∀ j k, j ≠ k → IndepFun (R j) (R k) μ := fun j k hjk => hind.indepFun hjk
  have hmom := moments μ ν R hR hlaw hpair X hX h2
  refine covers μ ν R hR hlaw hind (firstPart ν X) (firstPart ν X) (firstPart_measurable ν X hX)
    (firstPart_measurable ν X hX) (firstPart_memLp ν X h2) (firstPart_memLp ν X h2) (firstPart_mean ν X h2 ha)
    (firstPart_mean ν X h2 ha) hv V (fun n ω => Real.sqrt ((n : ℝ) - 1) * npStd 1 (firstWithout R X n ω))
    (fun n ω => (∫ x, X 2 x ∂ν) / npMean fun k : Fin n => X 2 (R k ω)) (fun _ _ => 0) _ hVm
    (fun n => error_measurable _ fun i => firstWithout_measurable R X hX hR n i)
    (fun n => measurable_const.div (npMean_measurable R hR _ (hX 2) n)) (fun _ => measurable_const) ?_ ?_ ?_ ?_ c
  · filter_upwards [hmom] with ω h
    have := (tendsto_const_nhds (x := ∫ x, X 2 x ∂ν)).div (h.mean 2) ha
    rwa [div_self ha] at this
  · exact Eventually.of_forall fun _ => tendsto_const_nhds
  · filter_upwards [hmom, hV] with ω h h'
    refine h'.congr' ?_
    filter_upwards [(h.mean 2).eventually (eventually_ne_nhds ha), eventually_gt_atTop 0] with n hn h0
    have hn0 : (n : ℝ) ≠ 0 := by exact_mod_cast h0.ne'
    have e : (npMean fun k : Fin n => firstPart ν X (R k ω))
        = -((npMean fun k : Fin n => X 0 (R k ω)) + (-1 * (∫ x, X 0 x ∂ν) / ∫ x, X 2 x ∂ν)
          * npMean fun k : Fin n => X 2 (R k ω)) / ∫ x, X 2 x ∂ν := by
      simp only [firstPart, npMean, npSum, ← sum_div, sum_neg_distrib, sum_add_distrib, ← mul_sum]
      field_simp
    rw [e]
    simp only [first]
    field_simp
    ring
  · filter_upwards [first_error μ ν R X hX h2 hR hlaw hpair ha] with ω h
    exact h.error

/-- How often the limit of the second quantity lies within `c` jackknife errors of an estimate. -/
theorem second_covers (κ : ℝ) (hv : Var[secondPart ν X κ; ν] ≠ 0) (V : ℕ → Ω → ℝ) (hVm : ∀ n, Measurable (V n))
    (hV : ∀ᵐ ω ∂μ, Tendsto (fun n : ℕ => Real.sqrt n * (V n ω - second R X κ n ω)) atTop (𝓝 0)) (c : ℝ) :
    Tendsto (fun n : ℕ => μ.real {ω | |V n ω - ((∫ x, X 1 x ∂ν) / (∫ x, X 2 x ∂ν)
        - (-1 * (∫ x, X 0 x ∂ν) / ∫ x, X 2 x ∂ν) ^ 2) / κ|
      ≤ c * (Real.sqrt ((n : ℝ) - 1) * npStd 1 (secondWithout R X κ n ω))}) atTop
      (𝓝 ((gaussianReal 0 1).real (Set.Icc (-c) c))) := by
  have hpair : ∀ j k, j ≠ k → IndepFun (R j) (R k) μ := fun j k hjk => hind.indepFun hjk
  have hmom := moments μ ν R hR hlaw hpair X hX h2
  have hκ : κ ≠ 0 := by
    rintro rfl
    apply hv
    have : secondPart ν X 0 = fun _ => 0 := by
      funext x; simp [secondPart]
    rw [this]
    exact variance_zero ν
  refine covers μ ν R hR hlaw hind (secondPart ν X κ) (firstPart ν X) (secondPart_measurable ν X hX κ)
    (firstPart_measurable ν X hX) (secondPart_memLp ν X h2 κ) (firstPart_memLp ν X h2) (secondPart_mean ν X h2 ha κ)
    (firstPart_mean ν X h2 ha) hv V (fun n ω => Real.sqrt ((n : ℝ) - 1) * npStd 1 (secondWithout R X κ n ω))
    (fun n ω => (∫ x, X 2 x ∂ν) / npMean fun k : Fin n => X 2 (R k ω))
    (fun n ω => -(first R X n ω - (-1 * (∫ x, X 0 x ∂ν) / ∫ x, X 2 x ∂ν))
      * ((∫ x, X 2 x ∂ν) / npMean fun k : Fin n => X 2 (R k ω)) / κ) _ hVm
    (fun n => error_measurable _ fun i => secondWithout_measurable R X hX hR κ n i)
    (fun n => measurable_const.div (npMean_measurable R hR _ (hX 2) n))
    (fun n => ((((first_measurable R X hX hR n).sub_const _).neg).mul
      (measurable_const.div (npMean_measurable R hR _ (hX 2) n))).div_const _) ?_ ?_ ?_ ?_ c
  · filter_upwards [hmom] with ω h
    have := (tendsto_const_nhds (x := ∫ x, X 2 x ∂ν)).div (h.mean 2) ha
    rwa [div_self ha] at this
  · filter_upwards [hmom] with ω h
    have h1 := (tendsto_const_nhds (x := ∫ x, X 2 x ∂ν)).div (h.mean 2) ha
    have h3 : Tendsto (fun n => first R X n ω) atTop (𝓝 (-1 * (∫ x, X 0 x ∂ν) / ∫ x, X 2 x ∂ν)) :=
      ((h.mean 0).const_mul (-1)).div (h.mean 2) ha
    have h4 := (((h3.sub_const (-1 * (∫ x, X 0 x ∂ν) / ∫ x, X 2 x ∂ν)).neg).mul h1).div_const κ
    rwa [sub_self, neg_zero, zero_mul, zero_div] at h4
  · filter_upwards [hmom, hV] with ω h h'
    refine h'.congr' ?_
    filter_upwards [(h.mean 2).eventually (eventually_ne_nhds ha), eventually_gt_atTop 0] with n hn h0
    have hn0 : (n : ℝ) ≠ 0 := by exact_mod_cast h0.ne'
    have e : (npMean fun k : Fin n => firstPart ν X (R k ω))
        = -((npMean fun k : Fin n => X 0 (R k ω)) + (-1 * (∫ x, X 0 x ∂ν) / ∫ x, X 2 x ∂ν)
          * npMean fun k : Fin n => X 2 (R k ω)) / ∫ x, X 2 x ∂ν := by
      simp only [firstPart, npMean, npSum, ← sum_div, sum_neg_distrib, sum_add_distrib, ← mul_sum]
      field_simp
    have e2 : (npMean fun k : Fin n => secondPart ν X κ (R k ω))
        = ((npMean fun k : Fin n => X 1 (R k ω)) - (∫ x, X 1 x ∂ν) / (∫ x, X 2 x ∂ν)
          * (npMean fun k : Fin n => X 2 (R k ω)) + 2 * (-1 * (∫ x, X 0 x ∂ν) / ∫ x, X 2 x ∂ν)
          * ((npMean fun k : Fin n => X 0 (R k ω)) + (-1 * (∫ x, X 0 x ∂ν) / ∫ x, X 2 x ∂ν)
            * npMean fun k : Fin n => X 2 (R k ω))) / (κ * ∫ x, X 2 x ∂ν) := by
      simp only [secondPart, npMean, npSum, ← sum_div, sum_sub_distrib, sum_add_distrib, ← mul_sum]
      field_simp
    rw [e, e2]
    simp only [second, first]
    field_simp
    ring
  · filter_upwards [second_error μ ν R X hX h2 hR hlaw hpair ha κ] with ω h
    exact h.error

end
end Pibronic.DeltaMethod
