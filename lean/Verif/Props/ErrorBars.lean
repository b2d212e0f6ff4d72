import Verif.Lemmas.ErrorBars
import Verif.Lemmas.Spread
import Verif.Props.Energy

set_option autoImplicit false
set_option linter.unusedSectionVars false

/-! # Properties: the error bar of the partition function

C114: the reported error of Z is a standard error.  It falls like one over the square root of the number of samples, and
the probability that the expectation lies within a multiple of it is that of the normal distribution. -/
namespace Pibronic.Props.ErrorBars
open Py Finset Filter Topology Spec.PIMC Pibronic.PIMC Pibronic.Props.PIMC Pibronic.Props.Sampling
  Pibronic.Props.Energy MeasureTheory ProbabilityTheory

variable {A N P : ℕ} [NeZero A] [NeZero P]

/-! ### what the theorems speak about -/

/-- The part of the result of each of the four analyses that holds Z and its error. -/
noncomputable def analyses (T : ℝ) (an : Stats.Analytic) : List (∀ n, Stats.Samples n → Stats.Estimate) :=
  [fun _ d => Stats.basicStatisticalAnalysis T d an, fun _ d => Stats.alphaStatisticalAnalysis T d an,
    fun _ d => (Stats.basicJackknifeAnalysis T d an).basic, fun _ d => (Stats.alphaJackknifeAnalysis T d an).basic]

/-- The ratio of the two integrands at a path. -/
noncomputable def ratio (beta : ℝ) (vib : Vib A N) (rho : Rho A N) (R : BeadPath N P) : ℝ :=
  gExact (beta / P) vib R / rhoExact (beta / P) rho R

/-- The frequencies of the sampling model are not much higher and not much lower than those of the system, and the
quadratic terms are small; `q i j` bounds the row sums of the matrix that multiplies `x i * x j / 2`. -/
def Similar (t : ℝ) (vib : Vib A N) (rho : Rho A N) : Prop :=
  ∃ q : Fin N → Fin N → ℝ, (∀ i j a, ∑ b, |vib.quadratic i j a b| ≤ q i j) ∧
    ∀ i, Real.sinh (t * vib.omega i) ≤ 2 * Real.sinh (t * rho.omega i) ∧
      Real.tanh (t * rho.omega i / 2) + 2 * (t * ∑ j, (q i j + q j i) / 4) < 2 * Real.tanh (t * vib.omega i / 2)

/-! ### helpers -/

theorem tau_pos (beta : ℝ) (hb : 0 < beta) : 0 < beta / (P : ℝ) :=
  div_pos hb (by exact_mod_cast Nat.pos_of_ne_zero (NeZero.ne P))

theorem rho_continuous (t : ℝ) (rho : Rho A N) : Continuous fun R : BeadPath N P => rhoExact t rho R := by
  unfold rhoExact Spec.PIMC.step propagator
  fun_prop

private theorem ratio_measurable (beta : ℝ) (vib : Vib A N) (rho : Rho A N) :
    Measurable fun R : BeadPath N P => ratio beta vib rho R :=
  (gSplit_continuous (beta / P) (beta / P) vib).measurable.div (rho_continuous _ rho).measurable

/-- The second moment of a ratio under the law of a path is an integral over all paths. -/
theorem second_moment_at (hP : 3 ≤ P) (eigh : Eigh) (he : EighSpec eigh) (beta : ℝ) (hb : 0 < beta) (vib : Vib A N)
    (rho : Rho A N) (hr : ∀ i, 0 < rho.omega i) (s t : ℝ) :
    MemLp (fun R : BeadPath N P => gSplit s t vib R / rhoExact (beta / P) rho R) 2 (sampleLaw P eigh beta rho) ↔
      Integrable fun R : BeadPath N P => gSplit s t vib R ^ 2 / rhoExact (beta / P) rho R := by
  obtain ⟨hZ, -, -, hlaw⟩ := C33_density_is_rho (P := P) hP eigh he beta hb rho hr
  set Z := ∫ R : BeadPath N P, rhoExact (beta / P) rho R
  have ht := tau_pos (P := P) beta hb
  have hpos : ∀ R : BeadPath N P, 0 < rhoExact (beta / P) rho R := fun R => rhoExact_pos _ ht rho hr R
  have hmeas : Measurable fun R : BeadPath N P => ENNReal.ofReal (rhoExact (beta / P) rho R / Z) :=
    ENNReal.measurable_ofReal.comp ((rho_continuous _ rho).div_const Z).measurable
  have hfin : ∀ᵐ R : BeadPath N P, ENNReal.ofReal (rhoExact (beta / P) rho R / Z) < ⊤ :=
    Filter.Eventually.of_forall fun _ => ENNReal.ofReal_lt_top
  have hval : ∀ R : BeadPath N P, (ENNReal.ofReal (rhoExact (beta / P) rho R / Z)).toReal
      • (gSplit s t vib R / rhoExact (beta / P) rho R) ^ 2 = Z⁻¹ * (gSplit s t vib R ^ 2 / rhoExact (beta / P) rho R) := by
    intro R
    have := (hpos R).ne'
    rw [ENNReal.toReal_ofReal (div_pos (hpos R) hZ).le, smul_eq_mul]
    field_simp
  have hm : Measurable fun R : BeadPath N P => gSplit s t vib R / rhoExact (beta / P) rho R :=
    (gSplit_continuous s t vib).measurable.div (rho_continuous _ rho).measurable
  rw [memLp_two_iff_integrable_sq hm.aestronglyMeasurable, hlaw, integrable_withDensity_iff_integrable_smul' hmeas hfin]
  simp only [hval]
  exact ⟨fun h => by simpa [hZ.ne'] using h.const_mul Z, fun h => h.const_mul _⟩

private theorem second_moment (hP : 3 ≤ P) (eigh : Eigh) (he : EighSpec eigh) (beta : ℝ) (hb : 0 < beta) (vib : Vib A N)
    (rho : Rho A N) (hr : ∀ i, 0 < rho.omega i) :
    MemLp (fun R : BeadPath N P => ratio beta vib rho R) 2 (sampleLaw P eigh beta rho) ↔
      Integrable fun R : BeadPath N P => gExact (beta / P) vib R ^ 2 / rhoExact (beta / P) rho R :=
  second_moment_at hP eigh he beta hb vib rho hr _ _

/-- A ratio with a finite spread has the quotient of the integrals as its expectation. -/
theorem expectation_of_spread (hP : 3 ≤ P) (eigh : Eigh) (he : EighSpec eigh) (beta : ℝ) (hb : 0 < beta) (vib : Vib A N)
    (rho : Rho A N) (hr : ∀ i, 0 < rho.omega i) (s t : ℝ)
    (h2 : MemLp (fun R : BeadPath N P => gSplit s t vib R / rhoExact (beta / P) rho R) 2 (sampleLaw P eigh beta rho)) :
    ∫ R, gSplit s t vib R / rhoExact (beta / P) rho R ∂(sampleLaw P eigh beta rho)
      = (∫ R : BeadPath N P, gSplit s t vib R) / ∫ R : BeadPath N P, rhoExact (beta / P) rho R := by
  obtain ⟨hZ, -, hprob, hlaw⟩ := C33_density_is_rho (P := P) hP eigh he beta hb rho hr
  have h1 := h2.integrable one_le_two
  refine (expectation_gSplit (P := P) hP eigh he beta hb vib rho hr s t ?_).2
  set Z := ∫ R : BeadPath N P, rhoExact (beta / P) rho R
  have hpos : ∀ R : BeadPath N P, 0 < rhoExact (beta / P) rho R := fun R => rhoExact_pos _ (tau_pos beta hb) rho hr R
  have hmeas : Measurable fun R : BeadPath N P => ENNReal.ofReal (rhoExact (beta / P) rho R / Z) :=
    ENNReal.measurable_ofReal.comp ((rho_continuous _ rho).div_const Z).measurable
  rw [hlaw, integrable_withDensity_iff_integrable_smul' hmeas
    (Filter.Eventually.of_forall fun _ => ENNReal.ofReal_lt_top)] at h1
  have hval : ∀ R : BeadPath N P, (ENNReal.ofReal (rhoExact (beta / P) rho R / Z)).toReal
      • (gSplit s t vib R / rhoExact (beta / P) rho R) = Z⁻¹ * gSplit s t vib R := by
    intro R
    have := (hpos R).ne'
    rw [ENNReal.toReal_ofReal (div_pos (hpos R) hZ).le, smul_eq_mul]
    field_simp
  simp only [hval] at h1
  simpa [hZ.ne'] using h1.const_mul Z

/-- Every analysis computes the mean and its error from the ratios of the samples. -/
private theorem reported (eigh : Eigh) (he : EighSpec eigh) (beta : ℝ) (hb : Constants.deltaBeta < beta)
    (vib : Vib A N) (rho : Rho A N) (hv : ∀ i, 0 < vib.omega i) (hr : ∀ i, 0 < rho.omega i)
    (hsym : ∀ x, (potential vib x).IsSymm) {Ω : Type*} [MeasurableSpace Ω] (μ : Measure Ω) (R : ℕ → Ω → BeadPath N P)
    (d : ∀ n, Ω → Stats.Samples n) (hc : Calculation μ eigh beta vib rho R d) (T : ℝ) (an : Stats.Analytic)
    (f : ∀ n, Stats.Samples n → Stats.Estimate) (hf : f ∈ analyses T an) (n : ℕ) (ω : Ω) :
    ((f n (d n ω)).Z, (f n (d n ω)).Zerr) = Stats.basicEstimateZ fun k : Fin n => ratio beta vib rho (R k ω) := by
  have hdb : 0 < Constants.deltaBeta := by norm_num [Constants.deltaBeta]
  have hst : ∀ k : Fin n, (d n ω).g k / (d n ω).rho k = ratio beta vib rho (R k ω) := by
    intro k
    obtain ⟨s, S, h, hS, h1, h2, -, -⟩ := C38_computed_quantities eigh he beta Constants.deltaBeta hdb.le hb
      vib rho hv hr hsym (R k ω)
    rw [hc.computed n ω k] at h
    cases h
    simp only at h1 h2
    rw [h1, h2, div_div_div_cancel_right₀ hS.ne']
    rfl
  have key : ((Stats.basicStatisticalAnalysis T (d n ω) an).Z, (Stats.basicStatisticalAnalysis T (d n ω) an).Zerr)
      = Stats.basicEstimateZ fun k : Fin n => ratio beta vib rho (R k ω) := by
    simp only [Stats.basicStatisticalAnalysis, Stats.addHarmonic, Stats.estimateBasicProperties,
      Stats.calculateBasicPropertyTerms, hst]
  simp only [analyses, List.mem_cons, List.not_mem_nil, or_false] at hf
  rcases hf with rfl | rfl | rfl | rfl <;> exact key

theorem law_probability (hP : 3 ≤ P) (eigh : Eigh) (he : EighSpec eigh) (beta : ℝ) (hb : 0 < beta)
    (rho : Rho A N) (hr : ∀ i, 0 < rho.omega i) : IsProbabilityMeasure (sampleLaw P eigh beta rho) :=
  (C33_density_is_rho (P := P) hP eigh he beta hb rho hr).2.2.1

/-! ### C114 -/

/-- C114: the ratio has a finite spread when the sampling model is similar to the system. -/
theorem C114_finite_partial (hP : 3 ≤ P) (eigh : Eigh) (he : EighSpec eigh) (beta : ℝ) (hb : 0 < beta) (vib : Vib A N)
    (rho : Rho A N) (hv : ∀ i, 0 < vib.omega i) (hr : ∀ i, 0 < rho.omega i) (h : Similar (beta / P) vib rho) :
    MemLp (fun R : BeadPath N P => ratio beta vib rho R) 2 (sampleLaw P eigh beta rho) := by
  obtain ⟨q, h1, h2⟩ := h
  have ht := tau_pos (P := P) beta hb
  rw [second_moment hP eigh he beta hb vib rho hr]
  exact sq_div_integrable _ _ _ ht.le ht ht vib hv rho hr q h1 (fun i => (h2 i).1) fun i => (h2 i).2

/-- C114: the spread is not zero unless the ratio is the same for all paths. -/
theorem C114_spread_pos (hP : 3 ≤ P) (eigh : Eigh) (he : EighSpec eigh) (beta : ℝ) (hb : 0 < beta) (vib : Vib A N)
    (rho : Rho A N) (hr : ∀ i, 0 < rho.omega i)
    (h2 : MemLp (fun R : BeadPath N P => ratio beta vib rho R) 2 (sampleLaw P eigh beta rho))
    (hne : ∃ x y : BeadPath N P, ratio beta vib rho x ≠ ratio beta vib rho y) :
    Var[fun R : BeadPath N P => ratio beta vib rho R; sampleLaw P eigh beta rho] ≠ 0 := by
  intro h
  obtain ⟨x, y, hxy⟩ := hne
  obtain ⟨hZ, -, hpr, hlaw⟩ := C33_density_is_rho (P := P) hP eigh he beta hb rho hr
  have ht := tau_pos (P := P) beta hb
  have hpos : ∀ R : BeadPath N P, 0 < rhoExact (beta / P) rho R := fun R => rhoExact_pos _ ht rho hr R
  have he0 : eVar[fun R : BeadPath N P => ratio beta vib rho R; sampleLaw P eigh beta rho] = 0 := by
    rw [← h2.ofReal_variance_eq, h, ENNReal.ofReal_zero]
  rw [evariance_eq_zero_iff (ratio_measurable beta vib rho).aemeasurable] at he0
  set m := ∫ R, ratio beta vib rho R ∂(sampleLaw P eigh beta rho)
  have hae : (fun R : BeadPath N P => ratio beta vib rho R) =ᵐ[volume] fun _ => m := by
    rw [hlaw] at he0
    have h' := (ae_withDensity_iff (ENNReal.measurable_ofReal.comp
      ((rho_continuous (beta / P) rho).div_const _).measurable)).mp he0
    filter_upwards [h'] with R hR
    exact hR (by simpa using div_pos (hpos R) hZ)
  have hc : Continuous fun R : BeadPath N P => ratio beta vib rho R :=
    (gSplit_continuous (beta / P) (beta / P) vib).div (rho_continuous _ rho) fun R => (hpos R).ne'
  have := (hc.ae_eq_iff_eq volume continuous_const).mp hae
  exact hxy ((congrFun this x).trans (congrFun this y).symm)

/-- A sampling model with the frequencies of the system is similar to it when the quadratic terms are small. -/
theorem similar_of_same (t : ℝ) (ht : 0 < t) (vib : Vib A N) (rho : Rho A N) (hv : ∀ i, 0 < vib.omega i)
    (hw : rho.omega = vib.omega) (hq : SmallQuadratic (2 * t) t vib) : Similar t vib rho := by
  obtain ⟨q, h1, h2⟩ := hq
  refine ⟨q, h1, fun i => ⟨?_, ?_⟩⟩
  · rw [hw]
    have := Real.sinh_pos_iff.mpr (mul_pos ht (hv i))
    linarith
  · rw [hw]
    have := h2 i
    linarith

section
variable {Ω : Type*} [MeasurableSpace Ω] (μ : Measure Ω)

/-- C114: the reported error times the square root of the number of samples settles at the standard deviation of the
ratio, with probability one, so the error bar falls like one over that square root.  Missing: sampling models under which
the ratio has no finite spread (`C114_stiff_refuted`). -/
theorem C114_error_falls_partial (hP : 3 ≤ P) (eigh : Eigh) (he : EighSpec eigh) (beta : ℝ)
    (hb : Constants.deltaBeta < beta) (vib : Vib A N) (rho : Rho A N) (hv : ∀ i, 0 < vib.omega i)
    (hr : ∀ i, 0 < rho.omega i) (hsym : ∀ x, (potential vib x).IsSymm)
    (h2 : MemLp (fun R : BeadPath N P => ratio beta vib rho R) 2 (sampleLaw P eigh beta rho))
    (R : ℕ → Ω → BeadPath N P) (d : ∀ n, Ω → Stats.Samples n) (hc : Calculation μ eigh beta vib rho R d)
    (T : ℝ) (an : Stats.Analytic) (f : ∀ n, Stats.Samples n → Stats.Estimate) (hf : f ∈ analyses T an) :
    ∀ᵐ ω ∂μ, Tendsto (fun n : ℕ => Real.sqrt n * (f n (d n ω)).Zerr) atTop
      (𝓝 (Real.sqrt Var[fun R : BeadPath N P => ratio beta vib rho R; sampleLaw P eigh beta rho])) := by
  have hdb : 0 < Constants.deltaBeta := by norm_num [Constants.deltaBeta]
  have := law_probability hP eigh he beta (hdb.trans hb) rho hr
  filter_upwards [Pibronic.ErrorBars.error_tendsto μ _ R hc.measurable hc.law _ (ratio_measurable beta vib rho) hc.indep h2]
    with ω hω
  refine hω.congr fun n => ?_
  rw [← reported eigh he beta hb vib rho hv hr hsym μ R d hc T an f hf n ω]

/-- C114: for many samples the probability that the expectation lies within `c` error bars of the reported value is
the probability that a normal variable lies within `c` standard deviations.  Missing: sampling models under which
the ratio has no finite spread (`C114_stiff_refuted`). -/
theorem C114_coverage_partial [IsProbabilityMeasure μ] (hP : 3 ≤ P) (eigh : Eigh) (he : EighSpec eigh) (beta : ℝ)
    (hb : Constants.deltaBeta < beta) (vib : Vib A N) (rho : Rho A N) (hv : ∀ i, 0 < vib.omega i)
    (hr : ∀ i, 0 < rho.omega i) (hsym : ∀ x, (potential vib x).IsSymm)
    (h2 : MemLp (fun R : BeadPath N P => ratio beta vib rho R) 2 (sampleLaw P eigh beta rho))
    (hne : ∃ x y : BeadPath N P, ratio beta vib rho x ≠ ratio beta vib rho y)
    (R : ℕ → Ω → BeadPath N P) (d : ∀ n, Ω → Stats.Samples n) (hc : Calculation μ eigh beta vib rho R d)
    (hind : iIndepFun R μ) (T : ℝ) (an : Stats.Analytic) (f : ∀ n, Stats.Samples n → Stats.Estimate)
    (hf : f ∈ analyses T an) (c : ℝ) (hc0 : 0 < c) :
    Tendsto (fun n : ℕ => μ.real {ω | |(f n (d n ω)).Z
        - (∫ R : BeadPath N P, gExact (beta / P) vib R) / ∫ R : BeadPath N P, rhoExact (beta / P) rho R|
          ≤ c * (f n (d n ω)).Zerr}) atTop
      (𝓝 ((gaussianReal 0 1).real (Set.Icc (-c) c))) := by
  have hdb : 0 < Constants.deltaBeta := by norm_num [Constants.deltaBeta]
  have hb0 : 0 < beta := hdb.trans hb
  have := law_probability hP eigh he beta hb0 rho hr
  have key := expectation_of_spread (P := P) hP eigh he beta hb0 vib rho hr (beta / P) (beta / P) h2
  have h := Pibronic.ErrorBars.coverage μ _ R hc.measurable hc.law _ (ratio_measurable beta vib rho) hind h2
    (C114_spread_pos hP eigh he beta hb0 vib rho hr h2 hne) c hc0
  refine h.congr fun n => ?_
  have e : ∫ R, ratio beta vib rho R ∂(sampleLaw P eigh beta rho)
      = (∫ R : BeadPath N P, gExact (beta / P) vib R) / ∫ R : BeadPath N P, rhoExact (beta / P) rho R := key
  rw [e]
  congr 2
  ext ω
  rw [← reported eigh he beta hb vib rho hv hr hsym μ R d hc T an f hf n ω]

/-- C114: without a finite spread the reported error times the square root of the number of samples grows beyond all
bounds, with probability one. -/
theorem C114_infinite_spread (hP : 3 ≤ P) (eigh : Eigh) (he : EighSpec eigh) (beta : ℝ)
    (hb : Constants.deltaBeta < beta) (vib : Vib A N) (rho : Rho A N) (hv : ∀ i, 0 < vib.omega i)
    (hr : ∀ i, 0 < rho.omega i) (hsym : ∀ x, (potential vib x).IsSymm)
    (hI : Integrable fun R : BeadPath N P => gExact (beta / P) vib R)
    (h2 : ¬ Integrable fun R : BeadPath N P => gExact (beta / P) vib R ^ 2 / rhoExact (beta / P) rho R)
    (R : ℕ → Ω → BeadPath N P) (d : ∀ n, Ω → Stats.Samples n) (hc : Calculation μ eigh beta vib rho R d)
    (T : ℝ) (an : Stats.Analytic) (f : ∀ n, Stats.Samples n → Stats.Estimate) (hf : f ∈ analyses T an) :
    ∀ᵐ ω ∂μ, Tendsto (fun n : ℕ => Real.sqrt n * (f n (d n ω)).Zerr) atTop atTop := by
  have hdb : 0 < Constants.deltaBeta := by norm_num [Constants.deltaBeta]
  have hb0 : 0 < beta := hdb.trans hb
  have := law_probability hP eigh he beta hb0 rho hr
  have h1 := (expectation_gSplit (P := P) hP eigh he beta hb0 vib rho hr (beta / P) (beta / P) hI).1
  filter_upwards [Pibronic.ErrorBars.error_atTop μ _ R hc.measurable hc.law _ (ratio_measurable beta vib rho) hc.indep h1
    fun h => h2 ((second_moment hP eigh he beta hb0 vib rho hr).mp h)] with ω hω
  refine hω.congr fun n => ?_
  rw [← reported eigh he beta hb vib rho hv hr hsym μ R d hc T an f hf n ω]

end

/-! ### a sampling model that is too stiff -/

/-- one oscillator with four times the frequency of `oneOscillator` -/
def stiffOscillator : Rho 1 1 where
  energy := fun _ => 0
  omega := fun _ => 4
  linear := fun _ _ => 0

theorem rho_one (w t : ℝ) (R : BeadPath 1 P) :
    rhoExact t (⟨fun _ => 0, fun _ => w, fun _ _ => 0⟩ : Rho 1 1) R = ∏ p, propagator t w (R 0 p) (R 0 (p + 1)) := by
  unfold rhoExact Spec.PIMC.step
  simp [centre, bottom]

theorem cosh_small {t : ℝ} (h0 : 0 < t) (h1 : t ≤ 1 / 3) : Real.cosh t ≤ 3 / 2 := by
  have h := Real.abs_exp_sub_one_le (x := t) (by rw [abs_of_pos h0]; linarith)
  rw [abs_of_pos h0] at h
  have h2 : Real.exp (-t) ≤ 1 := Real.exp_le_one_iff.mpr (by linarith)
  rw [Real.cosh_eq]
  linarith [(abs_le.mp h).2]

/-- The confining part of the exponent of the stiff propagator is at least twice that of the soft one. -/
private theorem twice_stiff {t : ℝ} (h0 : 0 < t) (h1 : t ≤ 1 / 3) :
    2 * ((Real.cosh t - 1) / (2 * Real.sinh t)) ≤ (Real.cosh (t * 4) - 1) / (2 * Real.sinh (t * 4)) := by
  have hC := cosh_small h0 h1
  have hC1 : 1 < Real.cosh t := Real.one_lt_cosh.mpr h0.ne'
  have hS : 0 < Real.sinh t := Real.sinh_pos_iff.mpr h0
  have hsq := Real.cosh_sq t
  have e : t * 4 = 2 * (2 * t) := by ring
  rw [e, Real.cosh_two_mul (2 * t), Real.sinh_two_mul (2 * t), Real.cosh_two_mul t, Real.sinh_two_mul t]
  set C := Real.cosh t
  set S := Real.sinh t
  have hp : 0 < C ^ 2 + S ^ 2 := by positivity
  have hCp : 0 < C := by linarith
  rw [mul_div_assoc', div_le_div_iff₀ (by positivity) (by positivity)]
  have h2 : (C ^ 2 + S ^ 2) ^ 2 = 1 + (2 * S * C) ^ 2 := by nlinarith
  have h3 : (C ^ 2 + S ^ 2) ^ 2 + (2 * S * C) ^ 2 - 1 = 2 * (2 * S * C) ^ 2 := by linarith
  rw [h3]
  have h4 : (C - 1) * (C ^ 2 + S ^ 2) ≤ S ^ 2 * C := by
    have : S ^ 2 = (C - 1) * (C + 1) := by linear_combination -hsq
    rw [this]
    have h5 : C ^ 2 + (C - 1) * (C + 1) ≤ (C + 1) * C := by nlinarith
    nlinarith [mul_le_mul_of_nonneg_left h5 (sub_pos.mpr hC1).le]
  have h6 : 0 ≤ 8 * S * C := by positivity
  nlinarith [mul_le_mul_of_nonneg_left h4 h6]

private theorem exponent (u x y : ℝ) (hu : 0 < Real.sinh u) :
    -((x ^ 2 + y ^ 2) * Real.cosh u - 2 * x * y) / (2 * Real.sinh u)
      = -((Real.cosh u - 1) / (2 * Real.sinh u) * (x ^ 2 + y ^ 2)) - (x - y) ^ 2 / (2 * Real.sinh u) := by
  field_simp
  ring

private theorem le_sq_div {t : ℝ} (h0 : 0 < t) (h1 : t ≤ 1 / 3) (x y : ℝ) (hxy : |x - y| ≤ 1) :
    Real.sqrt (Real.sinh (t * 4)) / Real.sinh (t * 1) * Real.exp (-(1 / Real.sinh (t * 1)))
      ≤ propagator t 1 x y ^ 2 / propagator t 4 x y := by
  have hs1 : 0 < Real.sinh (t * 1) := Real.sinh_pos_iff.mpr (by linarith)
  have hs4 : 0 < Real.sinh (t * 4) := Real.sinh_pos_iff.mpr (by linarith)
  have e : propagator t 1 x y ^ 2 / propagator t 4 x y = Real.sqrt (Real.sinh (t * 4)) / Real.sinh (t * 1)
      * Real.exp (2 * (-((x ^ 2 + y ^ 2) * Real.cosh (t * 1) - 2 * x * y) / (2 * Real.sinh (t * 1)))
        - -((x ^ 2 + y ^ 2) * Real.cosh (t * 4) - 2 * x * y) / (2 * Real.sinh (t * 4))) := by
    unfold propagator
    have := (Real.sqrt_pos.mpr hs4).ne'
    rw [Real.exp_sub, div_pow, Real.sq_sqrt hs1.le, ← Real.exp_nat_mul]
    push_cast
    field_simp
  rw [e]
  refine mul_le_mul_of_nonneg_left (Real.exp_le_exp.mpr ?_) (by positivity)
  rw [exponent _ _ _ hs1, exponent _ _ _ hs4]
  have h2 := twice_stiff h0 h1
  rw [mul_one] at hs1 ⊢
  have h3 : (x - y) ^ 2 ≤ 1 := by rw [← sq_abs]; nlinarith [abs_nonneg (x - y)]
  have h4 : (x - y) ^ 2 / (2 * Real.sinh t) ≤ 1 / (2 * Real.sinh t) := by gcongr
  have h5 : 1 / (2 * Real.sinh t) = 1 / Real.sinh t / 2 := by ring
  have h6 : 0 ≤ (x - y) ^ 2 / (2 * Real.sinh (t * 4)) := by positivity
  nlinarith [mul_le_mul_of_nonneg_right h2 (add_nonneg (sq_nonneg x) (sq_nonneg y))]

/-- The paths whose beads all lie in one interval of length one. -/
private def box (n : ℕ) : Set (BeadPath 1 P) :=
  Set.univ.pi fun _ => Set.univ.pi fun _ => Set.Ico (n : ℝ) (n + 1)

private theorem box_volume (n : ℕ) : volume (box (P := P) n) = 1 := by
  unfold box
  rw [volume_pi_pi]
  simp [volume_pi_pi]

private theorem boxes_volume : volume (⋃ n, box (P := P) n) = ⊤ := by
  have hP : 0 < P := Nat.pos_of_ne_zero (NeZero.ne P)
  rw [measure_iUnion]
  · simp [box_volume]
  · intro m n hmn
    refine Set.disjoint_left.mpr fun R h1 h2 => hmn ?_
    have a := h1 0 trivial ⟨0, hP⟩ trivial
    have b := h2 0 trivial ⟨0, hP⟩ trivial
    have c : (m : ℝ) < n + 1 := a.1.trans_lt b.2
    have d : (n : ℝ) < m + 1 := b.1.trans_lt a.2
    norm_cast at c d
    omega
  · intro n
    exact MeasurableSet.univ_pi fun _ => MeasurableSet.univ_pi fun _ => measurableSet_Ico

private theorem stiff_not_integrable (t : ℝ) (h0 : 0 < t) (h1 : t ≤ 1 / 3) :
    ¬ Integrable fun R : BeadPath 1 P => gExact t oneOscillatorVib R ^ 2 / rhoExact t stiffOscillator R := by
  intro h
  set κ := Real.sqrt (Real.sinh (t * 4)) / Real.sinh (t * 1) * Real.exp (-(1 / Real.sinh (t * 1)))
  have hs1 : 0 < Real.sinh (t * 1) := Real.sinh_pos_iff.mpr (by linarith)
  have hs4 : 0 < Real.sinh (t * 4) := Real.sinh_pos_iff.mpr (by linarith)
  have hκ : 0 < κ := by positivity
  have hfin := h.measure_norm_ge_lt_top (pow_pos hκ P)
  refine absurd (boxes_volume (P := P)) (ne_of_lt (lt_of_le_of_lt (measure_mono ?_) hfin))
  intro R hR
  obtain ⟨n, hn⟩ := Set.mem_iUnion.mp hR
  refine le_trans ?_ (Real.le_norm_self _)
  have e1 : gExact t oneOscillatorVib R = ∏ p, propagator t 1 (R 0 p) (R 0 (p + 1)) :=
    (gSplit_uncoupled oneOscillatorVib oneOscillator oneOscillator_uncoupled (fun _ => one_pos) t t R).trans (rho_one 1 t R)
  have e2 : rhoExact t stiffOscillator R = ∏ p, propagator t 4 (R 0 p) (R 0 (p + 1)) := rho_one 4 t R
  show κ ^ P ≤ gExact t oneOscillatorVib R ^ 2 / rhoExact t stiffOscillator R
  rw [e1, e2, ← prod_pow, ← prod_div_distrib]
  calc κ ^ P = ∏ _p : Fin P, κ := by simp
    _ ≤ _ := prod_le_prod (fun _ _ => hκ.le) fun p _ => le_sq_div h0 h1 _ _ (by
      have a := hn 0 trivial p trivial
      have b := hn 0 trivial (p + 1) trivial
      rw [abs_le]
      constructor <;> linarith [a.1, a.2, b.1, b.2])

/-- C114 is false of a sampling model that is too stiff: for one oscillator of frequency 1 sampled with one of frequency 4
the reported error times the square root of the number of samples grows beyond all bounds with probability one, at every
temperature, as soon as there are three beads per unit of inverse temperature. -/
theorem C114_stiff_refuted {Ω : Type*} [MeasurableSpace Ω] (μ : Measure Ω) (hP : 3 ≤ P) (eigh : Eigh) (he : EighSpec eigh)
    (beta : ℝ) (hb : Constants.deltaBeta < beta) (hbP : 3 * beta ≤ P) (R : ℕ → Ω → BeadPath 1 P)
    (d : ∀ n, Ω → Stats.Samples n) (hc : Calculation μ eigh beta oneOscillatorVib stiffOscillator R d)
    (T : ℝ) (an : Stats.Analytic) (f : ∀ n, Stats.Samples n → Stats.Estimate) (hf : f ∈ analyses T an) :
    ∀ᵐ ω ∂μ, Tendsto (fun n : ℕ => Real.sqrt n * (f n (d n ω)).Zerr) atTop atTop := by
  have hdb : 0 < Constants.deltaBeta := by norm_num [Constants.deltaBeta]
  have ht := tau_pos (P := P) beta (hdb.trans hb)
  have hP0 : (0 : ℝ) < P := by exact_mod_cast Nat.pos_of_ne_zero (NeZero.ne P)
  refine C114_infinite_spread μ hP eigh he beta hb oneOscillatorVib stiffOscillator (fun _ => one_pos)
    (fun _ => four_pos) (uncoupled_symm _ _ oneOscillator_uncoupled) ?_ (stiff_not_integrable _ ht ?_) R d hc T an f hf
  · exact gSplit_integrable _ _ ht.le ht oneOscillatorVib (fun _ => one_pos) fun _ _ => rfl
  · rw [div_le_iff₀ hP0]; linarith

/-! ### the hypotheses can be met -/

/-- C114: two coupled surfaces sampled with the oscillators of the diagonal: the spread is finite at every temperature and
for every number of beads. -/
example (hP : 3 ≤ P) (eigh : Eigh) (he : EighSpec eigh) (beta : ℝ) (hb : 0 < beta) :
    MemLp (fun R : BeadPath 1 P => ratio beta (twoSurfaces 3) (diagonalRho (twoSurfaces 3)) R) 2
      (sampleLaw P eigh beta (diagonalRho (twoSurfaces 3))) :=
  C114_finite_partial hP eigh he beta hb _ _ (fun _ => one_pos) (fun _ => one_pos)
    (similar_of_same _ (tau_pos beta hb) _ _ (fun _ => one_pos) rfl
      (small_of_linear _ _ (tau_pos beta hb) _ (fun _ => one_pos) fun _ _ => rfl))

/-- the oscillator of the system, displaced -/
def displacedOscillator : Rho 1 1 where
  energy := fun _ => 0
  omega := fun _ => 1
  linear := fun _ _ => 1

/-- C114: an oscillator sampled with a displaced one: all hypotheses of `C114_coverage_partial` hold together. -/
example (hP : 3 ≤ P) : ∃ (eigh : Eigh) (_ : EighSpec eigh) (Ω : Type) (_ : MeasurableSpace Ω) (μ : Measure Ω)
    (R : ℕ → Ω → BeadPath 1 P) (d : ∀ n, Ω → Stats.Samples n), IsProbabilityMeasure μ ∧ iIndepFun R μ ∧
    Calculation μ eigh 1 oneOscillatorVib displacedOscillator R d ∧
    MemLp (fun R : BeadPath 1 P => ratio 1 oneOscillatorVib displacedOscillator R) 2
      (sampleLaw P eigh 1 displacedOscillator) ∧
    ∃ x y : BeadPath 1 P, ratio 1 oneOscillatorVib displacedOscillator x ≠ ratio 1 oneOscillatorVib displacedOscillator y := by
  obtain ⟨eigh, he⟩ := eigh_exists
  obtain ⟨Ω, mΩ, μ, R, d, h1, h2, h3⟩ := exists_independent hP eigh he 1 (by norm_num [Constants.deltaBeta])
    oneOscillatorVib displacedOscillator (fun _ => one_pos) (fun _ => one_pos)
    fun x => uncoupled_symm _ _ oneOscillator_uncoupled x
  have ht := tau_pos (P := P) 1 one_pos
  refine ⟨eigh, he, Ω, mΩ, μ, R, d, h1, h2, h3, C114_finite_partial hP eigh he 1 one_pos _ _ (fun _ => one_pos)
    (fun _ => one_pos) (similar_of_same _ ht _ _ (fun _ => one_pos) rfl
      (small_of_linear _ _ ht _ (fun _ => one_pos) fun _ _ => rfl)), fun _ _ => 0, fun _ _ => -1, ?_⟩
  have hg : ∀ R : BeadPath 1 P, gExact (1 / P) oneOscillatorVib R = ∏ p, propagator (1 / P) 1 (R 0 p) (R 0 (p + 1)) := fun R =>
    (gSplit_uncoupled oneOscillatorVib oneOscillator oneOscillator_uncoupled (fun _ => one_pos) _ _ R).trans (rho_one 1 _ R)
  have hrho : ∀ R : BeadPath 1 P, rhoExact (1 / P) displacedOscillator R
      = ∏ p, (Real.exp (-(1 / P) * (-1 / 2)) * propagator (1 / P) 1 (R 0 p + 1) (R 0 (p + 1) + 1)) := fun R => by
    unfold rhoExact Spec.PIMC.step
    simp [centre, bottom, displacedOscillator]
    norm_num
  intro h
  simp only [ratio, hg, hrho, prod_const, card_univ, Fintype.card_fin, ← div_pow, zero_add, neg_add_cancel] at h
  set t : ℝ := 1 / P
  have hs : 0 < Real.sinh (t * 1) := Real.sinh_pos_iff.mpr (by linarith)
  have hlt : propagator t 1 (-1) (-1) < propagator t 1 0 0 := by
    have := Real.one_lt_cosh.mpr (show t * 1 ≠ 0 by linarith)
    unfold propagator
    refine div_lt_div_of_pos_right (Real.exp_lt_exp.mpr (div_lt_div_of_pos_right ?_ (by positivity)))
      (Real.sqrt_pos.mpr hs)
    linarith
  have heq : propagator t 1 1 1 = propagator t 1 (-1) (-1) := by unfold propagator; norm_num
  have hb : 0 < propagator t 1 (-1) (-1) := propagator_pos _ _ _ _ (by linarith)
  have ha : 0 < propagator t 1 0 0 := hb.trans hlt
  rw [heq] at h
  have hlt' : propagator t 1 (-1) (-1) / (Real.exp (-t * (-1 / 2)) * propagator t 1 0 0)
      < propagator t 1 0 0 / (Real.exp (-t * (-1 / 2)) * propagator t 1 (-1) (-1)) := by
    gcongr
  exact (pow_lt_pow_left₀ hlt' (by positivity) (NeZero.ne P)).ne' h

/-- C114: there are calculations with the oscillator that is too stiff. -/
example (hP : 3 ≤ P) : ∃ (eigh : Eigh) (_ : EighSpec eigh) (Ω : Type) (_ : MeasurableSpace Ω) (μ : Measure Ω)
    (R : ℕ → Ω → BeadPath 1 P) (d : ∀ n, Ω → Stats.Samples n), IsProbabilityMeasure μ ∧
    Calculation μ eigh 1 oneOscillatorVib stiffOscillator R d := by
  obtain ⟨eigh, he⟩ := eigh_exists
  obtain ⟨Ω, mΩ, μ, R, d, h⟩ := exists_calculation hP eigh he 1 (by norm_num [Constants.deltaBeta]) oneOscillatorVib
    stiffOscillator (fun _ => one_pos) (fun _ => four_pos) fun x => uncoupled_symm _ _ oneOscillator_uncoupled x
  exact ⟨eigh, he, Ω, mΩ, μ, R, d, h⟩

end Pibronic.Props.ErrorBars
