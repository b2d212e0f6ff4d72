import Verif.Lemmas.Sampling
import Verif.Lemmas.Integrable
import Verif.Lemmas.Circulant
import Verif.Props.PIMC
import Mathlib.Probability.StrongLaw
import Mathlib.Probability.HasLawExists

set_option autoImplicit false
set_option linter.unusedSectionVars false

/-!
Theorems about the sampling distribution (C31-C33) and about what the sampling estimates (C59, C60).
-/
namespace Pibronic.Props.Sampling
open Py Finset Spec.PIMC Pibronic.PIMC Pibronic.Props.PIMC MeasureTheory ProbabilityTheory

section
variable {A N P : ℕ} [NeZero A] [NeZero P]

/-! ### C31 -/

/-- C31: the weights are positive and sum to one. -/
theorem C31_probability (rho : Rho A N) (beta : ℝ) (hb : 0 < beta) (hr : ∀ i, 0 < rho.omega i) :
    (∀ a, 0 < rho.weight beta a) ∧ ∑ a, rho.weight beta a = 1 := by
  have hW := sum_rawWeight_pos rho beta hb hr
  refine ⟨fun a => div_pos (rawWeight_pos rho beta hb hr a) hW, ?_⟩
  unfold Rho.weight
  rw [← sum_div, div_self hW.ne']

/-- C31: the surface with the lower minimum has the larger weight; `bottom` is the value of the
surface at its minimum. -/
theorem C31_lower_minimum_larger_weight (rho : Rho A N) (beta : ℝ) (hb : 0 < beta)
    (hr : ∀ i, 0 < rho.omega i) (a b : Fin A) :
    bottom (rho.energy a) (fun i => rho.linear i a) rho.omega
        ≤ bottom (rho.energy b) (fun i => rho.linear i b) rho.omega
      ↔ rho.weight beta b ≤ rho.weight beta a := by
  have hW := sum_rawWeight_pos rho beta hb hr
  have hS : 0 < ∏ i, Real.sinh (beta * rho.omega i / 2) :=
    prod_pos fun i _ => Real.sinh_pos_iff.mpr (half_pos (mul_pos hb (hr i)))
  rw [rho_bottom rho hr, rho_bottom rho hr]
  unfold Rho.weight
  rw [div_le_div_iff_of_pos_right hW]
  unfold Rho.rawWeight
  rw [div_le_div_iff_of_pos_right hS, Real.exp_le_exp]
  constructor
  · intro h; nlinarith
  · intro h; nlinarith

/-- C31: the ratio of two weights is the Boltzmann factor. -/
theorem C31_boltzmann (rho : Rho A N) (beta : ℝ) (hb : 0 < beta) (hr : ∀ i, 0 < rho.omega i)
    (a b : Fin A) : rho.weight beta a / rho.weight beta b
      = Real.exp (-beta * (bottom (rho.energy a) (fun i => rho.linear i a) rho.omega
          - bottom (rho.energy b) (fun i => rho.linear i b) rho.omega)) := by
  have hW := (sum_rawWeight_pos rho beta hb hr).ne'
  have hS : (∏ i, Real.sinh (beta * rho.omega i / 2)) ≠ 0 :=
    (prod_pos fun i _ => Real.sinh_pos_iff.mpr (half_pos (mul_pos hb (hr i)))).ne'
  rw [rho_bottom rho hr, rho_bottom rho hr]
  unfold Rho.weight
  rw [div_div_div_cancel_right₀ hW]
  unfold Rho.rawWeight
  rw [div_div_div_cancel_right₀ hS, ← Real.exp_sub]
  congr 1; ring

/-- C31: adding a constant to all energies does not change the weights. -/
theorem C31_energy_shift (rho : Rho A N) (beta c : ℝ) (a : Fin A) :
    ({ rho with energy := fun a => rho.energy a + c } : Rho A N).weight beta a = rho.weight beta a := by
  have h : ∀ b, ({ rho with energy := fun a => rho.energy a + c } : Rho A N).rawWeight beta b
      = Real.exp (-beta * c) * rho.rawWeight beta b := by
    intro b
    unfold Rho.rawWeight
    rw [← mul_div_assoc, ← Real.exp_add]
    congr 2
    simp only [Rho.delta]
    ring
  unfold Rho.weight
  simp only [h]
  rw [← mul_sum, mul_div_mul_left _ _ (Real.exp_pos _).ne']

/-! ### C32 -/

/-- C32: with three or more beads the eigenvalues are computed, every inverse covariance is strictly
positive and the standard deviation is its inverse square root; fewer beads are refused. -/
theorem C32_standard_deviations (eigh : Eigh) (he : EighSpec eigh) (t : ℝ) (ht : 0 < t)
    (rho : Rho A N) (hr : ∀ i, 0 < rho.omega i) :
    (P < 3 → circulantEig eigh P = .error .assertion) ∧
    (3 ≤ P → ∃ e, circulantEig eigh P = .ok e ∧ ∀ i (p : Fin P), 0 < invCov (rho.consts t) e.1 i p ∧
      0 < stdDev (rho.consts t) e.1 i p ∧
      stdDev (rho.consts t) e.1 i p ^ 2 * invCov (rho.consts t) e.1 i p = 1) := by
  refine ⟨fun h => if_neg (by omega), fun h => ⟨_, if_pos h, fun i p => ?_⟩⟩
  have hk := invCov_pos h eigh he t ht rho hr i p
  refine ⟨hk, Real.sqrt_pos.mpr (one_div_pos.mpr hk), ?_⟩
  rw [stdDev_sq _ _ _ _ hk, one_div, inv_mul_cancel₀ hk.ne']

/-! ### C33 -/

theorem isProbability_sampleLaw (hP : 3 ≤ P) (eigh : Eigh) (he : EighSpec eigh) (beta : ℝ)
    (hb : 0 < beta) (rho : Rho A N) (hr : ∀ i, 0 < rho.omega i) :
    IsProbabilityMeasure (sampleLaw P eigh beta rho) := by
  obtain ⟨hV, -⟩ := he P (circulant P) (circulant_isSymm P hP)
  constructor
  unfold sampleLaw
  rw [Measure.finsetSum_apply]
  have : ∀ a, (Measure.map (transform (eigh P (circulant P)).2 rho a) (Measure.pi fun i => Measure.pi fun p =>
      gaussianReal 0 (Real.toNNReal (stdDev (rho.consts (beta / P)) (eigh P (circulant P)).1 i p ^ 2)))) Set.univ = 1 := by
    intro a
    rw [Measure.map_apply (transform_preserves _ hV rho a).measurable MeasurableSet.univ, Set.preimage_univ,
      measure_univ]
  simp only [Measure.smul_apply, this, smul_eq_mul, mul_one]
  rw [← ENNReal.ofReal_sum_of_nonneg fun a _ => ((C31_probability rho beta hb hr).1 a).le,
    (C31_probability rho beta hb hr).2, ENNReal.ofReal_one]

theorem density_of_multiple (hP : 3 ≤ P) (eigh : Eigh) (he : EighSpec eigh) (beta : ℝ) (hb : 0 < beta)
    (rho : Rho A N) (hr : ∀ i, 0 < rho.omega i) (c : ℝ) (hc : 0 < c)
    (h : ∀ R : BeadPath N P, rhoExact (beta / P) rho R = c * mixture eigh beta rho R) :
    ∫ R : BeadPath N P, rhoExact (beta / P) rho R = c ∧
      Integrable (fun R : BeadPath N P => rhoExact (beta / P) rho R) ∧
      sampleLaw P eigh beta rho
        = volume.withDensity fun R => ENNReal.ofReal (rhoExact (beta / P) rho R / c) := by
  have hlaw := sampleLaw_eq_mixture hP eigh he beta hb rho hr
  have hprob := isProbability_sampleLaw hP eigh he beta hb rho hr
  have hcont : Continuous fun R : BeadPath N P => rhoExact (beta / P) rho R := by
    unfold rhoExact step propagator
    fun_prop
  have hmix : ∀ R : BeadPath N P, mixture eigh beta rho R = rhoExact (beta / P) rho R / c := fun R => by
    rw [h R, mul_div_cancel_left₀ _ hc.ne']
  have hpos : ∀ R : BeadPath N P, 0 < rhoExact (beta / P) rho R := fun R =>
    rhoExact_pos _ (div_pos hb (by exact_mod_cast Nat.pos_of_ne_zero (NeZero.ne P))) rho hr R
  have hl : ∫⁻ R : BeadPath N P, ENNReal.ofReal (rhoExact (beta / P) rho R / c) = 1 := by
    have := hprob.measure_univ
    rw [hlaw, withDensity_apply _ MeasurableSet.univ, Measure.restrict_univ] at this
    simpa only [hmix] using this
  have hint : Integrable fun R : BeadPath N P => rhoExact (beta / P) rho R / c := by
    refine ⟨(hcont.div_const c).aestronglyMeasurable, ?_⟩
    rw [hasFiniteIntegral_iff_ofReal (Filter.Eventually.of_forall fun R => (div_pos (hpos R) hc).le), hl]
    exact ENNReal.one_lt_top
  have hint' : Integrable fun R : BeadPath N P => rhoExact (beta / P) rho R := by
    have := hint.const_mul c
    refine this.congr (Filter.Eventually.of_forall fun R => ?_)
    simp only
    field_simp
  have hZ : ∫ R : BeadPath N P, rhoExact (beta / P) rho R = c := by
    have h1 : ∫ R : BeadPath N P, rhoExact (beta / P) rho R / c = 1 := by
      rw [integral_eq_lintegral_of_nonneg_ae (Filter.Eventually.of_forall fun R => (div_pos (hpos R) hc).le)
        (hcont.div_const c).aestronglyMeasurable, hl, ENNReal.toReal_one]
    rw [integral_div] at h1
    exact (div_eq_one_iff_eq hc.ne').mp h1
  refine ⟨hZ, hint', ?_⟩
  rw [hlaw]
  simp only [hmix]

/-- C33: the drawn path has a density, and this density is the sampling integrand divided by its
integral. -/
theorem C33_density_is_rho (hP : 3 ≤ P) (eigh : Eigh) (he : EighSpec eigh) (beta : ℝ) (hb : 0 < beta)
    (rho : Rho A N) (hr : ∀ i, 0 < rho.omega i) :
    let Z := ∫ R : BeadPath N P, rhoExact (beta / P) rho R
    0 < Z ∧ Integrable (fun R : BeadPath N P => rhoExact (beta / P) rho R) ∧
      IsProbabilityMeasure (sampleLaw P eigh beta rho) ∧
      sampleLaw P eigh beta rho
        = volume.withDensity fun R => ENNReal.ofReal (rhoExact (beta / P) rho R / Z) := by
  intro Z
  obtain ⟨c, hc, -, h⟩ := rhoExact_eq_mixture hP eigh he beta hb rho hr
  obtain ⟨h1, h2, h3⟩ := density_of_multiple hP eigh he beta hb rho hr c hc h
  have hZ : Z = c := h1
  exact ⟨hZ ▸ hc, h2, isProbability_sampleLaw hP eigh he beta hb rho hr, hZ ▸ h3⟩

/-- C33: what is stored as the denominator of a path `R` is the density of the drawn path at `R` times
the integral of the sampling integrand, up to the factor `S` that `g` carries too.  (Missing: sampling models with more surfaces than the
system, for which it is false, see below.) -/
theorem C33_stored_denominator_partial (hP : 3 ≤ P) (eigh : Eigh) (he : EighSpec eigh) (beta : ℝ) (hb : 0 < beta)
    (vib : Vib A N) (rho : Rho A N) (hv : ∀ i, 0 < vib.omega i) (hr : ∀ i, 0 < rho.omega i)
    (hsym : ∀ x, (potential vib x).IsSymm) :
    ∃ density : BeadPath N P → ℝ, (∀ R, 0 < density R) ∧
      sampleLaw P eigh beta rho = volume.withDensity (fun R => ENNReal.ofReal (density R)) ∧
      ∀ R, ∃ s S, compute eigh (beta / P) vib rho R = .ok s ∧ 0 < S ∧
        s.rho * S = density R * ∫ R' : BeadPath N P, rhoExact (beta / P) rho R' ∧
        s.g * S = gExact (beta / P) vib R := by
  obtain ⟨hZ, -, -, hlaw⟩ := C33_density_is_rho hP eigh he beta hb rho hr
  have ht : 0 < beta / (P : ℝ) := div_pos hb (by exact_mod_cast Nat.pos_of_ne_zero (NeZero.ne P))
  refine ⟨_, fun R => div_pos (rhoExact_pos _ ht rho hr R) hZ, hlaw, fun R => ?_⟩
  obtain ⟨s, S, h, hS, h1, h2, -⟩ := C34_scaling_cancels eigh he _ ht vib rho hv hr hsym R
  refine ⟨s, S, h, hS, ?_, ?_⟩
  · rw [h1, div_mul_cancel₀ _ hS.ne', div_mul_cancel₀ _ hZ.ne']
  · rw [h2, div_mul_cancel₀ _ hS.ne']

/-- C33: a sampling model with fewer surfaces than the system is refused. -/
theorem C33_fewer_surfaces_refused {B : ℕ} [NeZero B] (eigh : Eigh) (t : ℝ) (vib : Vib A N)
    (rho : Rho B N) (hB : B < A) (R : BeadPath N P) :
    compute eigh t vib rho R = .error .index := by
  unfold compute buildO
  rw [if_pos hB]
  rfl

/-- C33 is false for a sampling model with more surfaces than the system: the calculation succeeds and
paths are drawn from all `B` surfaces, but the stored denominator only contains the first `A` ones, so
it is strictly smaller than the sampling integrand. -/
theorem C33_extra_surfaces_refuted {B : ℕ} [NeZero B] (eigh : Eigh) (he : EighSpec eigh) (t : ℝ)
    (ht : 0 < t) (vib : Vib A N) (rho : Rho B N) (hv : ∀ i, 0 < vib.omega i)
    (hr : ∀ i, 0 < rho.omega i) (hsym : ∀ x, (potential vib x).IsSymm) (hB : A < B)
    (R : BeadPath N P) :
    ∃ s S, compute eigh t vib rho R = .ok s ∧ 0 < S ∧ s.g = gExact t vib R / S ∧
      s.rho < rhoExact t rho R / S := by
  let S := ∏ p, scaling (oRho A t rho R) (oVib t vib R) p
  have hS : 0 < S := prod_pos fun p _ => scaling_pos t ht vib hv _ R p
  refine ⟨⟨denominator (oRho A t rho R) / S, gExact t vib R / S⟩, S, ?_, hS, rfl, ?_⟩
  · unfold compute
    rw [buildO_rho t ht rho hr R hB.le, buildO_vib t ht vib hv R, diagonalize_eq eigh vib hv hsym R]
    simp only [bind, Except.bind]
    rw [numerator_scaleO, denominator_scaleO, numerator_oVib eigh he t t vib hsym R]
    rfl
  · simp only
    rw [div_lt_div_iff_of_pos_right hS, denominator_oRho]
    refine sum_lt_sum (fun b _ => ?_) ⟨⟨A, hB⟩, mem_univ _, ?_⟩
    · split
      · exact le_rfl
      · exact (prod_pos fun p _ => step_pos _ _ _ _ ht hr _ _).le
    · rw [if_neg (lt_irrefl A)]
      exact prod_pos fun p _ => step_pos _ _ _ _ ht hr _ _

/-! ### C59 -/

theorem storedRatio_eq (eigh : Eigh) (he : EighSpec eigh) (t : ℝ) (ht : 0 < t) (vib : Vib A N)
    (rho : Rho A N) (hv : ∀ i, 0 < vib.omega i) (hr : ∀ i, 0 < rho.omega i)
    (hsym : ∀ x, (potential vib x).IsSymm) (R : BeadPath N P) :
    storedRatio eigh t vib rho R = gExact t vib R / rhoExact t rho R := by
  obtain ⟨s, S, h, -, -, -, -, h2⟩ := C34_scaling_cancels eigh he t ht vib rho hv hr hsym R
  unfold storedRatio
  rw [h]
  exact h2

/-- C59: the stored ratio is an unbiased estimator of the ratio of the two partition functions: it is
integrable under the law of the drawn path exactly if the system's integrand is integrable, and its
expectation is the quotient of the integrals. -/
theorem C59_unbiased (hP : 3 ≤ P) (eigh : Eigh) (he : EighSpec eigh) (beta : ℝ) (hb : 0 < beta)
    (vib : Vib A N) (rho : Rho A N) (hv : ∀ i, 0 < vib.omega i) (hr : ∀ i, 0 < rho.omega i)
    (hsym : ∀ x, (potential vib x).IsSymm) :
    (Integrable (fun R : BeadPath N P => storedRatio eigh (beta / P) vib rho R) (sampleLaw P eigh beta rho) ↔
      Integrable fun R : BeadPath N P => gExact (beta / P) vib R) ∧
    ∫ R, storedRatio eigh (beta / P) vib rho R ∂(sampleLaw P eigh beta rho)
      = (∫ R : BeadPath N P, gExact (beta / P) vib R) / ∫ R : BeadPath N P, rhoExact (beta / P) rho R := by
  obtain ⟨hZ, -, -, hlaw⟩ := C33_density_is_rho (P := P) hP eigh he beta hb rho hr
  set Z := ∫ R : BeadPath N P, rhoExact (beta / P) rho R
  have ht : 0 < beta / (P : ℝ) := div_pos hb (by exact_mod_cast Nat.pos_of_ne_zero (NeZero.ne P))
  have hcont : Continuous fun R : BeadPath N P => rhoExact (beta / P) rho R := by
    unfold rhoExact step propagator
    fun_prop
  have hpos : ∀ R : BeadPath N P, 0 < rhoExact (beta / P) rho R := fun R => rhoExact_pos _ ht rho hr R
  have hmeas : Measurable fun R : BeadPath N P => ENNReal.ofReal (rhoExact (beta / P) rho R / Z) :=
    ENNReal.measurable_ofReal.comp (hcont.div_const Z).measurable
  have hfin : ∀ᵐ R : BeadPath N P, ENNReal.ofReal (rhoExact (beta / P) rho R / Z) < ⊤ :=
    Filter.Eventually.of_forall fun _ => ENNReal.ofReal_lt_top
  have hval : ∀ R : BeadPath N P, (ENNReal.ofReal (rhoExact (beta / P) rho R / Z)).toReal •
      storedRatio eigh (beta / P) vib rho R = gExact (beta / P) vib R / Z := by
    intro R
    have := (hpos R).ne'
    rw [ENNReal.toReal_ofReal (div_pos (hpos R) hZ).le, storedRatio_eq eigh he _ ht vib rho hv hr hsym,
      smul_eq_mul]
    field_simp
  refine ⟨?_, ?_⟩
  · rw [hlaw, integrable_withDensity_iff_integrable_smul' hmeas hfin]
    simp only [hval]
    refine ⟨fun h => ?_, fun h => h.div_const Z⟩
    refine (h.mul_const Z).congr (Filter.Eventually.of_forall fun R => ?_)
    simp only
    rw [div_mul_cancel₀ _ hZ.ne']
  · rw [hlaw, integral_withDensity_eq_integral_toReal_smul hmeas hfin]
    simp only [hval]
    rw [integral_div]

/-- C59: for a system with linear couplings (no quadratic terms) the integrand is integrable, so the
estimator has a mean. -/
theorem C59_linear_models_integrable (t : ℝ) (ht : 0 < t) (vib : Vib A N) (hv : ∀ i, 0 < vib.omega i)
    (hq : ∀ i j, vib.quadratic i j = 0) : Integrable fun R : BeadPath N P => gExact t vib R :=
  gSplit_integrable t t ht.le ht vib hv hq

/-- C59: the same for a system with quadratic terms that are small against its frequencies. -/
theorem C59_small_quadratic_integrable (t : ℝ) (ht : 0 < t) (vib : Vib A N) (hv : ∀ i, 0 < vib.omega i)
    (hq : SmallQuadratic t t vib) : Integrable fun R : BeadPath N P => gExact t vib R :=
  gSplit_integrable' t t ht.le ht vib hv hq

/-- C59: with sufficiently many beads the quadratic terms are small in this sense as soon as the sum of the bounds of a
mode's terms stays below its frequency. -/
theorem C59_enough_beads (b c : ℝ) (hc : 0 < c) (vib : Vib A N) (hv : ∀ i, 0 < vib.omega i)
    (q : Fin N → Fin N → ℝ) (hq : ∀ i j a, ∑ b, |vib.quadratic i j a b| ≤ q i j)
    (h : ∀ i, b * ∑ j, (q i j + q j i) / 2 < c * vib.omega i) :
    ∀ᶠ P : ℕ in Filter.atTop, SmallQuadratic (b / P) (c / P) vib := by
  have key : ∀ i, ∀ᶠ P : ℕ in Filter.atTop,
      (b / P) * ∑ j, (q i j + q j i) / 4 < Real.tanh (c / P * vib.omega i / 2) := by
    intro i
    have hS : ∑ j, (q i j + q j i) / 4 = (∑ j, (q i j + q j i) / 2) / 2 := by
      rw [sum_div]; exact sum_congr rfl fun j _ => by ring
    have lim : Filter.Tendsto (fun P : ℕ => b * (∑ j, (q i j + q j i) / 4) * Real.cosh (c / P * vib.omega i / 2))
        Filter.atTop (nhds (b * ∑ j, (q i j + q j i) / 4)) := by
      have h0 : Filter.Tendsto (fun P : ℕ => c / (P : ℝ) * vib.omega i / 2) Filter.atTop (nhds 0) := by
        have := ((tendsto_const_div_atTop_nhds_zero_nat c).mul_const (vib.omega i)).div_const 2
        simpa using this
      have := ((Real.continuous_cosh.tendsto 0).comp h0).const_mul (b * ∑ j, (q i j + q j i) / 4)
      simpa [Real.cosh_zero, Function.comp_def] using this
    have hlt : b * ∑ j, (q i j + q j i) / 4 < c * vib.omega i / 2 := by
      have := h i
      rw [hS]; linarith
    filter_upwards [lim.eventually (gt_mem_nhds hlt), Filter.eventually_gt_atTop 0] with P hP hP0
    have hP' : (0 : ℝ) < P := by exact_mod_cast hP0
    have hx : 0 < c / P * vib.omega i / 2 := half_pos (mul_pos (div_pos hc hP') (hv i))
    have h1 : c / P * vib.omega i / 2 ≤ Real.sinh (c / P * vib.omega i / 2) := Real.self_le_sinh_iff.mpr hx.le
    rw [Real.tanh_eq_sinh_div_cosh, lt_div_iff₀ (Real.cosh_pos _)]
    refine lt_of_lt_of_le ?_ h1
    have e1 : b / P * (∑ j, (q i j + q j i) / 4) * Real.cosh (c / P * vib.omega i / 2)
        = (b * (∑ j, (q i j + q j i) / 4) * Real.cosh (c / P * vib.omega i / 2)) / P := by ring
    have e2 : c / P * vib.omega i / 2 = (c * vib.omega i / 2) / P := by ring
    rw [e1, e2]
    rw [e2] at hP
    exact div_lt_div_of_pos_right hP hP'
  filter_upwards [Filter.eventually_all.mpr key] with P hP
  exact ⟨q, hq, hP⟩

/-- One surface and one mode with frequency `w` and a quadratic term `-q`: the potential `(w - q) x ^ 2 / 2`. -/
noncomputable def well (w q : ℝ) : Vib 1 1 := ⟨0, fun _ => w, fun _ => 0, fun _ _ => Matrix.of fun _ _ => -q⟩

private theorem volume_cubes {P : ℕ} : volume (⋃ n : ℕ, (Set.univ.pi fun _ : Fin 1 => Set.univ.pi fun _ : Fin P =>
    Set.Ico (n : ℝ) (n + 1) : Set (BeadPath 1 P))) = ⊤ ∨ P = 0 := by
  rcases Nat.eq_zero_or_pos P with h | h
  · exact Or.inr h
  left
  rw [measure_iUnion]
  · have : ∀ n : ℕ, volume (Set.univ.pi fun _ : Fin 1 => Set.univ.pi fun _ : Fin P => Set.Ico (n : ℝ) (n + 1) : Set (BeadPath 1 P))
        = 1 := by
      intro n
      rw [volume_pi_pi]
      simp only [volume_pi_pi, Real.volume_Ico, add_sub_cancel_left, ENNReal.ofReal_one, prod_const_one]
    simp only [this]
    exact ENNReal.tsum_const_eq_top_of_ne_zero one_ne_zero
  · intro m n hmn
    refine Set.disjoint_left.mpr fun R h1 h2 => hmn ?_
    have a := h1 0 trivial ⟨0, h⟩ trivial
    have b := h2 0 trivial ⟨0, h⟩ trivial
    have h3 : (m : ℝ) < n + 1 := a.1.trans_lt b.2
    have h4 : (n : ℝ) < m + 1 := b.1.trans_lt a.2
    have h5 : m < n + 1 := by exact_mod_cast h3
    have h6 : n < m + 1 := by exact_mod_cast h4
    omega
  · intro n
    exact MeasurableSet.univ_pi fun _ => MeasurableSet.univ_pi fun _ => measurableSet_Ico

/-- C59: the bound on the quadratic terms is sharp.  For one surface and one mode the estimator has a mean exactly if
the quadratic term is small in this sense; otherwise the integral diverges and the averages of the program mean nothing. -/
theorem C59_one_mode_iff (t w q : ℝ) (ht : 0 < t) (hw : 0 < w) (hq : 0 ≤ q) :
    (Integrable fun R : BeadPath 1 P => gExact t (well w q) R) ↔ t * q / 2 < Real.tanh (t * w / 2) := by
  constructor
  · intro hi
    by_contra hlt
    push Not at hlt
    have hu : 0 < t * w := mul_pos ht hw
    have hS := Real.sinh_pos_iff.mpr hu
    rw [tanh_half _ hu] at hlt
    -- the integrand
    have hg : ∀ R : BeadPath 1 P, gExact t (well w q) R
        = ∏ p, (Real.exp (t * q / 2 * R 0 p ^ 2) * propagator t w (R 0 p) (R 0 (p + 1))) := by
      intro R
      have hexp : ∀ p, NormedSpace.exp (-t • remainder (well w q) R p)
          = Matrix.diagonal fun _ : Fin 1 => Real.exp (t * q / 2 * R 0 p ^ 2) := by
        intro p
        have hrem : remainder (well w q) R p = Matrix.diagonal fun _ => -q / 2 * R 0 p ^ 2 := by
          rw [← coupling_folded (well w q) (fun _ => hw.ne')]
          ext a b
          rw [Subsingleton.elim a 0, Subsingleton.elim b 0]
          simp [coupling, Vib.folded, well]
          ring
        rw [hrem, ← Matrix.diagonal_smul, Matrix.exp_diagonal]
        congr 1
        funext i
        rw [Pi.coe_exp, ← Real.exp_eq_exp_ℝ]
        congr 1
        simp
        ring
      unfold gExact gSplit
      simp only [hexp, Matrix.diagonal_mul_diagonal]
      rw [prod_diagonal, Matrix.trace_diagonal, Fin.sum_univ_one]
      refine prod_congr rfl fun p _ => ?_
      simp [step, well, bottom, centre]
    set c := (Real.sqrt (Real.sinh (t * w)))⁻¹ * Real.exp (-(1 / (2 * Real.sinh (t * w)))) with hcdef
    have hc : 0 < c := by positivity
    have hlow : ∀ x y : ℝ, |x - y| ≤ 1 → c * Real.exp ((Real.cosh (t * w) - 1) / (2 * Real.sinh (t * w)) * x ^ 2)
        * Real.exp (-((Real.cosh (t * w) - 1) / (2 * Real.sinh (t * w)) * y ^ 2))
        ≤ Real.exp (t * q / 2 * x ^ 2) * propagator t w x y := by
      intro x y hxy
      have h1 : (x - y) ^ 2 ≤ 1 := by
        have := sq_abs (x - y)
        nlinarith [abs_nonneg (x - y)]
      set α := (Real.cosh (t * w) - 1) / (2 * Real.sinh (t * w)) with hα
      have h2 : propagator t w x y = (Real.sqrt (Real.sinh (t * w)))⁻¹ *
          Real.exp (-α * x ^ 2 - α * y ^ 2 - (x - y) ^ 2 / (2 * Real.sinh (t * w))) := by
        unfold propagator
        rw [div_eq_inv_mul]
        congr 2
        rw [hα]
        field_simp
        ring
      rw [h2, hcdef]
      have h3 : Real.exp (-(1 / (2 * Real.sinh (t * w)))) * Real.exp (α * x ^ 2) * Real.exp (-(α * y ^ 2))
          ≤ Real.exp (t * q / 2 * x ^ 2) * Real.exp (-α * x ^ 2 - α * y ^ 2 - (x - y) ^ 2 / (2 * Real.sinh (t * w))) := by
        rw [← Real.exp_add, ← Real.exp_add, ← Real.exp_add]
        refine Real.exp_le_exp.mpr ?_
        have h4 : (x - y) ^ 2 / (2 * Real.sinh (t * w)) ≤ 1 / (2 * Real.sinh (t * w)) :=
          div_le_div_of_nonneg_right h1 (by positivity)
        have h5 := mul_le_mul_of_nonneg_right hlt (sq_nonneg x)
        linarith
      have h6 := mul_le_mul_of_nonneg_left h3 (inv_nonneg.mpr (Real.sqrt_nonneg (Real.sinh (t * w))))
      calc _ = _ := by ring
        _ ≤ _ := h6
        _ = _ := by ring
    have hsub : (⋃ n : ℕ, (Set.univ.pi fun _ : Fin 1 => Set.univ.pi fun _ : Fin P =>
        Set.Ico (n : ℝ) (n + 1) : Set (BeadPath 1 P))) ⊆ {R | c ^ P ≤ gExact t (well w q) R} := by
      intro R hR
      obtain ⟨n, hn⟩ := Set.mem_iUnion.mp hR
      have hm : ∀ p, (n : ℝ) ≤ R 0 p ∧ R 0 p < n + 1 := fun p => hn 0 trivial p trivial
      have hle : ∀ p, |R 0 p - R 0 (p + 1)| ≤ 1 := by
        intro p
        have := hm p
        have := hm (p + 1)
        rw [abs_le]
        constructor <;> linarith
      change c ^ P ≤ _
      rw [hg]
      refine le_trans (le_of_eq ?_) (prod_le_prod (fun p _ => ?_) fun p _ => hlow _ _ (hle p))
      · rw [prod_mul_distrib, prod_mul_distrib, prod_const, card_univ, Fintype.card_fin]
        have h2 : ∏ p, Real.exp (-((Real.cosh (t * w) - 1) / (2 * Real.sinh (t * w)) * R 0 (p + 1) ^ 2))
            = ∏ p, Real.exp (-((Real.cosh (t * w) - 1) / (2 * Real.sinh (t * w)) * R 0 p ^ 2)) :=
          Equiv.prod_comp (Equiv.addRight (1 : Fin P)) fun p =>
            Real.exp (-((Real.cosh (t * w) - 1) / (2 * Real.sinh (t * w)) * R 0 p ^ 2))
        rw [h2, mul_assoc, ← prod_mul_distrib]
        simp only [← Real.exp_add, add_neg_cancel, Real.exp_zero, prod_const_one, mul_one]
      · positivity
    have h1 := hi.measure_ge_lt_top (pow_pos hc P)
    rcases volume_cubes (P := P) with h2 | h2
    · exact absurd (h2.symm.trans_le (measure_mono hsub)) (not_le.mpr h1)
    · exact NeZero.ne P h2
  · intro h
    exact C59_small_quadratic_integrable t ht (well w q) (fun _ => hw)
      ⟨fun _ _ => q, fun i j a => by simp [well, abs_of_nonneg hq], fun i => by
        simp only [univ_unique, sum_const, card_singleton, one_smul]
        refine lt_of_eq_of_lt ?_ h
        ring⟩

/-- C59: the Z reported by the analysis of `X ≥ 1` drawn paths has the quotient of the integrals as
expectation (the paths need not even be independent). -/
theorem C59_Z_estimate_unbiased {Ω : Type*} [MeasurableSpace Ω] (μ : Measure Ω) {X : ℕ} (hX : 0 < X)
    (hP : 3 ≤ P) (eigh : Eigh) (he : EighSpec eigh) (beta : ℝ) (hb : 0 < beta)
    (vib : Vib A N) (rho : Rho A N) (hv : ∀ i, 0 < vib.omega i) (hr : ∀ i, 0 < rho.omega i)
    (hsym : ∀ x, (potential vib x).IsSymm)
    (hint : Integrable fun R : BeadPath N P => gExact (beta / P) vib R)
    (R : Fin X → Ω → BeadPath N P) (hR : ∀ k, Measurable (R k))
    (hlaw : ∀ k, μ.map (R k) = sampleLaw P eigh beta rho) (d : Ω → Stats.Samples X)
    (hd : ∀ ω k, compute eigh (beta / P) vib rho (R k ω) = .ok ⟨(d ω).rho k, (d ω).g k⟩)
    (T : ℝ) (an : Stats.Analytic) :
    ∫ ω, (Stats.basicStatisticalAnalysis T (d ω) an).Z ∂μ
      = (∫ R : BeadPath N P, gExact (beta / P) vib R) / ∫ R : BeadPath N P, rhoExact (beta / P) rho R := by
  obtain ⟨h1, h2⟩ := C59_unbiased hP eigh he beta hb vib rho hv hr hsym
  have hI := h1.mpr hint
  have hrat : ∀ ω k, (d ω).g k / (d ω).rho k = storedRatio eigh (beta / P) vib rho (R k ω) := by
    intro ω k
    unfold storedRatio
    rw [hd ω k]
  have hZ : ∀ ω, (Stats.basicStatisticalAnalysis T (d ω) an).Z
      = (∑ k, storedRatio eigh (beta / P) vib rho (R k ω)) / X := by
    intro ω
    simp only [Stats.basicStatisticalAnalysis, Stats.addHarmonic, Stats.estimateBasicProperties,
      Stats.basicEstimateZ, Stats.calculateBasicPropertyTerms, Stats.npMean, Stats.npSum, hrat]
  have hk : ∀ k, Integrable (fun ω => storedRatio eigh (beta / P) vib rho (R k ω)) μ := by
    intro k
    have := hI
    rw [← hlaw k] at this
    exact this.comp_measurable (hR k)
  have hE : ∀ k, ∫ ω, storedRatio eigh (beta / P) vib rho (R k ω) ∂μ
      = (∫ R : BeadPath N P, gExact (beta / P) vib R) / ∫ R : BeadPath N P, rhoExact (beta / P) rho R := by
    intro k
    rw [← h2, ← hlaw k]
    have := hI
    rw [← hlaw k] at this
    exact (integral_map (hR k).aemeasurable this.aestronglyMeasurable).symm
  simp only [hZ]
  rw [integral_div, integral_finsetSum _ fun k _ => hk k]
  simp only [hE]
  rw [sum_const, card_univ, Fintype.card_fin, nsmul_eq_mul, mul_div_cancel_left₀]
  exact_mod_cast hX.ne'

/-! ### C60 -/

theorem mean_tendsto {Ω E : Type*} [MeasurableSpace Ω] [MeasurableSpace E] (μ : Measure Ω)
    (ν : Measure E) (R : ℕ → Ω → E) (hR : ∀ k, Measurable (R k)) (hlaw : ∀ k, μ.map (R k) = ν)
    (hind : ∀ j k, j ≠ k → IndepFun (R j) (R k) μ) (F : E → ℝ) (hF : Measurable F) (hI : Integrable F ν) :
    ∀ᵐ ω ∂μ, Filter.Tendsto (fun n : ℕ => Stats.npMean fun k : Fin n => F (R k ω)) Filter.atTop
      (nhds (∫ x, F x ∂ν)) := by
  have hI0 : Integrable (fun ω => F (R 0 ω)) μ := by
    rw [← hlaw 0] at hI
    exact hI.comp_measurable (hR 0)
  have h := strong_law_ae_real (μ := μ) (fun k ω => F (R k ω)) hI0
    (fun j k hjk => (hind j k hjk).comp hF hF)
    (fun k => (IdentDistrib.mk (hR k).aemeasurable (hR 0).aemeasurable ((hlaw k).trans (hlaw 0).symm)).comp hF)
  have hm : ∫ ω, F (R 0 ω) ∂μ = ∫ x, F x ∂ν := by
    rw [← hlaw 0]
    exact (integral_map (hR 0).aemeasurable hF.aestronglyMeasurable).symm
  rw [hm] at h
  filter_upwards [h] with ω hω
  refine hω.congr fun n => ?_
  rw [Stats.npMean, Stats.npSum, Fin.sum_univ_eq_sum_range (fun k => F (R k ω))]

/-- The value of `gSplit` over the sampling integrand, averaged over the law of a path. -/
theorem expectation_gSplit (hP : 3 ≤ P) (eigh : Eigh) (he : EighSpec eigh) (beta : ℝ) (hb : 0 < beta)
    (vib : Vib A N) (rho : Rho A N) (hr : ∀ i, 0 < rho.omega i) (s t : ℝ)
    (hint : Integrable fun R : BeadPath N P => gSplit s t vib R) :
    Integrable (fun R : BeadPath N P => gSplit s t vib R / rhoExact (beta / P) rho R) (sampleLaw P eigh beta rho) ∧
    ∫ R, gSplit s t vib R / rhoExact (beta / P) rho R ∂(sampleLaw P eigh beta rho)
      = (∫ R : BeadPath N P, gSplit s t vib R) / ∫ R : BeadPath N P, rhoExact (beta / P) rho R := by
  obtain ⟨hZ, -, -, hlaw⟩ := C33_density_is_rho (P := P) hP eigh he beta hb rho hr
  set Z := ∫ R : BeadPath N P, rhoExact (beta / P) rho R
  have ht : 0 < beta / (P : ℝ) := div_pos hb (by exact_mod_cast Nat.pos_of_ne_zero (NeZero.ne P))
  have hcont : Continuous fun R : BeadPath N P => rhoExact (beta / P) rho R := by
    unfold rhoExact step propagator
    fun_prop
  have hpos : ∀ R : BeadPath N P, 0 < rhoExact (beta / P) rho R := fun R => rhoExact_pos _ ht rho hr R
  have hmeas : Measurable fun R : BeadPath N P => ENNReal.ofReal (rhoExact (beta / P) rho R / Z) :=
    ENNReal.measurable_ofReal.comp (hcont.div_const Z).measurable
  have hfin : ∀ᵐ R : BeadPath N P, ENNReal.ofReal (rhoExact (beta / P) rho R / Z) < ⊤ :=
    Filter.Eventually.of_forall fun _ => ENNReal.ofReal_lt_top
  have hval : ∀ R : BeadPath N P, (ENNReal.ofReal (rhoExact (beta / P) rho R / Z)).toReal •
      (gSplit s t vib R / rhoExact (beta / P) rho R) = gSplit s t vib R / Z := by
    intro R
    have := (hpos R).ne'
    rw [ENNReal.toReal_ofReal (div_pos (hpos R) hZ).le, smul_eq_mul]
    field_simp
  refine ⟨?_, ?_⟩
  · rw [hlaw, integrable_withDensity_iff_integrable_smul' hmeas hfin]
    simp only [hval]
    exact hint.div_const Z
  · rw [hlaw, integral_withDensity_eq_integral_toReal_smul hmeas hfin]
    simp only [hval]
    rw [integral_div]

theorem energy_limit {a b c : ℕ → ℝ} {Z G Gp Gm δ E : ℝ} (hZ : Z ≠ 0) (hδ : δ ≠ 0) (hG : G ≠ 0)
    (ha : Filter.Tendsto a Filter.atTop (nhds (Gp / Z))) (hb : Filter.Tendsto b Filter.atTop (nhds (Gm / Z)))
    (hc : Filter.Tendsto c Filter.atTop (nhds (G / Z))) :
    Filter.Tendsto (fun n => -1 * ((a n - b n) / (2 * δ)) / c n + E) Filter.atTop
      (nhds (-((Gp - Gm) / (2 * δ)) / G + E)) := by
  have := ((((ha.sub hb).div_const (2 * δ)).const_mul (-1)).div hc (div_ne_zero hG hZ)).add_const E
  have e : -1 * ((Gp / Z - Gm / Z) / (2 * δ)) / (G / Z) + E = -((Gp - Gm) / (2 * δ)) / G + E := by
    field_simp
  rw [e] at this
  exact this

/-- C60: for independent paths drawn by the program the reported Z and E converge with probability one
as the number of samples grows: Z to the quotient of the two integrals, E to minus the symmetric
difference quotient of the integrals of `g+`, `g-` over the integral of `g`, plus the analytic energy. -/
theorem C60_estimates_converge {Ω : Type*} [MeasurableSpace Ω] (μ : Measure Ω)
    (hP : 3 ≤ P) (eigh : Eigh) (he : EighSpec eigh) (beta : ℝ) (hb : Constants.deltaBeta < beta)
    (vib : Vib A N) (rho : Rho A N) (hv : ∀ i, 0 < vib.omega i) (hr : ∀ i, 0 < rho.omega i)
    (hsym : ∀ x, (potential vib x).IsSymm)
    (hq : SmallQuadratic (beta / P) ((beta - Constants.deltaBeta) / P) vib) (R : ℕ → Ω → BeadPath N P) (hR : ∀ k, Measurable (R k))
    (hlaw : ∀ k, μ.map (R k) = sampleLaw P eigh beta rho)
    (hind : ∀ j k, j ≠ k → IndepFun (R j) (R k) μ) (d : ∀ n, Ω → Stats.Samples n)
    (hd : ∀ n ω (k : Fin n), computePM eigh beta Constants.deltaBeta vib rho (R k ω)
      = .ok ⟨(d n ω).rho k, (d n ω).g k, (d n ω).gPlus k, (d n ω).gMinus k⟩)
    (T : ℝ) (an : Stats.Analytic) :
    let Zrho := ∫ R : BeadPath N P, rhoExact (beta / P) rho R
    let G := ∫ R : BeadPath N P, gExact (beta / P) vib R
    let Gp := ∫ R : BeadPath N P, gSplit (beta / P) ((beta + Constants.deltaBeta) / P) vib R
    let Gm := ∫ R : BeadPath N P, gSplit (beta / P) ((beta - Constants.deltaBeta) / P) vib R
    ∀ᵐ ω ∂μ, Filter.Tendsto (fun n => (Stats.basicStatisticalAnalysis T (d n ω) an).Z) Filter.atTop
        (nhds (G / Zrho)) ∧
      (G ≠ 0 → Filter.Tendsto (fun n => (Stats.basicStatisticalAnalysis T (d n ω) an).E) Filter.atTop
        (nhds (-((Gp - Gm) / (2 * Constants.deltaBeta)) / G + an.E))) := by
  intro Zrho G Gp Gm
  have hdb : 0 < Constants.deltaBeta := by norm_num [Constants.deltaBeta]
  have hb0 : 0 < beta := hdb.trans hb
  have hP0 : (0 : ℝ) < P := by exact_mod_cast Nat.pos_of_ne_zero (NeZero.ne P)
  have ht : 0 < beta / P := div_pos hb0 hP0
  have htp : 0 < (beta + Constants.deltaBeta) / P := div_pos (by linarith) hP0
  have htm : 0 < (beta - Constants.deltaBeta) / P := div_pos (by linarith) hP0
  have hZ : 0 < Zrho := (C33_density_is_rho hP eigh he beta hb0 rho hr).1
  have hcont : Continuous fun R : BeadPath N P => rhoExact (beta / P) rho R := by
    unfold rhoExact step propagator
    fun_prop
  have hmeas : ∀ s t, Measurable fun R : BeadPath N P => gSplit s t vib R / rhoExact (beta / P) rho R :=
    fun s t => (gSplit_continuous s t vib).measurable.div hcont.measurable
  have hle : (beta - Constants.deltaBeta) / P ≤ beta / P := div_le_div_of_nonneg_right (by linarith) hP0.le
  have hle' : (beta - Constants.deltaBeta) / P ≤ (beta + Constants.deltaBeta) / P :=
    div_le_div_of_nonneg_right (by linarith) hP0.le
  have key : ∀ t : ℝ, (beta - Constants.deltaBeta) / P ≤ t →
      Integrable (fun R : BeadPath N P => gSplit (beta / P) t vib R / rhoExact (beta / P) rho R)
        (sampleLaw P eigh beta rho) ∧
      ∫ R, gSplit (beta / P) t vib R / rhoExact (beta / P) rho R ∂(sampleLaw P eigh beta rho)
        = (∫ R : BeadPath N P, gSplit (beta / P) t vib R) / Zrho := fun t ht' =>
    expectation_gSplit (P := P) hP eigh he beta hb0 vib rho hr (beta / P) t
      (gSplit_integrable' (beta / P) t ht.le (htm.trans_le ht') vib hv (small_mono ht' vib hv hq))
  have l0 := mean_tendsto μ _ R hR hlaw hind _ (hmeas (beta / P) (beta / P)) (key _ hle).1
  have lp := mean_tendsto μ _ R hR hlaw hind _ (hmeas (beta / P) _) (key _ hle').1
  have lm := mean_tendsto μ _ R hR hlaw hind _ (hmeas (beta / P) _) (key _ le_rfl).1
  rw [(key _ hle).2] at l0
  rw [(key _ hle').2] at lp
  rw [(key _ le_rfl).2] at lm
  -- the stored ratios
  have hst : ∀ n ω (k : Fin n),
      (d n ω).g k / (d n ω).rho k = gSplit (beta / P) (beta / P) vib (R k ω) / rhoExact (beta / P) rho (R k ω) ∧
      (d n ω).gPlus k / (d n ω).rho k = gSplit (beta / P) ((beta + Constants.deltaBeta) / P) vib (R k ω)
        / rhoExact (beta / P) rho (R k ω) ∧
      (d n ω).gMinus k / (d n ω).rho k = gSplit (beta / P) ((beta - Constants.deltaBeta) / P) vib (R k ω)
        / rhoExact (beta / P) rho (R k ω) := by
    intro n ω k
    obtain ⟨s, S, h, hS, h1, h2, h3, h4⟩ := C38_computed_quantities eigh he beta Constants.deltaBeta hdb.le hb
      vib rho hv hr hsym (R k ω)
    rw [hd n ω k] at h
    cases h
    simp only at h1 h2 h3 h4
    rw [h1, h2, h3, h4, div_div_div_cancel_right₀ hS.ne', div_div_div_cancel_right₀ hS.ne',
      div_div_div_cancel_right₀ hS.ne']
    exact ⟨rfl, rfl, rfl⟩
  filter_upwards [l0, lp, lm] with ω h0 hp hm
  have hZn : ∀ n, (Stats.basicStatisticalAnalysis T (d n ω) an).Z
      = Stats.npMean fun k : Fin n => gSplit (beta / P) (beta / P) vib (R k ω) / rhoExact (beta / P) rho (R k ω) := by
    intro n
    simp only [Stats.basicStatisticalAnalysis, Stats.addHarmonic, Stats.estimateBasicProperties,
      Stats.basicEstimateZ, Stats.calculateBasicPropertyTerms, (hst n ω _).1]
  have hEn : ∀ n, (Stats.basicStatisticalAnalysis T (d n ω) an).E
      = -1 * (((Stats.npMean fun k : Fin n => gSplit (beta / P) ((beta + Constants.deltaBeta) / P) vib (R k ω)
          / rhoExact (beta / P) rho (R k ω))
        - Stats.npMean fun k : Fin n => gSplit (beta / P) ((beta - Constants.deltaBeta) / P) vib (R k ω)
          / rhoExact (beta / P) rho (R k ω)) / (2 * Constants.deltaBeta))
        / (Stats.npMean fun k : Fin n => gSplit (beta / P) (beta / P) vib (R k ω)
          / rhoExact (beta / P) rho (R k ω)) + an.E := by
    intro n
    simp only [Stats.basicStatisticalAnalysis, Stats.addHarmonic, Stats.estimateBasicProperties,
      Stats.basicEstimateZ, Stats.basicEstimateE, Stats.calculateBasicPropertyTerms, sub_div, (hst n ω _).1,
      (hst n ω _).2.1, (hst n ω _).2.2]
    simp only [Stats.npMean, Stats.npSum, sum_sub_distrib, sub_div, sum_div]
    congr 4
    · exact sum_congr rfl fun _ _ => div_right_comm _ _ _
    · exact sum_congr rfl fun _ _ => div_right_comm _ _ _
  refine ⟨?_, fun hG => ?_⟩
  · simp only [hZn]
    exact h0
  · simp only [hEn]
    exact energy_limit hZ.ne' hdb.ne' hG hp hm h0

/-! ### C61 -/

/-- The partition function of displaced harmonic oscillators with energies `e`, linear terms `l` and
frequencies `w`: the textbook formula. -/
noncomputable def harmonicZ (beta : ℝ) (rho : Rho A N) : ℝ :=
  ∑ a, Real.exp (-beta * (rho.energy a - ∑ i, rho.linear i a ^ 2 / (2 * rho.omega i)))
    * ∏ i, (2 * Real.sinh (beta * rho.omega i / 2))⁻¹

/-- C61: the integral of the sampling integrand is the harmonic partition function times
`sqrt(2 pi)` for every coordinate (the factor left out of the propagators), for every number of
beads.  The harmonic part carries no discretisation error. -/
theorem C61_sampling_integral (hP : 3 ≤ P) (beta : ℝ) (hb : 0 < beta) (rho : Rho A N)
    (hr : ∀ i, 0 < rho.omega i) :
    ∫ R : BeadPath N P, rhoExact (beta / P) rho R
      = Real.sqrt (2 * Real.pi) ^ (N * P) * harmonicZ beta rho := by
  obtain ⟨eigh, he⟩ := eigh_exists
  obtain ⟨c, hc, hceq, h⟩ := rhoExact_eq_mixture hP eigh he beta hb rho hr
  rw [(density_of_multiple hP eigh he beta hb rho hr c hc h).1, hceq]
  have hP0 : (0 : ℝ) < P := by exact_mod_cast Nat.pos_of_ne_zero (NeZero.ne P)
  have ht : 0 < beta / P := div_pos hb hP0
  have hK := fun i => mode_constant hP eigh he (beta / P) ht rho hr i
  simp only [hK]
  have hsb : ∀ i, 0 < Real.sinh (beta * rho.omega i / 2) := fun i =>
    Real.sinh_pos_iff.mpr (half_pos (mul_pos hb (hr i)))
  have e1 : ∀ i, (P : ℝ) * (beta / P * rho.omega i) / 2 = beta * rho.omega i / 2 := by
    intro i; field_simp
  simp only [e1]
  unfold harmonicZ
  rw [mul_sum, mul_sum]
  refine sum_congr rfl fun a _ => ?_
  have hb' := rho_bottom rho hr a
  unfold bottom at hb'
  rw [hb', Rho.rawWeight, prod_div_distrib, prod_const, card_univ, Fintype.card_fin, ← pow_mul, mul_comm P N,
    prod_inv_distrib]
  have hne := (prod_pos fun i (_ : i ∈ (univ : Finset (Fin N))) => hsb i).ne'
  have hne2 : (∏ i, 2 * Real.sinh (beta * rho.omega i / 2)) ≠ 0 :=
    (prod_pos fun i (_ : i ∈ (univ : Finset (Fin N))) => mul_pos two_pos (hsb i)).ne'
  field_simp

/-- C61: so the expectation of the stored ratio times the analytic partition function of the sampling
model is the discretised partition function of the system. -/
theorem C61_ratio_times_analytic (hP : 3 ≤ P) (eigh : Eigh) (he : EighSpec eigh) (beta : ℝ) (hb : 0 < beta)
    (vib : Vib A N) (rho : Rho A N) (hv : ∀ i, 0 < vib.omega i) (hr : ∀ i, 0 < rho.omega i)
    (hsym : ∀ x, (potential vib x).IsSymm) :
    (∫ R, storedRatio eigh (beta / P) vib rho R ∂(sampleLaw P eigh beta rho)) * harmonicZ beta rho
      = (∫ R : BeadPath N P, gExact (beta / P) vib R) / Real.sqrt (2 * Real.pi) ^ (N * P) := by
  have hZ := (C33_density_is_rho (P := P) hP eigh he beta hb rho hr).1
  rw [(C59_unbiased hP eigh he beta hb vib rho hv hr hsym).2, C61_sampling_integral hP beta hb rho hr]
  simp only [C61_sampling_integral hP beta hb rho hr] at hZ
  have h2 : (0 : ℝ) < Real.sqrt (2 * Real.pi) ^ (N * P) := pow_pos (Real.sqrt_pos.mpr (by positivity)) _
  have h3 : harmonicZ beta rho ≠ 0 := by
    intro h0
    rw [h0, mul_zero] at hZ
    exact lt_irrefl _ hZ
  field_simp

end

/-! ### the hypotheses can be met -/

/-- a linear vibronic coupling model -/
noncomputable def lvc : Vib 2 2 := { demoVib with quadratic := fun _ _ => 0 }

theorem lvc_symm : ∀ x, (potential lvc x).IsSymm := by
  intro x
  ext a b
  fin_cases a <;> fin_cases b <;>
    simp [potential, lvc, demoVib, Fin.sum_univ_two, Matrix.transpose_apply]

/-- C33, C59, C61: the coupled model `lvc` sampled with its own diagonal, any number of beads. -/
example (P : ℕ) [NeZero P] (hP : 3 ≤ P) (eigh : Eigh) (he : EighSpec eigh) :
    Integrable (fun R : BeadPath 2 P => storedRatio eigh (1 / P) lvc (diagonalRho lvc) R)
      (sampleLaw P eigh 1 (diagonalRho lvc)) := by
  have hP0 : (0 : ℝ) < P := by exact_mod_cast Nat.pos_of_ne_zero (NeZero.ne P)
  exact (C59_unbiased hP eigh he 1 one_pos lvc (diagonalRho lvc) demoVib_omega demoVib_omega lvc_symm).1.mpr
    (C59_linear_models_integrable _ (div_pos one_pos hP0) lvc demoVib_omega fun _ _ => rfl)

/-- a model with linear and quadratic couplings -/
noncomputable def qvc : Vib 2 2 := { demoVib with quadratic := fun _ _ => !![0.01, 0.01; 0.01, 0.02] }

/-- C59, C60: its quadratic terms are small when the number of beads is large. -/
example : ∀ᶠ P : ℕ in Filter.atTop, SmallQuadratic (1 / P : ℝ) ((1 - Constants.deltaBeta) / P) qvc := by
  refine C59_enough_beads 1 (1 - Constants.deltaBeta) (by norm_num [Constants.deltaBeta]) qvc demoVib_omega
    (fun _ _ => 0.03) (fun i j a => ?_) fun i => ?_
  · fin_cases a <;> norm_num [qvc, Fin.sum_univ_two]
  · fin_cases i <;> norm_num [qvc, demoVib, Fin.sum_univ_two, Constants.deltaBeta]

/-- C60: independent paths with the law of the program exist, and the calculation succeeds on all of
them, so the hypotheses of C60 (and of the estimate in C59) can be met. -/
example (P : ℕ) [NeZero P] (hP : 3 ≤ P) : ∃ (eigh : Eigh) (_ : EighSpec eigh) (Ω : Type)
    (_ : MeasurableSpace Ω) (μ : Measure Ω) (R : ℕ → Ω → BeadPath 2 P) (d : ∀ n, Ω → Stats.Samples n),
    (∀ k, Measurable (R k)) ∧ (∀ k, μ.map (R k) = sampleLaw P eigh 1 (diagonalRho lvc)) ∧
    (∀ j k, j ≠ k → IndepFun (R j) (R k) μ) ∧
    ∀ n ω (k : Fin n), computePM eigh 1 Constants.deltaBeta lvc (diagonalRho lvc) (R k ω)
      = .ok ⟨(d n ω).rho k, (d n ω).g k, (d n ω).gPlus k, (d n ω).gMinus k⟩ := by
  obtain ⟨eigh, he⟩ := eigh_exists
  have := isProbability_sampleLaw hP eigh he 1 one_pos (diagonalRho lvc) demoVib_omega
  obtain ⟨Ω, mΩ, μ, R, h1, h2, h3, -⟩ := exists_iid ℕ (sampleLaw P eigh 1 (diagonalRho lvc))
  have hs := fun R : BeadPath 2 P => C38_computed_quantities eigh he 1 Constants.deltaBeta
    (by norm_num [Constants.deltaBeta]) (by norm_num [Constants.deltaBeta]) lvc (diagonalRho lvc)
    demoVib_omega demoVib_omega lvc_symm R
  choose s _ hs _ using hs
  exact ⟨eigh, he, Ω, mΩ, μ, R, fun n ω => ⟨fun k => (s (R k ω)).rho, fun k => (s (R k ω)).g,
    fun k => (s (R k ω)).gPlus, fun k => (s (R k ω)).gMinus⟩, h1, fun k => (h2 k).map_eq,
    fun j k hjk => h3.indepFun hjk, fun n ω k => hs _⟩

/-- C31: two surfaces with different minima. -/
example : (diagonalRho lvc).weight 1 1 ≤ (diagonalRho lvc).weight 1 0 := by
  rw [← C31_lower_minimum_larger_weight (diagonalRho lvc) 1 one_pos demoVib_omega]
  simp [bottom, diagonalRho, lvc, demoVib, Fin.sum_univ_two]

end Pibronic.Props.Sampling
