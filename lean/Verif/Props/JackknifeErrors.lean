import Verif.Lemmas.DeltaMethod
import Verif.Lemmas.Stats
import Verif.Props.Convergence
import Verif.Props.ErrorBars

set_option autoImplicit false
set_option linter.unusedSectionVars false

/-! # Properties: the jackknife error bars

C115: the jackknife errors of the energy and of the heat capacity are standard errors. -/
namespace Pibronic.Props.JackknifeErrors
open Py Finset Filter Topology Spec.PIMC Pibronic.PIMC Pibronic.Props.PIMC Pibronic.Props.Sampling
  Pibronic.Props.Energy Pibronic.Props.Convergence Pibronic.Props.ErrorBars MeasureTheory ProbabilityTheory

variable {A N P : ℕ} [NeZero A] [NeZero P]

/-! ### what the theorems speak about -/

/-- A reported quantity: the plain estimate, the jackknife estimate, the jackknife error, the value computed from the
three partition functions (at the inverse temperature, above it and below it), and the analytic contribution. -/
structure Quantity where
  plain : Stats.Output → ℝ
  jack : Stats.Output → ℝ
  error : Stats.Output → ℝ
  value : ℝ → ℝ → ℝ → ℝ
  analytic : Stats.Analytic → ℝ

noncomputable def energy : Quantity where
  plain := fun o => o.basic.E
  jack := fun o => o.jk.E
  error := fun o => o.jk.Eerr
  value := energyOf Constants.deltaBeta
  analytic := fun an => an.E

noncomputable def heatCapacity (T : ℝ) : Quantity where
  plain := fun o => o.basic.Cv
  jack := fun o => o.jk.Cv
  error := fun o => o.jk.Cverr
  value := heatOf Constants.boltzman T Constants.deltaBeta
  analytic := fun an => an.Cv

/-- The two jackknife analyses, with the factors they apply to the shifted partition functions. -/
noncomputable def jackknives (T : ℝ) (an : Stats.Analytic) : List ((∀ n, Stats.Samples n → Stats.Output) × ℝ × ℝ) :=
  [(fun _ d => Stats.basicJackknifeAnalysis T d an, 1, 1),
    (fun _ d => Stats.alphaJackknifeAnalysis T d an, an.alphaPlus, an.alphaMinus)]

/-- The three inverse temperatures per bead: the one asked for, the one above it and the one below it. -/
noncomputable def steps (P : ℕ) (beta : ℝ) : Fin 3 → ℝ :=
  ![beta / P, (beta + Constants.deltaBeta) / P, (beta - Constants.deltaBeta) / P]

/-- The ratio of the two integrands at a path, at one of the three inverse temperatures. -/
noncomputable def ratioAt (beta : ℝ) (vib : Vib A N) (rho : Rho A N) (j : Fin 3) (R : BeadPath N P) : ℝ :=
  gSplit (beta / P) (steps P beta j) vib R / rhoExact (beta / P) rho R

/-- The quotient of the integrals, at one of the three inverse temperatures. -/
noncomputable def quotient (P : ℕ) [NeZero P] (beta : ℝ) (vib : Vib A N) (rho : Rho A N) (j : Fin 3) : ℝ :=
  (∫ R : BeadPath N P, gSplit (beta / P) (steps P beta j) vib R) / ∫ R : BeadPath N P, rhoExact (beta / P) rho R

/-- The influence of one path on a quantity: how fast the quantity changes when the three expectations are moved towards
the three ratios at that path. -/
noncomputable def influence (q : Quantity) (w : ℝ × ℝ) (beta : ℝ) (vib : Vib A N) (rho : Rho A N) (R : BeadPath N P) : ℝ :=
  let mix (ε : ℝ) (j : Fin 3) : ℝ := (1 - ε) * quotient P beta vib rho j + ε * ratioAt beta vib rho j R
  deriv (fun ε => q.value (mix ε 0) (mix ε 1 * w.1) (mix ε 2 * w.2)) 0

/-- The three ratios have a finite spread. -/
def FiniteSpread (eigh : Eigh) (beta : ℝ) (vib : Vib A N) (rho : Rho A N) (P : ℕ) [NeZero P] : Prop :=
  ∀ j, MemLp (fun R : BeadPath N P => ratioAt beta vib rho j R) 2 (sampleLaw P eigh beta rho)

/-- As `Similar`, for all three inverse temperatures. -/
def SimilarAround (P : ℕ) (beta : ℝ) (vib : Vib A N) (rho : Rho A N) : Prop :=
  ∃ q : Fin N → Fin N → ℝ, (∀ i j a, ∑ b, |vib.quadratic i j a b| ≤ q i j) ∧
    ∀ i, Real.sinh ((beta + Constants.deltaBeta) / P * vib.omega i) ≤ 2 * Real.sinh (beta / P * rho.omega i) ∧
      Real.tanh (beta / P * rho.omega i / 2) + 2 * (beta / P * ∑ j, (q i j + q j i) / 4)
        < 2 * Real.tanh ((beta - Constants.deltaBeta) / P * vib.omega i / 2)

/-! ### helpers -/

private theorem delta_pos : 0 < Constants.deltaBeta := by norm_num [Constants.deltaBeta]

private theorem steps_pos (beta : ℝ) (hb : Constants.deltaBeta < beta) (j : Fin 3) : 0 < steps P beta j := by
  have hP0 : (0 : ℝ) < P := by exact_mod_cast Nat.pos_of_ne_zero (NeZero.ne P)
  have := delta_pos
  fin_cases j
  · exact div_pos (by linarith) hP0
  · exact div_pos (by linarith) hP0
  · exact div_pos (by linarith) hP0

private theorem steps_le (beta : ℝ) (j : Fin 3) :
    (beta - Constants.deltaBeta) / P ≤ steps P beta j ∧ steps P beta j ≤ (beta + Constants.deltaBeta) / P := by
  have hP0 : (0 : ℝ) < P := by exact_mod_cast Nat.pos_of_ne_zero (NeZero.ne P)
  have := delta_pos
  fin_cases j <;> exact ⟨div_le_div_of_nonneg_right (by linarith) hP0.le, div_le_div_of_nonneg_right (by linarith) hP0.le⟩

private theorem ratioAt_continuous (beta : ℝ) (hb : 0 < beta) (vib : Vib A N) (rho : Rho A N) (hr : ∀ i, 0 < rho.omega i)
    (j : Fin 3) : Continuous fun R : BeadPath N P => ratioAt beta vib rho j R :=
  (gSplit_continuous _ _ vib).div (rho_continuous _ rho) fun R => (rhoExact_pos _ (tau_pos beta hb) rho hr R).ne'

/-- The first and the second difference of the ratios, and the ratio. -/
private noncomputable def parts (w : ℝ × ℝ) (beta : ℝ) (vib : Vib A N) (rho : Rho A N) : Fin 3 → BeadPath N P → ℝ :=
  ![fun R => (ratioAt beta vib rho 1 R * w.1 - ratioAt beta vib rho 2 R * w.2) / (2 * Constants.deltaBeta),
    fun R => (ratioAt beta vib rho 1 R * w.1 - 2 * ratioAt beta vib rho 0 R + ratioAt beta vib rho 2 R * w.2)
      / Constants.deltaBeta ^ 2,
    fun R => ratioAt beta vib rho 0 R]

section
variable (w : ℝ × ℝ) (beta : ℝ) (hb : Constants.deltaBeta < beta) (vib : Vib A N) (rho : Rho A N)
    (hr : ∀ i, 0 < rho.omega i)
include hb hr

private theorem parts_continuous (j : Fin 3) : Continuous (parts (P := P) w beta vib rho j) := by
  have h := ratioAt_continuous (P := P) beta (delta_pos.trans hb) vib rho hr
  fin_cases j
  · exact (((h 1).mul_const _).sub ((h 2).mul_const _)).div_const _
  · exact ((((h 1).mul_const _).sub (continuous_const.mul (h 0))).add ((h 2).mul_const _)).div_const _
  · exact h 0

variable (eigh : Eigh) (h2 : FiniteSpread eigh beta vib rho P)
include h2

private theorem parts_memLp (j : Fin 3) : MemLp (parts (P := P) w beta vib rho j) 2 (sampleLaw P eigh beta rho) := by
  have h := h2
  fin_cases j
  · exact (((h 1).mul_const w.1).sub ((h 2).mul_const w.2)).mul_const (2 * Constants.deltaBeta)⁻¹
  · exact ((((h 1).mul_const w.1).sub ((h 0).const_mul 2)).add ((h 2).mul_const w.2)).mul_const (Constants.deltaBeta ^ 2)⁻¹
  · exact h 0

variable (hP : 3 ≤ P) (he : EighSpec eigh)
include hP he

private theorem parts_mean :
    ∫ R, parts (P := P) w beta vib rho 0 R ∂(sampleLaw P eigh beta rho)
      = (quotient P beta vib rho 1 * w.1 - quotient P beta vib rho 2 * w.2) / (2 * Constants.deltaBeta) ∧
    ∫ R, parts (P := P) w beta vib rho 1 R ∂(sampleLaw P eigh beta rho)
      = (quotient P beta vib rho 1 * w.1 - 2 * quotient P beta vib rho 0 + quotient P beta vib rho 2 * w.2)
        / Constants.deltaBeta ^ 2 ∧
    ∫ R, parts (P := P) w beta vib rho 2 R ∂(sampleLaw P eigh beta rho) = quotient P beta vib rho 0 := by
  have hb0 := delta_pos.trans hb
  have := law_probability hP eigh he beta hb0 rho hr
  have hm : ∀ j, ∫ R, ratioAt (P := P) beta vib rho j R ∂(sampleLaw P eigh beta rho) = quotient P beta vib rho j := fun j =>
    expectation_of_spread hP eigh he beta hb0 vib rho hr _ _ (h2 j)
  have hi : ∀ j, Integrable (fun R : BeadPath N P => ratioAt beta vib rho j R) (sampleLaw P eigh beta rho) := fun j =>
    (h2 j).integrable one_le_two
  have j1 := (hi 1).mul_const w.1
  have j2 := (hi 2).mul_const w.2
  have j0 := (hi 0).const_mul 2
  have j10 : Integrable (fun R : BeadPath N P => ratioAt beta vib rho 1 R * w.1 - 2 * ratioAt beta vib rho 0 R)
    (sampleLaw P eigh beta rho) := j1.sub j0
  refine ⟨?_, ?_, hm 0⟩
  · change ∫ R, (ratioAt (P := P) beta vib rho 1 R * w.1 - ratioAt beta vib rho 2 R * w.2) / (2 * Constants.deltaBeta)
      ∂(sampleLaw P eigh beta rho) = _
    rw [integral_div, integral_sub j1 j2, integral_mul_const, integral_mul_const, hm, hm]
  · change ∫ R, (ratioAt (P := P) beta vib rho 1 R * w.1 - 2 * ratioAt beta vib rho 0 R + ratioAt beta vib rho 2 R * w.2)
      / Constants.deltaBeta ^ 2 ∂(sampleLaw P eigh beta rho) = _
    rw [integral_div, integral_add j10 j2, integral_sub j1 j0, integral_mul_const, integral_mul_const, integral_const_mul,
      hm, hm, hm]

/-- The influence on the energy is what the path contributes to the deviation. -/
private theorem influence_energy (ha : quotient P beta vib rho 0 ≠ 0) :
    influence (P := P) energy w beta vib rho
      = DeltaMethod.firstPart (sampleLaw P eigh beta rho) (parts (P := P) w beta vib rho) := by
  obtain ⟨m0, m1, m2⟩ := parts_mean w beta hb vib rho hr eigh h2 hP he
  funext R
  unfold DeltaMethod.firstPart
  rw [m0, m2]
  have hd := delta_pos.ne'
  have hlin : ∀ j, HasDerivAt (fun ε : ℝ => (1 - ε) * quotient P beta vib rho j + ε * ratioAt beta vib rho j R)
      (-quotient P beta vib rho j + ratioAt beta vib rho j R) 0 := by
    intro j
    have h1 := (((hasDerivAt_id (0 : ℝ)).const_sub 1).mul_const (quotient P beta vib rho j)).add
      ((hasDerivAt_id (0 : ℝ)).mul_const (ratioAt beta vib rho j R))
    convert! h1 using 1
    ring
  have h0 : (1 - (0 : ℝ)) * quotient P beta vib rho 0 + 0 * ratioAt beta vib rho 0 R ≠ 0 := by simpa using ha
  have hE := (((((hlin 1).mul_const w.1).sub ((hlin 2).mul_const w.2)).div_const (2 * Constants.deltaBeta)).neg).div (hlin 0) h0
  have e := hE.deriv
  change deriv _ 0 = _
  refine e.trans ?_
  simp only [parts, Matrix.cons_val_zero, Matrix.cons_val_one, Matrix.cons_val, sub_zero, one_mul, zero_mul, add_zero,
    Pi.sub_apply, Pi.neg_apply]
  field_simp
  ring

private theorem influence_heat (ha : quotient P beta vib rho 0 ≠ 0) (T : ℝ) :
    influence (P := P) (heatCapacity T) w beta vib rho
      = DeltaMethod.secondPart (sampleLaw P eigh beta rho) (parts (P := P) w beta vib rho) (Constants.boltzman * T ^ 2) := by
  obtain ⟨m0, m1, m2⟩ := parts_mean w beta hb vib rho hr eigh h2 hP he
  funext R
  unfold DeltaMethod.secondPart
  rw [m0, m1, m2]
  have hd := delta_pos.ne'
  have hlin : ∀ j, HasDerivAt (fun ε : ℝ => (1 - ε) * quotient P beta vib rho j + ε * ratioAt beta vib rho j R)
      (-quotient P beta vib rho j + ratioAt beta vib rho j R) 0 := by
    intro j
    have h1 := (((hasDerivAt_id (0 : ℝ)).const_sub 1).mul_const (quotient P beta vib rho j)).add
      ((hasDerivAt_id (0 : ℝ)).mul_const (ratioAt beta vib rho j R))
    convert! h1 using 1
    ring
  have h0 : (1 - (0 : ℝ)) * quotient P beta vib rho 0 + 0 * ratioAt beta vib rho 0 R ≠ 0 := by simpa using ha
  have hE := (((((hlin 1).mul_const w.1).sub ((hlin 2).mul_const w.2)).div_const (2 * Constants.deltaBeta)).neg).div (hlin 0) h0
  have hB := (((((hlin 1).mul_const w.1).sub ((hlin 0).const_mul 2)).add ((hlin 2).mul_const w.2)).div_const
    (Constants.deltaBeta ^ 2)).div (hlin 0) h0
  have hC := (hB.sub (hE.pow 2)).div_const (Constants.boltzman * T ^ 2)
  have e := hC.deriv
  change deriv _ 0 = _
  refine e.trans ?_
  simp only [parts, Matrix.cons_val_zero, Matrix.cons_val_one, Matrix.cons_val, sub_zero, one_mul, zero_mul, add_zero,
    Pi.sub_apply, Pi.neg_apply, Pi.div_apply, Pi.add_apply, Nat.cast_ofNat, Nat.add_one_sub_one, pow_one]
  generalize Constants.boltzman * T ^ 2 = κ
  by_cases hκ : κ = 0
  · simp [hκ]
  field_simp
  ring

end

/-- What the jackknife analyses report, from the ratios of the samples. -/
private theorem reported (eigh : Eigh) (he : EighSpec eigh) (beta : ℝ) (hb : Constants.deltaBeta < beta)
    (vib : Vib A N) (rho : Rho A N) (hv : ∀ i, 0 < vib.omega i) (hr : ∀ i, 0 < rho.omega i)
    (hsym : ∀ x, (potential vib x).IsSymm) {Ω : Type*} [MeasurableSpace Ω] (μ : Measure Ω) (R : ℕ → Ω → BeadPath N P)
    (d : ∀ n, Ω → Stats.Samples n) (hc : Calculation μ eigh beta vib rho R d) (T : ℝ) (an : Stats.Analytic)
    (f : ∀ n, Stats.Samples n → Stats.Output) (w : ℝ × ℝ) (hf : (f, w) ∈ jackknives T an) (n : ℕ) (ω : Ω) :
    let X := parts (P := P) w beta vib rho
    let κ := Constants.boltzman * T ^ 2
    ((f n (d n ω)).basic.E = DeltaMethod.first R X n ω + an.E ∧
      (f n (d n ω)).jk.E = ((n : ℝ) * DeltaMethod.first R X n ω
        - ((n : ℝ) - 1) * Stats.npMean (DeltaMethod.firstWithout R X n ω)) + an.E ∧
      (f n (d n ω)).jk.Eerr = Real.sqrt ((n : ℝ) - 1) * Stats.npStd 1 (DeltaMethod.firstWithout R X n ω)) ∧
    ((f n (d n ω)).basic.Cv = DeltaMethod.second R X κ n ω + an.Cv ∧
      (f n (d n ω)).jk.Cv = ((n : ℝ) * DeltaMethod.second R X κ n ω
        - ((n : ℝ) - 1) * Stats.npMean (DeltaMethod.secondWithout R X κ n ω)) + an.Cv ∧
      (f n (d n ω)).jk.Cverr = Real.sqrt ((n : ℝ) - 1) * Stats.npStd 1 (DeltaMethod.secondWithout R X κ n ω)) := by
  intro X κ
  have hst : ∀ k : Fin n, (d n ω).g k / (d n ω).rho k = ratioAt beta vib rho 0 (R k ω) ∧
      (d n ω).gPlus k / (d n ω).rho k = ratioAt beta vib rho 1 (R k ω) ∧
      (d n ω).gMinus k / (d n ω).rho k = ratioAt beta vib rho 2 (R k ω) := by
    intro k
    obtain ⟨s, S, h, hS, h1, h2, h3, h4⟩ := C38_computed_quantities eigh he beta Constants.deltaBeta delta_pos.le hb
      vib rho hv hr hsym (R k ω)
    rw [hc.computed n ω k] at h
    cases h
    simp only at h1 h2 h3 h4
    rw [h1, h2, h3, h4, div_div_div_cancel_right₀ hS.ne', div_div_div_cancel_right₀ hS.ne',
      div_div_div_cancel_right₀ hS.ne']
    exact ⟨rfl, rfl, rfl⟩
  let r : Fin n → ℝ := fun k => ratioAt beta vib rho 0 (R k ω)
  let p : Fin n → ℝ := fun k => ratioAt beta vib rho 1 (R k ω)
  let m : Fin n → ℝ := fun k => ratioAt beta vib rho 2 (R k ω)
  have x0 : ∀ k : Fin n, X 0 (R k ω) = (p k * w.1 - m k * w.2) / (2 * Constants.deltaBeta) := fun _ => rfl
  have x1 : ∀ k : Fin n, X 1 (R k ω) = (p k * w.1 - 2 * r k + m k * w.2) / Constants.deltaBeta ^ 2 := fun _ => rfl
  have x2 : ∀ k : Fin n, X 2 (R k ω) = r k := fun _ => rfl
  have e0 : (fun k : Fin n => (d n ω).g k / (d n ω).rho k) = r := funext fun k => (hst k).1
  have ep : (fun k : Fin n => (d n ω).gPlus k / (d n ω).rho k) = p := funext fun k => (hst k).2.1
  have em : (fun k : Fin n => (d n ω).gMinus k / (d n ω).rho k) = m := funext fun k => (hst k).2.2
  simp only [jackknives, List.mem_cons, List.not_mem_nil, or_false, Prod.mk.injEq] at hf
  rcases hf with ⟨rfl, rfl⟩ | ⟨rfl, rfl⟩
  · have s1 : (fun k : Fin n => ((d n ω).gPlus k - (d n ω).gMinus k) / (d n ω).rho k / (2 * Constants.deltaBeta))
        = fun k : Fin n => X 0 (R k ω) := funext fun k => by
      rw [x0, sub_div, (hst k).2.1, (hst k).2.2, mul_one, mul_one]
    have s2 : (fun k : Fin n => ((d n ω).gPlus k - 2 * (d n ω).g k + (d n ω).gMinus k) / (d n ω).rho k
        / Constants.deltaBeta ^ 2) = fun k : Fin n => X 1 (R k ω) := funext fun k => by
      rw [x1, add_div, sub_div, mul_div_assoc, (hst k).1, (hst k).2.1, (hst k).2.2, mul_one, mul_one]
    have e0' : (fun k : Fin n => (d n ω).g k / (d n ω).rho k) = fun k : Fin n => X 2 (R k ω) := e0
    simp only [Stats.basicJackknifeAnalysis, Stats.calculateBasicPropertyTerms, Stats.calculateJackknifeTerms,
      Stats.estimateBasicProperties, Stats.basicEstimateZ, Stats.basicEstimateE, Stats.basicEstimateCv,
      Stats.estimateJackknife, Stats.addHarmonic, Stats.addHarmonicJk, s1, s2, e0']
    exact ⟨⟨rfl, rfl, rfl⟩, rfl, rfl, rfl⟩
  · have mean0 : (Stats.npMean fun k : Fin n => X 0 (R k ω))
        = (Stats.npMean p * an.alphaPlus - Stats.npMean m * an.alphaMinus) / (2 * Constants.deltaBeta) := by
      simp only [x0, Stats.npMean, Stats.npSum, ← sum_div, sum_sub_distrib, ← sum_mul]
      ring
    have mean1 : (Stats.npMean fun k : Fin n => X 1 (R k ω))
        = (Stats.npMean p * an.alphaPlus - 2 * Stats.npMean r + Stats.npMean m * an.alphaMinus)
          / Constants.deltaBeta ^ 2 := by
      simp only [x1, Stats.npMean, Stats.npSum, ← sum_div, sum_sub_distrib, sum_add_distrib, ← sum_mul, ← mul_sum]
      ring
    have jk0 : ∀ i, Stats.calculateJackknifeTerm (fun k : Fin n => X 0 (R k ω)) i
        = (Stats.calculateJackknifeTerm p i * an.alphaPlus - Stats.calculateJackknifeTerm m i * an.alphaMinus)
          / (2 * Constants.deltaBeta) := by
      intro i
      simp only [x0, Stats.calculateJackknifeTerm, Stats.npSum, ← sum_div, sum_sub_distrib, ← sum_mul]
      ring
    have jk1 : ∀ i, Stats.calculateJackknifeTerm (fun k : Fin n => X 1 (R k ω)) i
        = (Stats.calculateJackknifeTerm p i * an.alphaPlus - 2 * Stats.calculateJackknifeTerm r i
          + Stats.calculateJackknifeTerm m i * an.alphaMinus) / Constants.deltaBeta ^ 2 := by
      intro i
      simp only [x1, Stats.calculateJackknifeTerm, Stats.npSum, ← sum_div, sum_sub_distrib, sum_add_distrib, ← sum_mul,
        ← mul_sum]
      ring
    have w0 : DeltaMethod.firstWithout R X n ω = fun i => -1 * ((Stats.calculateJackknifeTerm p i * an.alphaPlus
        - Stats.calculateJackknifeTerm m i * an.alphaMinus) / (2 * Constants.deltaBeta))
        / Stats.calculateJackknifeTerm r i := funext fun i => by
      rw [DeltaMethod.firstWithout, jk0]; rfl
    have w1 : DeltaMethod.secondWithout R X κ n ω = fun i => ((Stats.calculateJackknifeTerm p i * an.alphaPlus
        - 2 * Stats.calculateJackknifeTerm r i + Stats.calculateJackknifeTerm m i * an.alphaMinus)
        / Constants.deltaBeta ^ 2 / Stats.calculateJackknifeTerm r i - (-1 * ((Stats.calculateJackknifeTerm p i * an.alphaPlus
        - Stats.calculateJackknifeTerm m i * an.alphaMinus) / (2 * Constants.deltaBeta))
        / Stats.calculateJackknifeTerm r i) ^ 2) / κ := funext fun i => by
      rw [DeltaMethod.secondWithout, jk1, w0]; rfl
    rw [w0, w1]
    simp only [DeltaMethod.second, DeltaMethod.first, mean0, mean1]
    simp only [Stats.alphaJackknifeAnalysis, Stats.calculateAlphaTerms, Stats.calculateAlphaJackknifeTerms,
      Stats.estimateBasicProperties, Stats.basicEstimateZ, Stats.basicEstimateE, Stats.basicEstimateCv,
      Stats.estimateJackknife, Stats.addHarmonic, Stats.addHarmonicJk, e0, ep, em]
    exact ⟨⟨rfl, rfl, rfl⟩, rfl, rfl, rfl⟩

/-! ### C115 -/

/-- C115: the three ratios have a finite spread when the sampling model is similar to the system. -/
theorem C115_finite (hP : 3 ≤ P) (eigh : Eigh) (he : EighSpec eigh) (beta : ℝ) (hb : Constants.deltaBeta < beta)
    (vib : Vib A N) (rho : Rho A N) (hv : ∀ i, 0 < vib.omega i) (hr : ∀ i, 0 < rho.omega i)
    (h : SimilarAround P beta vib rho) : FiniteSpread eigh beta vib rho P := by
  obtain ⟨q, h1, h2⟩ := h
  have hb0 := delta_pos.trans hb
  have ht := tau_pos (P := P) beta hb0
  intro j
  obtain ⟨l1, l2⟩ := steps_le (P := P) beta j
  refine (second_moment_at hP eigh he beta hb0 vib rho hr _ _).mpr (sq_div_integrable _ _ _ ht.le
    (steps_pos beta hb j) ht vib hv rho hr q h1 (fun i => le_trans ?_ (h2 i).1) fun i => lt_of_lt_of_le (h2 i).2 ?_)
  · exact Real.sinh_le_sinh.mpr (mul_le_mul_of_nonneg_right l2 (hv i).le)
  · refine mul_le_mul_of_nonneg_left (tanh_le ?_) two_pos.le
    exact div_le_div_of_nonneg_right (mul_le_mul_of_nonneg_right l1 (hv i).le) two_pos.le

section
variable (q : Quantity) (T : ℝ) (hq : q ∈ [energy, heatCapacity T]) (w : ℝ × ℝ) (hP : 3 ≤ P) (eigh : Eigh)
    (he : EighSpec eigh) (beta : ℝ) (hb : Constants.deltaBeta < beta) (vib : Vib A N) (rho : Rho A N)
    (hr : ∀ i, 0 < rho.omega i) (h2 : FiniteSpread eigh beta vib rho P) (ha : quotient P beta vib rho 0 ≠ 0)
include hq hP he hb hr h2 ha

/-- C115: the influence of a path has expectation zero and a finite spread. -/
theorem C115_influence : ∫ R, influence (P := P) q w beta vib rho R ∂(sampleLaw P eigh beta rho) = 0 ∧
    MemLp (influence (P := P) q w beta vib rho) 2 (sampleLaw P eigh beta rho) := by
  have := law_probability hP eigh he beta (delta_pos.trans hb) rho hr
  have hp := parts_memLp w beta hb vib rho hr eigh h2
  have hm2 := (parts_mean w beta hb vib rho hr eigh h2 hP he).2.2
  simp only [List.mem_cons, List.not_mem_nil, or_false] at hq
  rcases hq with rfl | rfl
  · rw [influence_energy w beta hb vib rho hr eigh h2 hP he ha]
    exact ⟨DeltaMethod.firstPart_mean _ _ hp (hm2 ▸ ha), DeltaMethod.firstPart_memLp _ _ hp⟩
  · rw [influence_heat w beta hb vib rho hr eigh h2 hP he ha]
    exact ⟨DeltaMethod.secondPart_mean _ _ hp (hm2 ▸ ha) _, DeltaMethod.secondPart_memLp _ _ hp _⟩

/-- C115: the spread of the influence is not zero unless no path has an influence. -/
theorem C115_spread_pos (hne : ∃ R : BeadPath N P, influence q w beta vib rho R ≠ 0) :
    Var[influence (P := P) q w beta vib rho; sampleLaw P eigh beta rho] ≠ 0 := by
  intro h
  obtain ⟨x, hx⟩ := hne
  obtain ⟨hm, hL⟩ := C115_influence q T hq w hP eigh he beta hb vib rho hr h2 ha
  have hb0 := delta_pos.trans hb
  obtain ⟨hZ, -, hpr, hlaw⟩ := C33_density_is_rho (P := P) hP eigh he beta hb0 rho hr
  have hpos : ∀ R : BeadPath N P, 0 < rhoExact (beta / P) rho R := fun R => rhoExact_pos _ (tau_pos beta hb0) rho hr R
  have hpc := parts_continuous (P := P) w beta hb vib rho hr
  have hcont : Continuous (influence (P := P) q w beta vib rho) := by
    simp only [List.mem_cons, List.not_mem_nil, or_false] at hq
    rcases hq with rfl | rfl
    · rw [influence_energy w beta hb vib rho hr eigh h2 hP he ha]
      exact (((hpc 0).add (continuous_const.mul (hpc 2))).neg).div_const _
    · rw [influence_heat w beta hb vib rho hr eigh h2 hP he ha]
      exact (((hpc 1).sub (continuous_const.mul (hpc 2))).add (continuous_const.mul
        ((hpc 0).add (continuous_const.mul (hpc 2))))).div_const _
  have he0 : eVar[influence (P := P) q w beta vib rho; sampleLaw P eigh beta rho] = 0 := by
    rw [← hL.ofReal_variance_eq, h, ENNReal.ofReal_zero]
  rw [evariance_eq_zero_iff hcont.measurable.aemeasurable, hm] at he0
  have hae : influence (P := P) q w beta vib rho =ᵐ[volume] fun _ => 0 := by
    rw [hlaw] at he0
    have h' := (ae_withDensity_iff (ENNReal.measurable_ofReal.comp
      ((rho_continuous (beta / P) rho).div_const _).measurable)).mp he0
    filter_upwards [h'] with R hR
    exact hR (by simpa using div_pos (hpos R) hZ)
  exact hx (congrFun ((hcont.ae_eq_iff_eq volume continuous_const).mp hae) x)

variable (hv : ∀ i, 0 < vib.omega i) (hsym : ∀ x, (potential vib x).IsSymm)
    {Ω : Type*} [MeasurableSpace Ω] (μ : Measure Ω) (R : ℕ → Ω → BeadPath N P) (d : ∀ n, Ω → Stats.Samples n)
    (hc : Calculation μ eigh beta vib rho R d) (an : Stats.Analytic) (f : ∀ n, Stats.Samples n → Stats.Output)
    (hf : (f, w) ∈ jackknives T an)
include hv hsym hc hf

/-- C115: the jackknife error times the square root of the number of samples settles at the standard deviation of the
influence of a path, with probability one, so the error bar falls like one over that square root. -/
theorem C115_errors_fall : ∀ᵐ ω ∂μ, Tendsto (fun n : ℕ => Real.sqrt n * q.error (f n (d n ω))) atTop
    (𝓝 (Real.sqrt Var[influence (P := P) q w beta vib rho; sampleLaw P eigh beta rho])) := by
  have := law_probability hP eigh he beta (delta_pos.trans hb) rho hr
  have hp := parts_memLp w beta hb vib rho hr eigh h2
  have hpm := fun j => (parts_continuous (P := P) w beta hb vib rho hr j).measurable
  have hm2 := (parts_mean w beta hb vib rho hr eigh h2 hP he).2.2
  have hrep := reported eigh he beta hb vib rho hv hr hsym μ R d hc T an f w hf
  simp only [List.mem_cons, List.not_mem_nil, or_false] at hq
  rcases hq with rfl | rfl
  · rw [influence_energy w beta hb vib rho hr eigh h2 hP he ha]
    filter_upwards [DeltaMethod.first_error μ _ R _ hpm hp hc.measurable hc.law hc.indep (hm2 ▸ ha)] with ω h
    exact h.error.congr fun n => by rw [← (hrep n ω).1.2.2]; rfl
  · rw [influence_heat w beta hb vib rho hr eigh h2 hP he ha]
    filter_upwards [DeltaMethod.second_error μ _ R _ hpm hp hc.measurable hc.law hc.indep (hm2 ▸ ha)
      (Constants.boltzman * T ^ 2)] with ω h
    exact h.error.congr fun n => by rw [← (hrep n ω).2.2.2]; rfl

/-- C115: for many samples the probability that the value which the integrals give lies within `c` jackknife errors of the
plain estimate, and of the jackknife estimate, is the probability that a normal variable lies within `c` standard
deviations. -/
theorem C115_coverage [IsProbabilityMeasure μ] (hind : iIndepFun R μ)
    (hne : ∃ R : BeadPath N P, influence q w beta vib rho R ≠ 0) (c : ℝ) :
    let δ := Constants.deltaBeta
    let G := ∫ R : BeadPath N P, gExact (beta / P) vib R
    let Gp := ∫ R : BeadPath N P, gSplit (beta / P) ((beta + δ) / P) vib R
    let Gm := ∫ R : BeadPath N P, gSplit (beta / P) ((beta - δ) / P) vib R
    ∀ estimate ∈ [q.plain, q.jack],
      Tendsto (fun n : ℕ => μ.real {ω | |estimate (f n (d n ω)) - (q.value G (Gp * w.1) (Gm * w.2) + q.analytic an)|
        ≤ c * q.error (f n (d n ω))}) atTop (𝓝 ((gaussianReal 0 1).real (Set.Icc (-c) c))) := by
  intro δ G Gp Gm estimate hest
  have hb0 := delta_pos.trans hb
  have := law_probability hP eigh he beta hb0 rho hr
  have hZ : 0 < ∫ R : BeadPath N P, rhoExact (beta / P) rho R := (C33_density_is_rho (P := P) hP eigh he beta hb0 rho hr).1
  set Z := ∫ R : BeadPath N P, rhoExact (beta / P) rho R with hZdef
  have hp := parts_memLp w beta hb vib rho hr eigh h2
  have hpm := fun j => (parts_continuous (P := P) w beta hb vib rho hr j).measurable
  obtain ⟨m0, m1, m2⟩ := parts_mean w beta hb vib rho hr eigh h2 hP he
  have ha' : ∫ R, parts (P := P) w beta vib rho 2 R ∂(sampleLaw P eigh beta rho) ≠ 0 := m2 ▸ ha
  have hrep := reported eigh he beta hb vib rho hv hr hsym μ R d hc T an f w hf
  have hvar := C115_spread_pos q T hq w hP eigh he beta hb vib rho hr h2 ha hne
  have q0 : quotient P beta vib rho 0 = G / Z := rfl
  have q1 : quotient P beta vib rho 1 * w.1 = (Gp * w.1) / Z := div_mul_eq_mul_div _ _ _
  have q2 : quotient P beta vib rho 2 * w.2 = (Gm * w.2) / Z := div_mul_eq_mul_div _ _ _
  set X := parts (P := P) w beta vib rho with hX
  set ν := sampleLaw P eigh beta rho with hν
  have vE : -1 * (∫ x, X 0 x ∂ν) / (∫ x, X 2 x ∂ν) = energyOf δ G (Gp * w.1) (Gm * w.2) := by
    rw [m0, m2, q0, q1, q2, ← energyOf_div hZ.ne']
    unfold energyOf
    ring
  have vC : ((∫ x, X 1 x ∂ν) / (∫ x, X 2 x ∂ν) - (-1 * (∫ x, X 0 x ∂ν) / ∫ x, X 2 x ∂ν) ^ 2) / (Constants.boltzman * T ^ 2)
      = heatOf Constants.boltzman T δ G (Gp * w.1) (Gm * w.2) := by
    rw [vE, m1, m2, q0, q1, q2, ← heatOf_div hZ.ne' (G := G), heatOf, energyOf_div hZ.ne']
  simp only [List.mem_cons, List.not_mem_nil, or_false] at hest
  simp only [List.mem_cons, List.not_mem_nil, or_false] at hq
  rcases hq with rfl | rfl
  · rw [influence_energy w beta hb vib rho hr eigh h2 hP he ha] at hvar
    have herr := DeltaMethod.first_error μ ν R X hpm hp hc.measurable hc.law hc.indep ha'
    have hfm := DeltaMethod.first_measurable R X hpm hc.measurable
    have hwm := DeltaMethod.firstWithout_measurable R X hpm hc.measurable
    rcases hest with rfl | rfl
    · have h := DeltaMethod.first_covers μ ν R X hpm hp hc.measurable hc.law hind ha' hvar
        (fun n ω => DeltaMethod.first R X n ω) hfm (Eventually.of_forall fun ω => by simp) c
      rw [vE] at h
      refine h.congr fun n => ?_
      congr 1
      ext ω
      simp only [Set.mem_ofPred_eq, energy, (hrep n ω).1.1, (hrep n ω).1.2.2, add_sub_add_right_eq_sub]
      rfl
    · have h := DeltaMethod.first_covers μ ν R X hpm hp hc.measurable hc.law hind ha' hvar
        (fun n ω => (n : ℝ) * DeltaMethod.first R X n ω - ((n : ℝ) - 1) * Stats.npMean (DeltaMethod.firstWithout R X n ω))
        (fun n => DeltaMethod.corrected_measurable _ (hwm n) _ (hfm n)) (by filter_upwards [herr] with ω h; exact h.centre) c
      rw [vE] at h
      refine h.congr fun n => ?_
      congr 1
      ext ω
      simp only [Set.mem_ofPred_eq, energy, (hrep n ω).1.2.1, (hrep n ω).1.2.2, add_sub_add_right_eq_sub]
      rfl
  · rw [influence_heat w beta hb vib rho hr eigh h2 hP he ha] at hvar
    have herr := DeltaMethod.second_error μ ν R X hpm hp hc.measurable hc.law hc.indep ha' (Constants.boltzman * T ^ 2)
    have hfm := DeltaMethod.second_measurable R X hpm hc.measurable (Constants.boltzman * T ^ 2)
    have hwm := DeltaMethod.secondWithout_measurable R X hpm hc.measurable (Constants.boltzman * T ^ 2)
    rcases hest with rfl | rfl
    · have h := DeltaMethod.second_covers μ ν R X hpm hp hc.measurable hc.law hind ha' _ hvar
        (fun n ω => DeltaMethod.second R X (Constants.boltzman * T ^ 2) n ω) hfm (Eventually.of_forall fun ω => by simp) c
      rw [vC] at h
      refine h.congr fun n => ?_
      congr 1
      ext ω
      simp only [Set.mem_ofPred_eq, heatCapacity, (hrep n ω).2.1, (hrep n ω).2.2.2, add_sub_add_right_eq_sub]
      rfl
    · have h := DeltaMethod.second_covers μ ν R X hpm hp hc.measurable hc.law hind ha' _ hvar
        (fun n ω => (n : ℝ) * DeltaMethod.second R X (Constants.boltzman * T ^ 2) n ω
          - ((n : ℝ) - 1) * Stats.npMean (DeltaMethod.secondWithout R X (Constants.boltzman * T ^ 2) n ω))
        (fun n => DeltaMethod.corrected_measurable _ (hwm n) _ (hfm n)) (by filter_upwards [herr] with ω h; exact h.centre) c
      rw [vC] at h
      refine h.congr fun n => ?_
      congr 1
      ext ω
      simp only [Set.mem_ofPred_eq, heatCapacity, (hrep n ω).2.2.1, (hrep n ω).2.2.2, add_sub_add_right_eq_sub]
      rfl

end

/-! ### the hypotheses can be met -/

private theorem sinh_close {x h : ℝ} (hx : 0 < x) (hx1 : x ≤ 1 / 3) (h0 : 0 < h) (h1 : h ≤ x / 4) :
    Real.sinh (x + h) ≤ 2 * Real.sinh x := by
  have a : Real.sinh (x / 4) ≤ Real.sinh x / 4 := by
    have d1 := Real.sinh_two_mul (x / 2)
    have d2 := Real.sinh_two_mul (x / 4)
    rw [show 2 * (x / 2) = x by ring] at d1
    rw [show 2 * (x / 4) = x / 2 by ring] at d2
    have c1 := Real.one_le_cosh (x / 2)
    have c2 := Real.one_le_cosh (x / 4)
    have s1 : 0 < Real.sinh (x / 2) := Real.sinh_pos_iff.mpr (by linarith)
    have s2 : 0 < Real.sinh (x / 4) := Real.sinh_pos_iff.mpr (by linarith)
    nlinarith
  have b : Real.sinh h ≤ Real.sinh x / 4 := (Real.sinh_le_sinh.mpr h1).trans a
  have c := cosh_small hx hx1
  have c' := cosh_small h0 (by linarith : h ≤ 1 / 3)
  have s : 0 < Real.sinh x := Real.sinh_pos_iff.mpr hx
  have s' : 0 < Real.sinh h := Real.sinh_pos_iff.mpr h0
  rw [Real.sinh_add]
  nlinarith [mul_le_mul_of_nonneg_left c' s.le, mul_le_mul_of_nonneg_right c s'.le]

private theorem tanh_twice {x : ℝ} (hx : 0 < x) : Real.tanh (2 * x) < 2 * Real.tanh x := by
  have s : 0 < Real.sinh x := Real.sinh_pos_iff.mpr hx
  have c := Real.cosh_pos x
  rw [Real.tanh_eq_sinh_div_cosh, Real.tanh_eq_sinh_div_cosh, Real.sinh_two_mul, Real.cosh_two_mul, ← mul_div_assoc,
    div_lt_div_iff₀ (by positivity) c]
  nlinarith [mul_pos s (mul_pos s s)]

/-- Models with unit frequencies and linear couplings are similar to each other. -/
theorem similarAround_unit (hP : 3 ≤ P) (vib : Vib A N) (rho : Rho A N) (hv : ∀ i, vib.omega i = 1)
    (hr : ∀ i, rho.omega i = 1) (hq : ∀ i j, vib.quadratic i j = 0) : SimilarAround P 1 vib rho := by
  have hP0 : (3 : ℝ) ≤ P := by exact_mod_cast hP
  have hx : 0 < 1 / (P : ℝ) := by positivity
  have hx1 : 1 / (P : ℝ) ≤ 1 / 3 := one_div_le_one_div_of_le three_pos hP0
  refine ⟨fun _ _ => 0, fun i j a => by simp [hq], fun i => ⟨?_, ?_⟩⟩
  · rw [hv, hr, mul_one, mul_one, add_div]
    refine sinh_close hx hx1 (div_pos delta_pos (by linarith)) ?_
    rw [div_div, mul_comm, ← div_div, div_le_div_iff_of_pos_right (by linarith)]
    norm_num [Constants.deltaBeta]
  · rw [hv, hr]
    simp only [add_zero, zero_div, sum_const_zero, mul_zero, mul_one]
    have h1 := tanh_twice (x := 1 / P / 4) (by positivity)
    rw [show 2 * (1 / (P : ℝ) / 4) = 1 / P / 2 by ring] at h1
    refine h1.trans_le (mul_le_mul_of_nonneg_left (tanh_le ?_) two_pos.le)
    rw [div_div, div_div, div_le_div_iff₀ (by positivity) (by positivity)]
    have : (4 : ℝ) ≤ 8 * (1 - Constants.deltaBeta) := by norm_num [Constants.deltaBeta]
    nlinarith

/-- C115: two coupled surfaces sampled with the oscillators of the diagonal have a finite spread. -/
example (hP : 3 ≤ P) (eigh : Eigh) (he : EighSpec eigh) :
    FiniteSpread eigh 1 (twoSurfaces 3) (diagonalRho (twoSurfaces 3)) P :=
  C115_finite hP eigh he 1 (by norm_num [Constants.deltaBeta]) _ _ (fun _ => one_pos) (fun _ => one_pos)
    (similarAround_unit hP _ _ (fun _ => rfl) (fun _ => rfl) fun _ _ => rfl)

private theorem two_exponentials {a b k l : ℝ} (h : k < l)
    (hz : ∀ s : ℝ, 0 ≤ s → a * Real.exp (-(l * s)) + b * Real.exp (-(k * s)) = 0) : a = 0 ∧ b = 0 := by
  have h0 := hz 0 le_rfl
  have h1 := hz 1 zero_le_one
  simp only [mul_zero, neg_zero, Real.exp_zero, mul_one] at h0 h1
  have hlt : Real.exp (-l) < Real.exp (-k) := Real.exp_lt_exp.mpr (by linarith)
  have : b * (Real.exp (-k) - Real.exp (-l)) = 0 := by
    linear_combination h1 - Real.exp (-l) * h0
  rcases mul_eq_zero.mp this with h | h
  · exact ⟨by linarith, h⟩
  · linarith

private theorem three_exponentials {a b c k l m : ℝ} (hkl : k < l) (hlm : l < m)
    (hz : ∀ s : ℝ, 0 ≤ s → a * Real.exp (-(m * s)) + b * Real.exp (-(l * s)) + c * Real.exp (-(k * s)) = 0) :
    a = 0 ∧ b = 0 ∧ c = 0 := by
  have lim : ∀ j : ℝ, 0 < j → Tendsto (fun s : ℝ => Real.exp (-(j * s))) atTop (𝓝 0) := fun j hj =>
    Real.tendsto_exp_atBot.comp (tendsto_neg_atTop_atBot.comp (tendsto_id.const_mul_atTop hj))
  have h1 := ((lim (m - k) (by linarith)).const_mul a).add ((lim (l - k) (by linarith)).const_mul b)
  rw [mul_zero, mul_zero, add_zero] at h1
  have hc : -c = 0 := by
    refine tendsto_nhds_unique (tendsto_const_nhds.congr' ?_) h1
    filter_upwards [eventually_ge_atTop 0] with s hs
    have e := hz s hs
    have hk := (Real.exp_pos (-(k * s))).ne'
    have em : Real.exp (-(m * s)) = Real.exp (-((m - k) * s)) * Real.exp (-(k * s)) := by
      rw [← Real.exp_add]; congr 1; ring
    have el : Real.exp (-(l * s)) = Real.exp (-((l - k) * s)) * Real.exp (-(k * s)) := by
      rw [← Real.exp_add]; congr 1; ring
    rw [em, el] at e
    have : (a * Real.exp (-((m - k) * s)) + b * Real.exp (-((l - k) * s)) + c) * Real.exp (-(k * s)) = 0 := by
      linear_combination e
    have := (mul_eq_zero.mp this).resolve_right hk
    linarith
  have hc' : c = 0 := by linarith
  subst hc'
  obtain ⟨h2, h3⟩ := two_exponentials hlm fun s hs => by simpa using hz s hs
  exact ⟨h2, h3, rfl⟩

private theorem oscillator_constant (s t c : ℝ) (ht : 0 < t) :
    gSplit s t oneOscillatorVib (fun _ _ => c : BeadPath 1 P)
      = (Real.sqrt (Real.sinh t))⁻¹ ^ P * Real.exp (-(P * Real.tanh (t / 2) * c ^ 2)) := by
  rw [gSplit_uncoupled oneOscillatorVib oneOscillator oneOscillator_uncoupled (fun _ => one_pos)]
  refine (rho_one 1 t _).trans ?_
  rw [prod_const, card_univ, Fintype.card_fin]
  unfold propagator
  rw [mul_one, div_eq_inv_mul, mul_pow, ← Real.exp_nat_mul, tanh_half t ht]
  congr 2
  have := (Real.sinh_pos_iff.mpr ht).ne'
  field_simp
  ring

/-- No combination of the three ratios vanishes for all paths, for an oscillator sampled with a displaced one. -/
private theorem ratios_independent (hP : 3 ≤ P) {a b c : ℝ}
    (h : ∀ R : BeadPath 1 P, a * ratioAt 1 oneOscillatorVib displacedOscillator 1 R
      + b * ratioAt 1 oneOscillatorVib displacedOscillator 0 R
      + c * ratioAt 1 oneOscillatorVib displacedOscillator 2 R = 0) : a = 0 ∧ c = 0 := by
  have hP0 : (0 : ℝ) < P := by exact_mod_cast (show 0 < P by omega)
  have hb : Constants.deltaBeta < 1 := by norm_num [Constants.deltaBeta]
  have hlt : ∀ {x y : ℝ}, 0 < x → x < y → (P : ℝ) * Real.tanh (x / 2) < P * Real.tanh (y / 2) := by
    intro x y hx hxy
    refine mul_lt_mul_of_pos_left ?_ hP0
    rw [Real.tanh_eq_sinh_div_cosh, Real.tanh_eq_sinh_div_cosh, div_lt_div_iff₀ (Real.cosh_pos _) (Real.cosh_pos _)]
    have : 0 < Real.sinh (y / 2 - x / 2) := Real.sinh_pos_iff.mpr (by linarith)
    rw [Real.sinh_sub] at this
    linarith
  have hs : ∀ j, 0 < steps P 1 j := fun j => steps_pos 1 hb j
  have l1 : steps P 1 2 < steps P 1 0 := by
    change (1 - Constants.deltaBeta) / P < 1 / P
    exact div_lt_div_of_pos_right (by linarith [delta_pos]) hP0
  have l2 : steps P 1 0 < steps P 1 1 := by
    change 1 / (P : ℝ) < (1 + Constants.deltaBeta) / P
    exact div_lt_div_of_pos_right (by linarith [delta_pos]) hP0
  have hM : ∀ j, (Real.sqrt (Real.sinh (steps P 1 j)))⁻¹ ^ P ≠ 0 := fun j =>
    pow_ne_zero _ (inv_ne_zero (Real.sqrt_pos.mpr (Real.sinh_pos_iff.mpr (hs j))).ne')
  obtain ⟨h1, -, h3⟩ := three_exponentials (a := a * (Real.sqrt (Real.sinh (steps P 1 1)))⁻¹ ^ P)
    (b := b * (Real.sqrt (Real.sinh (steps P 1 0)))⁻¹ ^ P) (c := c * (Real.sqrt (Real.sinh (steps P 1 2)))⁻¹ ^ P)
    (hlt (hs 2) l1) (hlt (hs 0) l2) fun s hs' => by
      have e := h fun _ _ => Real.sqrt s
      have hpos := rhoExact_pos (1 / (P : ℝ)) (by positivity) displacedOscillator (fun _ => one_pos)
        (fun _ _ => Real.sqrt s : BeadPath 1 P)
      simp only [ratioAt, oscillator_constant _ _ _ (hs _), Real.sq_sqrt hs'] at e
      rw [← mul_div_assoc, ← mul_div_assoc, ← mul_div_assoc, ← add_div, ← add_div] at e
      linear_combination (div_eq_zero_iff.mp e).resolve_right hpos.ne'
  exact ⟨(mul_eq_zero.mp h1).resolve_right (hM 1), (mul_eq_zero.mp h3).resolve_right (hM 2)⟩

/-- C115: an oscillator sampled with a displaced one: all hypotheses of `C115_coverage` hold together, for both
quantities and without the alpha factors. -/
example (hP : 3 ≤ P) (T : ℝ) (hT : T ≠ 0) (q : Quantity) (hq : q ∈ [energy, heatCapacity T]) :
    ∃ (eigh : Eigh) (_ : EighSpec eigh) (Ω : Type) (_ : MeasurableSpace Ω) (μ : Measure Ω)
    (R : ℕ → Ω → BeadPath 1 P) (d : ∀ n, Ω → Stats.Samples n), IsProbabilityMeasure μ ∧ iIndepFun R μ ∧
    Calculation μ eigh 1 oneOscillatorVib displacedOscillator R d ∧
    FiniteSpread eigh 1 oneOscillatorVib displacedOscillator P ∧ quotient P 1 oneOscillatorVib displacedOscillator 0 ≠ 0 ∧
    ∃ R : BeadPath 1 P, influence q (1, 1) 1 oneOscillatorVib displacedOscillator R ≠ 0 := by
  obtain ⟨eigh, he⟩ := eigh_exists
  have hb : Constants.deltaBeta < 1 := by norm_num [Constants.deltaBeta]
  obtain ⟨Ω, mΩ, μ, R, d, h1, h2, h3⟩ := exists_independent hP eigh he 1 hb
    oneOscillatorVib displacedOscillator (fun _ => one_pos) (fun _ => one_pos)
    fun x => uncoupled_symm _ _ oneOscillator_uncoupled x
  have hfin : FiniteSpread eigh 1 oneOscillatorVib displacedOscillator P :=
    C115_finite hP eigh he 1 hb _ _ (fun _ => one_pos) (fun _ => one_pos)
      (similarAround_unit hP _ _ (fun _ => rfl) (fun _ => rfl) fun _ _ => rfl)
  have hq0 : quotient P 1 oneOscillatorVib displacedOscillator 0 ≠ 0 := by
    refine div_ne_zero ?_ (C33_density_is_rho (P := P) hP eigh he 1 one_pos displacedOscillator fun _ => one_pos).1.ne'
    simp only [gSplit_uncoupled oneOscillatorVib oneOscillator oneOscillator_uncoupled (fun _ => one_pos)]
    exact (C33_density_is_rho (P := P) hP eigh he 1 one_pos oneOscillator fun _ => one_pos).1.ne'
  refine ⟨eigh, he, Ω, mΩ, μ, R, d, h1, h2, h3, hfin, hq0, ?_⟩
  by_contra hcon
  push Not at hcon
  have hd := delta_pos.ne'
  obtain ⟨m0, m1, m2⟩ := parts_mean (P := P) (1, 1) 1 hb oneOscillatorVib displacedOscillator (fun _ => one_pos) eigh hfin hP he
  simp only [List.mem_cons, List.not_mem_nil, or_false] at hq
  rcases hq with rfl | rfl
  · rw [influence_energy (1, 1) 1 hb _ _ (fun _ => one_pos) eigh hfin hP he hq0] at hcon
    unfold DeltaMethod.firstPart at hcon
    rw [m2] at hcon
    generalize -1 * (∫ R, parts (P := P) (1, 1) 1 oneOscillatorVib displacedOscillator 0 R
      ∂(sampleLaw P eigh 1 displacedOscillator)) / _ = e at hcon
    have := (ratios_independent hP (a := 1 / (2 * Constants.deltaBeta)) (b := e) (c := -1 / (2 * Constants.deltaBeta))
      fun R => by
        have := (div_eq_zero_iff.mp (hcon R)).resolve_right hq0
        simp only [parts, Matrix.cons_val_zero, Matrix.cons_val, mul_one] at this
        linear_combination -this).1
    exact absurd this (by positivity)
  · rw [influence_heat (1, 1) 1 hb _ _ (fun _ => one_pos) eigh hfin hP he hq0] at hcon
    unfold DeltaMethod.secondPart at hcon
    rw [m2] at hcon
    generalize -1 * (∫ R, parts (P := P) (1, 1) 1 oneOscillatorVib displacedOscillator 0 R
      ∂(sampleLaw P eigh 1 displacedOscillator)) / _ = e at hcon
    generalize (∫ R, parts (P := P) (1, 1) 1 oneOscillatorVib displacedOscillator 1 R
      ∂(sampleLaw P eigh 1 displacedOscillator)) / _ = b at hcon
    have hκ : Constants.boltzman * T ^ 2 ≠ 0 := mul_ne_zero Stats.boltzman_pos.ne' (pow_ne_zero 2 hT)
    obtain ⟨e1, e2⟩ := ratios_independent hP
      (a := 1 / Constants.deltaBeta ^ 2 + e / Constants.deltaBeta)
      (b := -2 / Constants.deltaBeta ^ 2 - b + 2 * e ^ 2) (c := 1 / Constants.deltaBeta ^ 2 - e / Constants.deltaBeta)
      fun R => by
        have := (div_eq_zero_iff.mp (hcon R)).resolve_right (mul_ne_zero hκ hq0)
        simp only [parts, Matrix.cons_val_zero, Matrix.cons_val_one, Matrix.cons_val, mul_one] at this
        linear_combination this
    have : 0 < 2 / Constants.deltaBeta ^ 2 := by have := delta_pos; positivity
    have e3 : 2 / Constants.deltaBeta ^ 2 = (1 / Constants.deltaBeta ^ 2 + e / Constants.deltaBeta)
      + (1 / Constants.deltaBeta ^ 2 - e / Constants.deltaBeta) := by ring
    rw [e1, e2] at e3
    linarith

end Pibronic.Props.JackknifeErrors
