import Verif.Lemmas.JackknifeLimit
import Verif.Props.Sampling

set_option autoImplicit false
set_option linter.unusedSectionVars false

/-!
C60 for all quantities of all analyses: Z, E, Cv and their errors, plain and jackknife, with and without
the alpha factors.
-/
namespace Pibronic.Props.Convergence
open Py Finset Filter Topology Spec.PIMC Pibronic.PIMC Pibronic.Props.PIMC Pibronic.Props.Sampling MeasureTheory ProbabilityTheory

/-! ### what the theorems speak about -/

/-- Minus the symmetric difference quotient of `ln Z`, with the three values of `Z`. -/
noncomputable def energyOf (δ G Gp Gm : ℝ) : ℝ := -((Gp - Gm) / (2 * δ)) / G

/-- The heat capacity from the difference quotients of `Z`, Boltzmann's constant and the temperature. -/
noncomputable def heatOf (k T δ G Gp Gm : ℝ) : ℝ :=
  ((Gp - 2 * G + Gm) / δ ^ 2 / G - energyOf δ G Gp Gm ^ 2) / (k * T ^ 2)

/-- The reported values settle: the estimates tend to the given values, the errors to zero. -/
structure Settles (o : ∀ n : ℕ, Stats.Output) (z e c : ℝ) : Prop where
  Z : Tendsto (fun n => (o n).basic.Z) atTop (𝓝 z)
  Zerr : Tendsto (fun n => (o n).basic.Zerr) atTop (𝓝 0)
  E : Tendsto (fun n => (o n).basic.E) atTop (𝓝 e)
  Cv : Tendsto (fun n => (o n).basic.Cv) atTop (𝓝 c)
  jkE : Tendsto (fun n => (o n).jk.E) atTop (𝓝 e)
  jkEerr : Tendsto (fun n => (o n).jk.Eerr) atTop (𝓝 0)
  jkCv : Tendsto (fun n => (o n).jk.Cv) atTop (𝓝 c)
  jkCverr : Tendsto (fun n => (o n).jk.Cverr) atTop (𝓝 0)

/-! ### helpers -/

theorem energyOf_div {δ G Gp Gm Z : ℝ} (hZ : Z ≠ 0) :
    energyOf δ (G / Z) (Gp / Z) (Gm / Z) = energyOf δ G Gp Gm := by
  unfold energyOf
  rw [← sub_div, div_right_comm, ← neg_div, div_div_div_cancel_right₀ hZ]

theorem heatOf_div {k T δ G Gp Gm Z : ℝ} (hZ : Z ≠ 0) :
    heatOf k T δ (G / Z) (Gp / Z) (Gm / Z) = heatOf k T δ G Gp Gm := by
  unfold heatOf
  rw [energyOf_div hZ, show Gp / Z - 2 * (G / Z) + Gm / Z = (Gp - 2 * G + Gm) / Z by ring, div_right_comm _ Z,
    div_div_div_cancel_right₀ hZ]

/-- The jackknife error vanishes. -/
private theorem error_limit {v : ℕ → ℝ} {L : ℝ} {f : ∀ n, Fin n → ℝ} (h : Stats.Jack v L f) :
    Tendsto (fun n : ℕ => Real.sqrt ((n : ℝ) - 1) * Stats.npStd 1 (f n)) atTop (𝓝 0) := by
  have hs : Tendsto (fun n => Real.sqrt (∑ i, (f n i - v n) ^ 2)) atTop (𝓝 0) := by
    have := h.squares.sqrt
    rwa [Real.sqrt_zero] at this
  refine squeeze_zero' (Eventually.of_forall fun n => mul_nonneg (Real.sqrt_nonneg _) (Real.sqrt_nonneg _)) ?_ hs
  filter_upwards [eventually_ge_atTop 2] with n hn
  have hn' : (2 : ℝ) ≤ n := by exact_mod_cast hn
  unfold Stats.npStd
  rw [← Real.sqrt_mul (by linarith), mul_div_cancel₀ _ (by linarith)]
  refine Real.sqrt_le_sqrt ?_
  set m := Stats.npMean (f n) with hm
  have hsum : ∑ i, f n i = n * m := by
    rw [hm, Stats.npMean, Stats.npSum]
    field_simp
  have e : ∑ i, (f n i - v n) ^ 2 = ∑ i, (f n i - m) ^ 2 + n * (m - v n) ^ 2 := by
    have h1 : ∀ i, (f n i - v n) ^ 2 = (f n i - m) ^ 2 + (2 * (m - v n)) * (f n i - m) + (m - v n) ^ 2 := by
      intro i; ring
    simp only [h1]
    rw [sum_add_distrib, sum_add_distrib, ← mul_sum, sum_sub_distrib, hsum, sum_const, sum_const, card_univ,
      Fintype.card_fin, nsmul_eq_mul, nsmul_eq_mul]
    ring
  rw [e]
  have : 0 ≤ (n : ℝ) * (m - v n) ^ 2 := by positivity
  linarith

/-- The error of Z vanishes. -/
private theorem zerr_limit {x : ℕ → ℝ} {m a : ℝ}
    (hm : Tendsto (fun n : ℕ => Stats.npMean fun k : Fin n => x k) atTop (𝓝 m))
    (ha : Tendsto (fun n : ℕ => Stats.npMean fun k : Fin n => |x k|) atTop (𝓝 a)) :
    Tendsto (fun n : ℕ => Stats.npStd 0 (fun k : Fin n => x k) / Real.sqrt ((n : ℝ) - 1)) atTop (𝓝 0) := by
  have h := Stats.jack_term hm ha
  have hs : Tendsto (fun n : ℕ => Real.sqrt (∑ i : Fin n, (Stats.calculateJackknifeTerm (fun k : Fin n => x k) i
      - Stats.npMean fun k : Fin n => x k) ^ 2)) atTop (𝓝 0) := by
    have := h.squares.sqrt
    rwa [Real.sqrt_zero] at this
  refine squeeze_zero' (Eventually.of_forall fun n => div_nonneg (Real.sqrt_nonneg _) (Real.sqrt_nonneg _)) ?_ hs
  filter_upwards [eventually_ge_atTop 2] with n hn
  have hn' : (2 : ℝ) ≤ n := by exact_mod_cast hn
  have h1 : (0 : ℝ) < n - 1 := by linarith
  unfold Stats.npStd
  rw [← Real.sqrt_div' _ h1.le]
  refine Real.sqrt_le_sqrt ?_
  have e : ∀ i : Fin n, Stats.calculateJackknifeTerm (fun k : Fin n => x k) i - (Stats.npMean fun k : Fin n => x k)
      = -(x i - Stats.npMean fun k : Fin n => x k) / ((n : ℝ) - 1) := by
    intro i
    simp only [Stats.calculateJackknifeTerm, Stats.npMean]
    field_simp
    ring
  simp only [e, div_pow, neg_sq]
  rw [← sum_div, sub_zero, div_div]
  refine div_le_div_of_nonneg_left (sum_nonneg fun i _ => sq_nonneg _) (by positivity) ?_
  nlinarith

/-- The averages of the three ratios over the samples settle. -/
private structure Means (r : ℕ → ℝ) (L : ℝ) : Prop where
  mean : Tendsto (fun n : ℕ => Stats.npMean fun k : Fin n => r k) atTop (𝓝 L)
  abs : ∃ a, Tendsto (fun n : ℕ => Stats.npMean fun k : Fin n => |r k|) atTop (𝓝 a)

private theorem Means.jack {r : ℕ → ℝ} {L : ℝ} (h : Means r L) :
    Stats.Jack (fun n => Stats.npMean fun k : Fin n => r k) L fun n => Stats.calculateJackknifeTerm fun k : Fin n => r k := by
  obtain ⟨a, ha⟩ := h.abs
  exact Stats.jack_term h.mean ha

/-- E and Cv from the three averages, and from the averages without one sample. -/
private theorem jack_E {r p m : ℕ → ℝ} {a b c : ℝ} (hr : Means r a) (hp : Means p b) (hm : Means m c) (ha : a ≠ 0)
    (δ x y : ℝ) :
    Stats.Jack (fun n => -1 * (((Stats.npMean fun k : Fin n => p k) * x - (Stats.npMean fun k : Fin n => m k) * y)
        / (2 * δ)) / Stats.npMean fun k : Fin n => r k) (energyOf δ a (b * x) (c * y))
      fun n i => -1 * ((Stats.calculateJackknifeTerm (fun k : Fin n => p k) i * x
        - Stats.calculateJackknifeTerm (fun k : Fin n => m k) i * y) / (2 * δ))
        / Stats.calculateJackknifeTerm (fun k : Fin n => r k) i := by
  have := ((((hp.jack.const_mul x).sub (hm.jack.const_mul y)).div_const (2 * δ)).const_mul (-1)).div hr.jack ha
  have e : -1 * ((x * b - y * c) / (2 * δ)) / a = energyOf δ a (b * x) (c * y) := by
    unfold energyOf; ring
  rw [e] at this
  simpa only [mul_comm x, mul_comm y] using this

private theorem jack_C {r p m : ℕ → ℝ} {a b c : ℝ} (hr : Means r a) (hp : Means p b) (hm : Means m c) (ha : a ≠ 0)
    (δ x y k T : ℝ) :
    Stats.Jack (fun n => (((Stats.npMean fun k : Fin n => p k) * x - 2 * (Stats.npMean fun k : Fin n => r k)
        + (Stats.npMean fun k : Fin n => m k) * y) / δ ^ 2 / (Stats.npMean fun k : Fin n => r k)
        - (-1 * (((Stats.npMean fun k : Fin n => p k) * x - (Stats.npMean fun k : Fin n => m k) * y)
        / (2 * δ)) / Stats.npMean fun k : Fin n => r k) ^ 2) / (k * T ^ 2)) (heatOf k T δ a (b * x) (c * y))
      fun n i => ((Stats.calculateJackknifeTerm (fun k : Fin n => p k) i * x
        - 2 * Stats.calculateJackknifeTerm (fun k : Fin n => r k) i
        + Stats.calculateJackknifeTerm (fun k : Fin n => m k) i * y) / δ ^ 2
        / Stats.calculateJackknifeTerm (fun k : Fin n => r k) i
        - (-1 * ((Stats.calculateJackknifeTerm (fun k : Fin n => p k) i * x
        - Stats.calculateJackknifeTerm (fun k : Fin n => m k) i * y) / (2 * δ))
        / Stats.calculateJackknifeTerm (fun k : Fin n => r k) i) ^ 2) / (k * T ^ 2) := by
  have hE := jack_E hr hp hm ha δ x y
  have h1 := ((((hp.jack.const_mul x).sub (hr.jack.const_mul 2)).add (hm.jack.const_mul y)).div_const (δ ^ 2)).div
    hr.jack ha
  have := (h1.sub (hE.mul hE)).div_const (k * T ^ 2)
  have e : ((x * b - 2 * a + y * c) / δ ^ 2 / a - energyOf δ a (b * x) (c * y) * energyOf δ a (b * x) (c * y)) / (k * T ^ 2)
      = heatOf k T δ a (b * x) (c * y) := by
    unfold heatOf; ring
  rw [e] at this
  simpa only [mul_comm x, mul_comm y, ← sq] using this

/-- The limits of both jackknife analyses, from the averages. -/
private theorem settles {r p m : ℕ → ℝ} {a b c : ℝ} (hr : Means r a) (hp : Means p b) (hm : Means m c) (ha : a ≠ 0)
    (d : ∀ n, Stats.Samples n) (hd : ∀ n (k : Fin n), (d n).g k / (d n).rho k = r k ∧ (d n).gPlus k / (d n).rho k = p k ∧
      (d n).gMinus k / (d n).rho k = m k) (T : ℝ) (an : Stats.Analytic) :
    Settles (fun n => Stats.basicJackknifeAnalysis T (d n) an) a (energyOf Constants.deltaBeta a b c + an.E)
      (heatOf Constants.boltzman T Constants.deltaBeta a b c + an.Cv) ∧
    Settles (fun n => Stats.alphaJackknifeAnalysis T (d n) an) a
      (energyOf Constants.deltaBeta a (b * an.alphaPlus) (c * an.alphaMinus) + an.E)
      (heatOf Constants.boltzman T Constants.deltaBeta a (b * an.alphaPlus) (c * an.alphaMinus) + an.Cv) := by
  obtain ⟨ra, hra⟩ := hr.abs
  have hrat : ∀ n, (fun i : Fin n => (d n).g i / (d n).rho i) = fun i : Fin n => r i := fun n => funext fun i => (hd n i).1
  have hrp : ∀ n, (fun i : Fin n => (d n).gPlus i / (d n).rho i) = fun i : Fin n => p i := fun n => funext fun i => (hd n i).2.1
  have hrm : ∀ n, (fun i : Fin n => (d n).gMinus i / (d n).rho i) = fun i : Fin n => m i := fun n => funext fun i => (hd n i).2.2
  have hs1 : ∀ n, (fun i : Fin n => ((d n).gPlus i - (d n).gMinus i) / (d n).rho i / (2 * Constants.deltaBeta))
      = fun i : Fin n => (p i - m i) / (2 * Constants.deltaBeta) := fun n => funext fun i => by rw [sub_div, (hd n i).2.1, (hd n i).2.2]
  have hs2 : ∀ n, (fun i : Fin n => ((d n).gPlus i - 2 * (d n).g i + (d n).gMinus i) / (d n).rho i / Constants.deltaBeta ^ 2)
      = fun i : Fin n => (p i - 2 * r i + m i) / Constants.deltaBeta ^ 2 := fun n => funext fun i => by
    rw [add_div, sub_div, mul_div_assoc, (hd n i).1, (hd n i).2.1, (hd n i).2.2]
  -- means and jackknife terms of the combinations
  have mean1 : ∀ n : ℕ, (Stats.npMean fun i : Fin n => (p i - m i) / (2 * Constants.deltaBeta))
      = ((Stats.npMean fun k : Fin n => p k) - Stats.npMean fun k : Fin n => m k) / (2 * Constants.deltaBeta) := by
    intro n
    simp only [Stats.npMean, Stats.npSum, ← sum_div, sum_sub_distrib]
    ring
  have mean2 : ∀ n : ℕ, (Stats.npMean fun i : Fin n => (p i - 2 * r i + m i) / Constants.deltaBeta ^ 2)
      = ((Stats.npMean fun k : Fin n => p k) - 2 * (Stats.npMean fun k : Fin n => r k)
        + Stats.npMean fun k : Fin n => m k) / Constants.deltaBeta ^ 2 := by
    intro n
    simp only [Stats.npMean, Stats.npSum, ← sum_div, sum_sub_distrib, sum_add_distrib, ← mul_sum]
    ring
  have jk1 : ∀ (n : ℕ) (i : Fin n), Stats.calculateJackknifeTerm (fun i : Fin n => (p i - m i) / (2 * Constants.deltaBeta)) i
      = (Stats.calculateJackknifeTerm (fun k : Fin n => p k) i
        - Stats.calculateJackknifeTerm (fun k : Fin n => m k) i) / (2 * Constants.deltaBeta) := by
    intro n i
    simp only [Stats.calculateJackknifeTerm, Stats.npSum, ← sum_div, sum_sub_distrib]
    ring
  have jk2 : ∀ (n : ℕ) (i : Fin n), Stats.calculateJackknifeTerm (fun i : Fin n => (p i - 2 * r i + m i) / Constants.deltaBeta ^ 2) i
      = (Stats.calculateJackknifeTerm (fun k : Fin n => p k) i
        - 2 * Stats.calculateJackknifeTerm (fun k : Fin n => r k) i
        + Stats.calculateJackknifeTerm (fun k : Fin n => m k) i) / Constants.deltaBeta ^ 2 := by
    intro n i
    simp only [Stats.calculateJackknifeTerm, Stats.npSum, ← sum_div, sum_sub_distrib, sum_add_distrib, ← mul_sum]
    ring
  have hE := jack_E hr hp hm ha Constants.deltaBeta 1 1
  have hC := jack_C hr hp hm ha Constants.deltaBeta 1 1 Constants.boltzman T
  simp only [mul_one] at hE hC
  have hEa := jack_E hr hp hm ha Constants.deltaBeta an.alphaPlus an.alphaMinus
  have hCa := jack_C hr hp hm ha Constants.deltaBeta an.alphaPlus an.alphaMinus Constants.boltzman T
  constructor
  · constructor <;>
    simp only [Stats.basicJackknifeAnalysis, Stats.calculateBasicPropertyTerms, Stats.calculateJackknifeTerms,
      Stats.estimateBasicProperties, Stats.basicEstimateZ, Stats.basicEstimateE, Stats.basicEstimateCv,
      Stats.estimateJackknife, Stats.addHarmonic, Stats.addHarmonicJk, hrat, hs1, hs2, mean1, mean2, jk1, jk2]
    · exact hr.mean
    · exact zerr_limit hr.mean hra
    · exact hE.lim.add_const _
    · exact hC.lim.add_const _
    · exact hE.estimate.add_const _
    · exact error_limit hE
    · exact hC.estimate.add_const _
    · exact error_limit hC
  · constructor <;>
    simp only [Stats.alphaJackknifeAnalysis, Stats.calculateAlphaTerms, Stats.calculateAlphaJackknifeTerms,
      Stats.estimateBasicProperties, Stats.basicEstimateZ, Stats.basicEstimateE, Stats.basicEstimateCv,
      Stats.estimateJackknife, Stats.addHarmonic, Stats.addHarmonicJk, hrat, hrp, hrm]
    · exact hr.mean
    · exact zerr_limit hr.mean hra
    · exact hEa.lim.add_const _
    · exact hCa.lim.add_const _
    · exact hEa.estimate.add_const _
    · exact error_limit hEa
    · exact hCa.estimate.add_const _
    · exact error_limit hCa

/-! ### C60 -/

variable {A N P : ℕ} [NeZero A] [NeZero P]

/-- C60: for independent paths drawn by the program everything the two jackknife analyses report settles with probability
one as the number of samples grows.  Z tends to the quotient of the integrals; E and Cv, plain and jackknife, tend to the
values that the difference quotients of the integrals give (with the alpha factors in the alpha analysis) plus the
analytic contributions; the reported errors of Z and the jackknife errors of E and Cv tend to zero. -/
theorem C60_analyses_settle {Ω : Type*} [MeasurableSpace Ω] (μ : Measure Ω)
    (hP : 3 ≤ P) (eigh : Eigh) (he : EighSpec eigh) (beta : ℝ) (hb : Constants.deltaBeta < beta)
    (vib : Vib A N) (rho : Rho A N) (hv : ∀ i, 0 < vib.omega i) (hr : ∀ i, 0 < rho.omega i)
    (hsym : ∀ x, (potential vib x).IsSymm)
    (hq : SmallQuadratic (beta / P) ((beta - Constants.deltaBeta) / P) vib) (R : ℕ → Ω → BeadPath N P) (hR : ∀ k, Measurable (R k))
    (hlaw : ∀ k, μ.map (R k) = sampleLaw P eigh beta rho)
    (hind : ∀ j k, j ≠ k → IndepFun (R j) (R k) μ) (d : ∀ n, Ω → Stats.Samples n)
    (hd : ∀ n ω (k : Fin n), computePM eigh beta Constants.deltaBeta vib rho (R k ω)
      = .ok ⟨(d n ω).rho k, (d n ω).g k, (d n ω).gPlus k, (d n ω).gMinus k⟩)
    (T : ℝ) (an : Stats.Analytic) :
    let δ := Constants.deltaBeta
    let Zrho := ∫ R : BeadPath N P, rhoExact (beta / P) rho R
    let G := ∫ R : BeadPath N P, gExact (beta / P) vib R
    let Gp := ∫ R : BeadPath N P, gSplit (beta / P) ((beta + δ) / P) vib R
    let Gm := ∫ R : BeadPath N P, gSplit (beta / P) ((beta - δ) / P) vib R
    G ≠ 0 → ∀ᵐ ω ∂μ,
      Settles (fun n => Stats.basicJackknifeAnalysis T (d n ω) an) (G / Zrho) (energyOf δ G Gp Gm + an.E)
        (heatOf Constants.boltzman T δ G Gp Gm + an.Cv) ∧
      Settles (fun n => Stats.alphaJackknifeAnalysis T (d n ω) an) (G / Zrho)
        (energyOf δ G (Gp * an.alphaPlus) (Gm * an.alphaMinus) + an.E)
        (heatOf Constants.boltzman T δ G (Gp * an.alphaPlus) (Gm * an.alphaMinus) + an.Cv) := by
  intro δ Zrho G Gp Gm hG
  have hdb : 0 < Constants.deltaBeta := by norm_num [Constants.deltaBeta]
  have hb0 : 0 < beta := hdb.trans hb
  have hP0 : (0 : ℝ) < P := by exact_mod_cast Nat.pos_of_ne_zero (NeZero.ne P)
  have ht : 0 < beta / P := div_pos hb0 hP0
  have htp : 0 < (beta + Constants.deltaBeta) / P := div_pos (by linarith) hP0
  have htm : 0 < (beta - Constants.deltaBeta) / P := div_pos (by linarith) hP0
  have hZ : 0 < Zrho := (C33_density_is_rho hP eigh he beta hb0 rho hr).1
  have hcont : Continuous fun R : BeadPath N P => rhoExact (beta / P) rho R := by
    unfold rhoExact step propagator
    fun_prop
  let F : ℝ → BeadPath N P → ℝ := fun t R => gSplit (beta / P) t vib R / rhoExact (beta / P) rho R
  have hmeas : ∀ t, Measurable (F t) := fun t => (gSplit_continuous _ t vib).measurable.div hcont.measurable
  have hle : (beta - Constants.deltaBeta) / P ≤ beta / P := div_le_div_of_nonneg_right (by linarith) hP0.le
  have hle' : (beta - Constants.deltaBeta) / P ≤ (beta + Constants.deltaBeta) / P :=
    div_le_div_of_nonneg_right (by linarith) hP0.le
  have means : ∀ t : ℝ, (beta - Constants.deltaBeta) / P ≤ t → ∀ᵐ ω ∂μ, Means (fun k => F t (R k ω))
      ((∫ R : BeadPath N P, gSplit (beta / P) t vib R) / Zrho) := by
    intro t ht'
    obtain ⟨hi, he'⟩ := expectation_gSplit (P := P) hP eigh he beta hb0 vib rho hr (beta / P) t
      (gSplit_integrable' (beta / P) t ht.le (htm.trans_le ht') vib hv (small_mono ht' vib hv hq))
    have l1 := mean_tendsto μ _ R hR hlaw hind _ (hmeas t) hi
    have l2 := mean_tendsto μ _ R hR hlaw hind (fun x => |F t x|) (hmeas t).abs hi.abs
    rw [he'] at l1
    filter_upwards [l1, l2] with ω h1 h2
    exact ⟨h1, _, h2⟩
  have hst : ∀ n ω (k : Fin n), (d n ω).g k / (d n ω).rho k = F (beta / P) (R k ω) ∧
      (d n ω).gPlus k / (d n ω).rho k = F ((beta + Constants.deltaBeta) / P) (R k ω) ∧
      (d n ω).gMinus k / (d n ω).rho k = F ((beta - Constants.deltaBeta) / P) (R k ω) := by
    intro n ω k
    obtain ⟨s, S, h, hS, h1, h2, h3, h4⟩ := C38_computed_quantities eigh he beta Constants.deltaBeta hdb.le hb
      vib rho hv hr hsym (R k ω)
    rw [hd n ω k] at h
    cases h
    simp only at h1 h2 h3 h4
    rw [h1, h2, h3, h4, div_div_div_cancel_right₀ hS.ne', div_div_div_cancel_right₀ hS.ne',
      div_div_div_cancel_right₀ hS.ne']
    exact ⟨rfl, rfl, rfl⟩
  filter_upwards [means _ hle, means _ hle', means _ le_rfl] with ω m0 mp mm
  obtain ⟨s1, s2⟩ := settles m0 mp mm (div_ne_zero hG hZ.ne') (fun n => d n ω) (fun n k => hst n ω k) T an
  have ea : Gp / Zrho * an.alphaPlus = (Gp * an.alphaPlus) / Zrho := by ring
  have eb : Gm / Zrho * an.alphaMinus = (Gm * an.alphaMinus) / Zrho := by ring
  change Settles _ (G / Zrho) (energyOf δ (G / Zrho) (Gp / Zrho) (Gm / Zrho) + an.E)
    (heatOf _ T δ (G / Zrho) (Gp / Zrho) (Gm / Zrho) + an.Cv) at s1
  change Settles _ (G / Zrho) (energyOf δ (G / Zrho) (Gp / Zrho * _) (Gm / Zrho * _) + an.E)
    (heatOf _ T δ (G / Zrho) (Gp / Zrho * _) (Gm / Zrho * _) + an.Cv) at s2
  rw [energyOf_div hZ.ne', heatOf_div hZ.ne'] at s1
  rw [ea, eb, energyOf_div hZ.ne', heatOf_div hZ.ne'] at s2
  exact ⟨s1, s2⟩

/-- C60: the analyses without jackknife report the same Z, E and Cv, so these settle in the same way. -/
theorem C60_plain_analyses {n : ℕ} (T : ℝ) (d : Stats.Samples n) (an : Stats.Analytic) :
    Stats.basicStatisticalAnalysis T d an = (Stats.basicJackknifeAnalysis T d an).basic ∧
    Stats.alphaStatisticalAnalysis T d an = (Stats.alphaJackknifeAnalysis T d an).basic := ⟨rfl, rfl⟩

/-! ### the hypotheses can be met -/

section
open scoped Matrix.Norms.Operator

/-- The exponential of a matrix without negative entries is at least the unit matrix. -/
private theorem exp_entries {X : Matrix (Fin A) (Fin A) ℝ} (h : ∀ i j, 0 ≤ X i j) (i j : Fin A) :
    (1 : Matrix (Fin A) (Fin A) ℝ) i j ≤ NormedSpace.exp X i j := by
  have hp : ∀ n i j, 0 ≤ (X ^ n) i j := by
    intro n
    induction n with
    | zero => intro i j; rw [pow_zero, Matrix.one_apply]; split <;> norm_num
    | succ n ih =>
      intro i j
      rw [pow_succ, Matrix.mul_apply]
      exact sum_nonneg fun k _ => mul_nonneg (ih i k) (h k j)
  have hs : HasSum (fun n : ℕ => ((n.factorial : ℝ)⁻¹) • X ^ n) (NormedSpace.exp X) :=
    NormedSpace.exp_series_hasSum_exp' (𝕂 := ℝ) X
  have he : HasSum (fun n : ℕ => ((n.factorial : ℝ)⁻¹) * (X ^ n) i j) (NormedSpace.exp X i j) :=
    hs.map (Matrix.entryAddMonoidHom (α := ℝ) i j) (by
      change Continuous fun M : Matrix (Fin A) (Fin A) ℝ => M i j
      exact (continuous_apply j).comp (continuous_apply i))
  have := le_hasSum he 0 fun n _ => mul_nonneg (inv_nonneg.mpr (Nat.cast_nonneg _)) (hp n i j)
  simpa using this

end

private theorem products_le {ι : Type*} {D M : ι → Matrix (Fin A) (Fin A) ℝ} (l : List ι) (h0 : ∀ p a b, 0 ≤ D p a b)
    (h : ∀ p a b, D p a b ≤ M p a b) (a b : Fin A) :
    0 ≤ (l.map D).prod a b ∧ (l.map D).prod a b ≤ (l.map M).prod a b := by
  induction l generalizing a b with
  | nil =>
    simp only [List.map_nil, List.prod_nil, le_refl, and_true, Matrix.one_apply]
    split <;> norm_num
  | cons p l ih =>
    simp only [List.map_cons, List.prod_cons, Matrix.mul_apply]
    exact ⟨sum_nonneg fun c _ => mul_nonneg (h0 p a c) (ih c b).1,
      sum_le_sum fun c _ => mul_le_mul (h p a c) (ih c b).2 (ih c b).1 ((h0 p a c).trans (h p a c))⟩

/-- A model whose couplings are constant and attractive has a positive integral: `G ≠ 0` can be met by coupled models. -/
private theorem integral_pos (hP : 3 ≤ P) (t : ℝ) (ht : 0 < t) (vib : Vib A N) (hv : ∀ i, 0 < vib.omega i)
    (hE : ∀ a b, a ≠ b → vib.energy a b ≤ 0) (hl : ∀ i a b, a ≠ b → vib.linear i a b = 0)
    (hq : ∀ i j, vib.quadratic i j = 0) : 0 < ∫ R : BeadPath N P, gExact t vib R := by
  obtain ⟨eigh, he⟩ := eigh_exists
  have hP0 : (0 : ℝ) < P := by exact_mod_cast Nat.pos_of_ne_zero (NeZero.ne P)
  have hZ := (C33_density_is_rho (A := A) hP eigh he (t * P) (mul_pos ht hP0) (diagonalRho vib) hv).1
  rw [mul_div_cancel_right₀ _ hP0.ne'] at hZ
  have hiR : Integrable fun R : BeadPath N P => rhoExact t (diagonalRho vib) R := by
    by_contra hn
    rw [integral_undef hn] at hZ
    exact lt_irrefl _ hZ
  refine hZ.trans_le (integral_mono hiR (gSplit_integrable t t ht.le ht vib hv hq) fun R => ?_)
  have hrem : ∀ p a b, 0 ≤ (-t • remainder vib R p) a b := by
    intro p a b
    rw [← coupling_folded vib (fun i => (hv i).ne')]
    by_cases hab : a = b
    · simp [coupling, Vib.folded, hab, hq]
    · simpa [coupling, Vib.folded, hab, hq, hl _ a b hab] using mul_nonpos_of_nonneg_of_nonpos ht.le (hE a b hab)
  have hst : ∀ p a, 0 ≤ step t (vib.energy a a) (fun i => vib.linear i a a) vib.omega R p :=
    fun p a => (step_pos _ _ _ _ ht hv _ _).le
  have hfac : ∀ (p : Fin P) a b, (Matrix.diagonal fun a => step t (vib.energy a a) (fun i => vib.linear i a a) vib.omega R p) a b
      ≤ (NormedSpace.exp (-t • remainder vib R p) *
        Matrix.diagonal fun a => step t (vib.energy a a) (fun i => vib.linear i a a) vib.omega R p) a b := by
    intro p a b
    rw [Matrix.mul_diagonal]
    have h1 := mul_le_mul_of_nonneg_right (exp_entries (hrem p) a b) (hst p b)
    refine le_trans (le_of_eq ?_) h1
    by_cases hab : a = b
    · subst hab; simp
    · simp [hab]
  have hD : ∀ (p : Fin P) a b, 0 ≤ (Matrix.diagonal fun a => step t (vib.energy a a) (fun i => vib.linear i a a) vib.omega R p) a b := by
    intro p a b
    rw [Matrix.diagonal_apply]
    split
    · exact hst p a
    · exact le_rfl
  have hprod := products_le (List.finRange P) hD hfac
  have htr : Matrix.trace ((List.finRange P).map fun p => Matrix.diagonal fun a =>
      step t (vib.energy a a) (fun i => vib.linear i a a) vib.omega R p).prod
      ≤ Matrix.trace ((List.finRange P).map fun p => NormedSpace.exp (-t • remainder vib R p) *
        Matrix.diagonal fun a => step t (vib.energy a a) (fun i => vib.linear i a a) vib.omega R p).prod :=
    sum_le_sum fun a _ => (hprod a a).2
  rw [← List.ofFn_eq_map, ← List.ofFn_eq_map, prod_diagonal, Matrix.trace_diagonal] at htr
  exact htr

/-- two surfaces with an attractive coupling, different minima and two modes -/
noncomputable def attractive : Vib 2 2 where
  energy := !![1, -0.5; -0.5, 2]
  omega := ![0.1, 0.2]
  linear := fun i => if i = 0 then !![0.3, 0; 0, -0.3] else !![0.1, 0; 0, 0.2]
  quadratic := fun _ _ => 0

/-- C60: a coupled model for which the integral does not vanish, with independent paths and the numbers computed from them. -/
example (P : ℕ) [NeZero P] (hP : 3 ≤ P) : ∃ (eigh : Eigh) (_ : EighSpec eigh) (Ω : Type)
    (_ : MeasurableSpace Ω) (μ : Measure Ω) (R : ℕ → Ω → BeadPath 2 P) (d : ∀ n, Ω → Stats.Samples n),
    (∀ k, Measurable (R k)) ∧ (∀ k, μ.map (R k) = sampleLaw P eigh 1 (diagonalRho attractive)) ∧
    (∀ j k, j ≠ k → IndepFun (R j) (R k) μ) ∧
    (∀ n ω (k : Fin n), computePM eigh 1 Constants.deltaBeta attractive (diagonalRho attractive) (R k ω)
      = .ok ⟨(d n ω).rho k, (d n ω).g k, (d n ω).gPlus k, (d n ω).gMinus k⟩) ∧
    (∫ R : BeadPath 2 P, gExact (1 / P) attractive R) ≠ 0 := by
  obtain ⟨eigh, he⟩ := eigh_exists
  have hP0 : (0 : ℝ) < P := by exact_mod_cast Nat.pos_of_ne_zero (NeZero.ne P)
  have hv : ∀ i, 0 < attractive.omega i := by
    intro i; fin_cases i <;> norm_num [attractive]
  have hs : ∀ x, (potential attractive x).IsSymm := by
    intro x
    ext a b
    fin_cases a <;> fin_cases b <;>
      simp [potential, attractive, Fin.sum_univ_two, Matrix.transpose_apply]
  have := isProbability_sampleLaw hP eigh he 1 one_pos (diagonalRho attractive) hv
  obtain ⟨Ω, mΩ, μ, R, h1, h2, h3, -⟩ := exists_iid ℕ (sampleLaw P eigh 1 (diagonalRho attractive))
  have hs := fun R : BeadPath 2 P => C38_computed_quantities eigh he 1 Constants.deltaBeta
    (by norm_num [Constants.deltaBeta]) (by norm_num [Constants.deltaBeta]) attractive (diagonalRho attractive)
    hv hv hs R
  choose s _ hs _ using hs
  refine ⟨eigh, he, Ω, mΩ, μ, R, fun n ω => ⟨fun k => (s (R k ω)).rho, fun k => (s (R k ω)).g,
    fun k => (s (R k ω)).gPlus, fun k => (s (R k ω)).gMinus⟩, h1, fun k => (h2 k).map_eq,
    fun j k hjk => h3.indepFun hjk, fun n ω k => hs _,
    (integral_pos hP _ (div_pos one_pos hP0) attractive hv ?_ ?_ fun _ _ => rfl).ne'⟩
  · intro a b hab
    fin_cases a <;> fin_cases b <;> simp_all [attractive] <;> norm_num
  · intro i a b hab
    fin_cases i <;> fin_cases a <;> fin_cases b <;> simp_all [attractive]

end Pibronic.Props.Convergence
