import Verif.Lemmas.Stats
import Mathlib.Tactic.FinCases

set_option autoImplicit false

/-!
Properties C22-C27, C43, C56: the statistics (`stats.py`, `jackknife.py`) and `constants.py`.
-/
namespace Pibronic.Props.Stats
open Pibronic.Stats Constants Finset Pibronic.Spec.Stats

/-! ### Transformations of a sample set used in the statements -/

/-- the same samples in another order -/
def permuted {X : ℕ} (σ : Equiv.Perm (Fin X)) (d : Samples X) : Samples X where
  rho := fun i => d.rho (σ i)
  g := fun i => d.g (σ i)
  gPlus := fun i => d.gPlus (σ i)
  gMinus := fun i => d.gMinus (σ i)

/-- sample `i` has all four values multiplied by `c i` -/
def rescaled {X : ℕ} (c : Fin X → ℝ) (d : Samples X) : Samples X where
  rho := fun i => c i * d.rho i
  g := fun i => c i * d.g i
  gPlus := fun i => c i * d.gPlus i
  gMinus := fun i => c i * d.gMinus i

/-- three samples used as a non-trivial witness for hypotheses below -/
noncomputable def demo : Samples 3 where
  rho := ![1, 2, 4]
  g := ![3, 1, 2]
  gPlus := ![5, 7, 1]
  gMinus := ![2, 2, 9]

/-! ### C22: order of the samples -/

theorem C22_basic_order_irrelevant {X : ℕ} (σ : Equiv.Perm (Fin X)) (T : ℝ) (d : Samples X)
    (an : Analytic) :
    basicStatisticalAnalysis T (permuted σ d) an = basicStatisticalAnalysis T d an := by
  have hr := npMean_comp_perm σ (calculateBasicPropertyTerms deltaBeta d).ratio
  have h1 := npMean_comp_perm σ (calculateBasicPropertyTerms deltaBeta d).sym1
  have h2 := npMean_comp_perm σ (calculateBasicPropertyTerms deltaBeta d).sym2
  have hs := npStd_comp_perm σ 0 (calculateBasicPropertyTerms deltaBeta d).ratio
  simp only [calculateBasicPropertyTerms] at hr h1 h2 hs
  simp only [basicStatisticalAnalysis, estimateBasicProperties, basicEstimateZ,
    calculateBasicPropertyTerms, permuted, hr, h1, h2, hs]

theorem C22_alpha_order_irrelevant {X : ℕ} (σ : Equiv.Perm (Fin X)) (T : ℝ) (d : Samples X)
    (an : Analytic) :
    alphaStatisticalAnalysis T (permuted σ d) an = alphaStatisticalAnalysis T d an := by
  have hr := npMean_comp_perm σ (fun i => d.g i / d.rho i)
  have h1 := npMean_comp_perm σ (fun i => d.gPlus i / d.rho i)
  have h2 := npMean_comp_perm σ (fun i => d.gMinus i / d.rho i)
  have hs := npStd_comp_perm σ 0 (fun i => d.g i / d.rho i)
  simp only [alphaStatisticalAnalysis, estimateBasicProperties, basicEstimateZ,
    calculateAlphaTerms, permuted, hr, h1, h2, hs]

/-- The jackknife estimator only depends on the replicates up to order. -/
theorem estimateJackknife_perm {X : ℕ} (σ : Equiv.Perm (Fin X)) (T : ℝ) (b : Estimate)
    (jk jk' : Terms X) (hr : jk'.ratio = fun i => jk.ratio (σ i))
    (h1 : jk'.sym1 = fun i => jk.sym1 (σ i)) (h2 : jk'.sym2 = fun i => jk.sym2 (σ i)) :
    estimateJackknife T b jk' = estimateJackknife T b jk := by
  have e1 := npMean_comp_perm σ (fun i => -1 * jk.sym1 i / jk.ratio i)
  have s1 := npStd_comp_perm σ 1 (fun i => -1 * jk.sym1 i / jk.ratio i)
  have e2 := npMean_comp_perm σ (fun i => (jk.sym2 i / jk.ratio i
    - (-1 * jk.sym1 i / jk.ratio i) ^ 2) / (boltzman * T ^ 2))
  have s2 := npStd_comp_perm σ 1 (fun i => (jk.sym2 i / jk.ratio i
    - (-1 * jk.sym1 i / jk.ratio i) ^ 2) / (boltzman * T ^ 2))
  simp only [estimateJackknife, hr, h1, h2, e1, s1, e2, s2]

theorem jkTerm_perm {X : ℕ} (σ : Equiv.Perm (Fin X)) (a : Arr X) :
    calculateJackknifeTerm (fun i => a (σ i)) = fun i => calculateJackknifeTerm a (σ i) := by
  funext i; simp only [calculateJackknifeTerm, npSum_comp_perm]

theorem C22_basic_jackknife_order_irrelevant {X : ℕ} (σ : Equiv.Perm (Fin X)) (T : ℝ)
    (d : Samples X) (an : Analytic) :
    basicJackknifeAnalysis T (permuted σ d) an = basicJackknifeAnalysis T d an := by
  have hb := C22_basic_order_irrelevant σ T d ⟨0, 0, 1, 1⟩
  have hb' : estimateBasicProperties T (calculateBasicPropertyTerms deltaBeta (permuted σ d)).ratio
      (npMean (calculateBasicPropertyTerms deltaBeta (permuted σ d)).sym1)
      (npMean (calculateBasicPropertyTerms deltaBeta (permuted σ d)).sym2)
      = estimateBasicProperties T (calculateBasicPropertyTerms deltaBeta d).ratio
      (npMean (calculateBasicPropertyTerms deltaBeta d).sym1)
      (npMean (calculateBasicPropertyTerms deltaBeta d).sym2) := by
    ext1 <;> simp_all [basicStatisticalAnalysis, addHarmonic]
  simp only [basicJackknifeAnalysis, hb']
  congr 2
  exact estimateJackknife_perm σ T _ _ _
    (jkTerm_perm σ (calculateBasicPropertyTerms deltaBeta d).ratio)
    (jkTerm_perm σ (calculateBasicPropertyTerms deltaBeta d).sym1)
    (jkTerm_perm σ (calculateBasicPropertyTerms deltaBeta d).sym2)

theorem C22_alpha_jackknife_order_irrelevant {X : ℕ} (σ : Equiv.Perm (Fin X)) (T : ℝ)
    (d : Samples X) (an : Analytic) :
    alphaJackknifeAnalysis T (permuted σ d) an = alphaJackknifeAnalysis T d an := by
  have hb := C22_alpha_order_irrelevant σ T d ⟨0, 0, an.alphaPlus, an.alphaMinus⟩
  have hb' : estimateBasicProperties T
      (calculateAlphaTerms deltaBeta (permuted σ d) an.alphaPlus an.alphaMinus).ratio
      (calculateAlphaTerms deltaBeta (permuted σ d) an.alphaPlus an.alphaMinus).sym1
      (calculateAlphaTerms deltaBeta (permuted σ d) an.alphaPlus an.alphaMinus).sym2
      = estimateBasicProperties T (calculateAlphaTerms deltaBeta d an.alphaPlus an.alphaMinus).ratio
      (calculateAlphaTerms deltaBeta d an.alphaPlus an.alphaMinus).sym1
      (calculateAlphaTerms deltaBeta d an.alphaPlus an.alphaMinus).sym2 := by
    ext1 <;> simp_all [alphaStatisticalAnalysis, addHarmonic]
  simp only [alphaJackknifeAnalysis, hb']
  congr 2
  have hr := npSum_comp_perm σ (fun i => d.g i / d.rho i)
  have hp := npSum_comp_perm σ (fun i => d.gPlus i / d.rho i)
  have hm := npSum_comp_perm σ (fun i => d.gMinus i / d.rho i)
  refine estimateJackknife_perm σ T _ _ _ ?_ ?_ ?_ <;> funext i <;>
    simp only [calculateAlphaJackknifeTerms, calculateAlphaTerms, permuted, hr, hp, hm]

/-! ### C23: per-sample scaling -/

theorem rescaled_div {X : ℕ} (c : Fin X → ℝ) (hc : ∀ i, c i ≠ 0) (f r : Fin X → ℝ) (i : Fin X) :
    c i * f i / (c i * r i) = f i / r i := mul_div_mul_left _ _ (hc i)

theorem rescaled_basic_terms {X : ℕ} (c : Fin X → ℝ) (hc : ∀ i, c i ≠ 0) (dB : ℝ)
    (d : Samples X) :
    calculateBasicPropertyTerms dB (rescaled c d) = calculateBasicPropertyTerms dB d := by
  unfold calculateBasicPropertyTerms rescaled
  congr 1 <;> funext i
  · exact rescaled_div c hc _ _ i
  · simp only [← mul_sub]; rw [mul_div_mul_left _ _ (hc i)]
  · have : c i * d.gPlus i - 2 * (c i * d.g i) + c i * d.gMinus i
        = c i * (d.gPlus i - 2 * d.g i + d.gMinus i) := by ring
    simp only [this]; rw [mul_div_mul_left _ _ (hc i)]

theorem rescaled_alpha_terms {X : ℕ} (c : Fin X → ℝ) (hc : ∀ i, c i ≠ 0) (dB aP aM : ℝ)
    (d : Samples X) :
    calculateAlphaTerms dB (rescaled c d) aP aM = calculateAlphaTerms dB d aP aM := by
  unfold calculateAlphaTerms rescaled
  simp only [mul_div_mul_left _ _ (hc _)]

/-- Multiplying all values of individual samples by non-zero factors changes no output of any of
the four analyses. -/
theorem C23_scaling_irrelevant {X : ℕ} (c : Fin X → ℝ) (hc : ∀ i, c i ≠ 0) (T : ℝ)
    (d : Samples X) (an : Analytic) :
    basicStatisticalAnalysis T (rescaled c d) an = basicStatisticalAnalysis T d an
    ∧ alphaStatisticalAnalysis T (rescaled c d) an = alphaStatisticalAnalysis T d an
    ∧ basicJackknifeAnalysis T (rescaled c d) an = basicJackknifeAnalysis T d an
    ∧ alphaJackknifeAnalysis T (rescaled c d) an = alphaJackknifeAnalysis T d an := by
  simp only [basicStatisticalAnalysis, alphaStatisticalAnalysis, basicJackknifeAnalysis,
    alphaJackknifeAnalysis, rescaled_basic_terms c hc, rescaled_alpha_terms c hc, and_self]

/-- hypotheses of C23 are met by non-constant factors -/
example : ∀ i, (![2, -3, 5] : Fin 3 → ℝ) i ≠ 0 := by
  intro i; fin_cases i <;> norm_num

/-! ### C24: unit alphas -/

theorem C24_alpha_one_statistical {X : ℕ} (T : ℝ) (d : Samples X) (an : Analytic)
    (hp : an.alphaPlus = 1) (hm : an.alphaMinus = 1) :
    alphaStatisticalAnalysis T d an = basicStatisticalAnalysis T d an := by
  have hE := (alpha_E_eq deltaBeta T 1 1 d).trans (estimate_E_eq deltaBeta T d).symm
  have hC := (alpha_Cv_eq deltaBeta T 1 1 d).trans (estimate_Cv_eq deltaBeta T d).symm
  simp only [alphaStatisticalAnalysis, basicStatisticalAnalysis, hp, hm]
  simp only [addHarmonic, hE, hC]
  simp only [estimateBasicProperties, calculateAlphaTerms, calculateBasicPropertyTerms,
    basicEstimateE, basicEstimateCv]

theorem C24_alpha_one_jackknife {X : ℕ} (T : ℝ) (d : Samples X) (an : Analytic)
    (hp : an.alphaPlus = 1) (hm : an.alphaMinus = 1) :
    alphaJackknifeAnalysis T d an = basicJackknifeAnalysis T d an := by
  have hb := C24_alpha_one_statistical T d an hp hm
  have hE := (alpha_E_eq deltaBeta T 1 1 d).trans (estimate_E_eq deltaBeta T d).symm
  have hC := (alpha_Cv_eq deltaBeta T 1 1 d).trans (estimate_Cv_eq deltaBeta T d).symm
  ext1
  · exact hb
  · simp only [alphaJackknifeAnalysis, basicJackknifeAnalysis, hp, hm]
    congr 1
    simp only [estimateJackknife, hE, hC, basic_replicate_E]
    simp only [calculateAlphaTerms, alpha_replicate_E, alpha_replicate_Cv, basic_replicate_Cv]

example : (⟨0.3, 0.1, 1, 1⟩ : Analytic).alphaPlus = 1 ∧ (⟨0.3, 0.1, 1, 1⟩ : Analytic).alphaMinus = 1 :=
  ⟨rfl, rfl⟩

/-! ### C25: the jackknife is the textbook jackknife of the plug-in estimators -/

/-- Replicate `i` of an array is the mean of the other entries. -/
theorem C25_replicate_is_leave_one_out_mean {X : ℕ} (a : Arr X) (i : Fin X) :
    calculateJackknifeTerm a i = meanOn (univ.erase i) a := jkTerm_eq_meanOn a i

/-- The mean of the replicates is the mean of the array. -/
theorem C25_mean_of_replicates {X : ℕ} (hX : 2 ≤ X) (a : Arr X) :
    meanOn univ (calculateJackknifeTerm a) = meanOn univ a := by
  have h2 : (2 : ℝ) ≤ X := by exact_mod_cast hX
  have h : ((X : ℝ) - 1) ≠ 0 := by intro h; linarith
  simp only [meanOn, calculateJackknifeTerm, npSum]
  rw [← sum_div, sum_sub_distrib, sum_const, card_univ, Fintype.card_fin, nsmul_eq_mul]
  field_simp

/-- The basic outputs are the plug-in estimators on all samples plus the analytic contribution. -/
theorem C25_basic_is_plug_in {X : ℕ} (T : ℝ) (d : Samples X) (an : Analytic) :
    (basicStatisticalAnalysis T d an).Z = meanOn univ (fun i => d.g i / d.rho i)
    ∧ (basicStatisticalAnalysis T d an).E
        = energyOn deltaBeta 1 1 d.rho d.g d.gPlus d.gMinus univ + an.E
    ∧ (basicStatisticalAnalysis T d an).Cv
        = heatCapacityOn boltzman T deltaBeta 1 1 d.rho d.g d.gPlus d.gMinus univ + an.Cv
    ∧ (basicJackknifeAnalysis T d an).basic = basicStatisticalAnalysis T d an := by
  refine ⟨?_, ?_, ?_, rfl⟩
  · simp only [basicStatisticalAnalysis, addHarmonic, estimateBasicProperties, basicEstimateZ,
      npMean_eq_meanOn, calculateBasicPropertyTerms]
  · simp only [basicStatisticalAnalysis, addHarmonic, estimate_E_eq]
  · simp only [basicStatisticalAnalysis, addHarmonic, estimate_Cv_eq]

theorem C25_alpha_is_plug_in {X : ℕ} (T : ℝ) (d : Samples X) (an : Analytic) :
    (alphaStatisticalAnalysis T d an).Z = meanOn univ (fun i => d.g i / d.rho i)
    ∧ (alphaStatisticalAnalysis T d an).E
        = energyOn deltaBeta an.alphaPlus an.alphaMinus d.rho d.g d.gPlus d.gMinus univ + an.E
    ∧ (alphaStatisticalAnalysis T d an).Cv
        = heatCapacityOn boltzman T deltaBeta an.alphaPlus an.alphaMinus d.rho d.g d.gPlus d.gMinus
            univ + an.Cv
    ∧ (alphaJackknifeAnalysis T d an).basic = alphaStatisticalAnalysis T d an := by
  refine ⟨?_, ?_, ?_, rfl⟩
  · simp only [alphaStatisticalAnalysis, addHarmonic, estimateBasicProperties, basicEstimateZ,
      npMean_eq_meanOn, calculateAlphaTerms]
  · simp only [alphaStatisticalAnalysis, addHarmonic, alpha_E_eq]
  · simp only [alphaStatisticalAnalysis, addHarmonic, alpha_Cv_eq]

/-- The jackknife energy and heat capacity are the bias corrected jackknife estimates of the
plug-in estimators, plus the analytic contribution. -/
theorem C25_basic_jackknife_is_textbook {X : ℕ} (T : ℝ) (d : Samples X) (an : Analytic) :
    (basicJackknifeAnalysis T d an).jk.E
        = jackknife (energyOn deltaBeta 1 1 d.rho d.g d.gPlus d.gMinus) + an.E
    ∧ (basicJackknifeAnalysis T d an).jk.Cv
        = jackknife (heatCapacityOn boltzman T deltaBeta 1 1 d.rho d.g d.gPlus d.gMinus)
          + an.Cv := by
  constructor
  · simp only [basicJackknifeAnalysis, addHarmonicJk, estimateJackknife, estimate_E_eq,
      basic_replicate_E]
    simp only [npMean_eq_meanOn, jackknife]
  · simp only [basicJackknifeAnalysis, addHarmonicJk, estimateJackknife, estimate_Cv_eq,
      basic_replicate_E, basic_replicate_Cv]
    simp only [npMean_eq_meanOn, jackknife]

theorem C25_alpha_jackknife_is_textbook {X : ℕ} (T : ℝ) (d : Samples X) (an : Analytic) :
    (alphaJackknifeAnalysis T d an).jk.E
        = jackknife (energyOn deltaBeta an.alphaPlus an.alphaMinus d.rho d.g d.gPlus d.gMinus)
          + an.E
    ∧ (alphaJackknifeAnalysis T d an).jk.Cv
        = jackknife (heatCapacityOn boltzman T deltaBeta an.alphaPlus an.alphaMinus
            d.rho d.g d.gPlus d.gMinus) + an.Cv := by
  constructor
  · simp only [alphaJackknifeAnalysis, addHarmonicJk, estimateJackknife, alpha_E_eq]
    simp only [calculateAlphaTerms, alpha_replicate_E, npMean_eq_meanOn, jackknife]
  · simp only [alphaJackknifeAnalysis, addHarmonicJk, estimateJackknife, alpha_Cv_eq]
    simp only [calculateAlphaTerms, alpha_replicate_E, alpha_replicate_Cv, npMean_eq_meanOn,
      jackknife]

/-- For a statistic linear in the sample means (here: constant ratio, so that the energy is linear
in the mean derivative) the jackknife energy equals the plain estimate. -/
theorem C25_linear_statistic {X : ℕ} (hX : 2 ≤ X) (T z : ℝ) (d : Samples X)
    (an : Analytic) (hg : ∀ i, d.g i / d.rho i = z) :
    (basicJackknifeAnalysis T d an).jk.E = (basicJackknifeAnalysis T d an).basic.E := by
  have hX0 : ∀ i : Fin X, (calculateJackknifeTerms (calculateBasicPropertyTerms deltaBeta d)).ratio i = z := by
    intro i
    have h1 : (calculateBasicPropertyTerms deltaBeta d).ratio = fun _ => z := by
      funext j; exact hg j
    have h2 : (2 : ℝ) ≤ X := by exact_mod_cast hX
    have h : ((X : ℝ) - 1) ≠ 0 := by intro h; linarith
    simp only [calculateJackknifeTerms, calculateJackknifeTerm, h1, npSum, sum_const, card_univ,
      Fintype.card_fin, nsmul_eq_mul]
    field_simp
  have hm := C25_mean_of_replicates hX (calculateBasicPropertyTerms deltaBeta d).sym1
  have hz : npMean (calculateBasicPropertyTerms deltaBeta d).ratio = z := by
    have h1 : (calculateBasicPropertyTerms deltaBeta d).ratio = fun _ => z := by
      funext j; exact hg j
    have : (X : ℝ) ≠ 0 := by
      have : 0 < X := by omega
      positivity
    rw [h1]; simp only [npMean, npSum, sum_const, card_univ, Fintype.card_fin, nsmul_eq_mul]
    field_simp
  have key : npMean (fun i => -1 * (calculateJackknifeTerms
      (calculateBasicPropertyTerms deltaBeta d)).sym1 i / z)
      = -1 * npMean (calculateBasicPropertyTerms deltaBeta d).sym1 / z := by
    rw [npMean_eq_meanOn, npMean_eq_meanOn, meanOn_div, meanOn_const_mul]
    simp only [calculateJackknifeTerms]; rw [← hm]
  simp only [basicJackknifeAnalysis, addHarmonicJk, addHarmonic, estimateJackknife, hX0, key]
  simp only [estimateBasicProperties, basicEstimateE, basicEstimateZ, hz]
  ring

/-- Jackknife errors are non-negative. -/
theorem C25_errors_nonneg {X : ℕ} (T : ℝ) (d : Samples X) (an : Analytic) :
    0 ≤ (basicJackknifeAnalysis T d an).jk.Eerr ∧ 0 ≤ (basicJackknifeAnalysis T d an).jk.Cverr
    ∧ 0 ≤ (alphaJackknifeAnalysis T d an).jk.Eerr ∧ 0 ≤ (alphaJackknifeAnalysis T d an).jk.Cverr
    ∧ 0 ≤ (basicStatisticalAnalysis T d an).Zerr ∧ 0 ≤ (alphaStatisticalAnalysis T d an).Zerr := by
  refine ⟨?_, ?_, ?_, ?_, ?_, ?_⟩ <;>
  simp only [basicJackknifeAnalysis, alphaJackknifeAnalysis, addHarmonicJk, estimateJackknife,
    basicStatisticalAnalysis, alphaStatisticalAnalysis, addHarmonic, estimateBasicProperties,
    basicEstimateZ, npStd] <;> positivity

/-- hypotheses of `C25_linear_statistic` are met by samples with different derivatives -/
noncomputable def constRatio : Samples 3 where
  rho := ![1, 2, 4]
  g := ![3, 6, 12]
  gPlus := ![5, 7, 1]
  gMinus := ![2, 2, 9]
example : 2 ≤ 3 ∧ ∀ i, constRatio.g i / constRatio.rho i = 3 := by
  refine ⟨by norm_num, fun i => ?_⟩
  fin_cases i <;> simp [constRatio] <;> norm_num

/-! ### C56: error bars -/

/-- The error reported for Z is the standard error of the mean of the ratios. -/
theorem C56_Z_error_is_standard_error {X : ℕ} (hX : 2 ≤ X) (T : ℝ) (d : Samples X)
    (an : Analytic) :
    (basicStatisticalAnalysis T d an).Zerr = standardError (fun i => d.g i / d.rho i)
    ∧ (alphaStatisticalAnalysis T d an).Zerr = standardError (fun i => d.g i / d.rho i) := by
  have h2 : (2 : ℝ) ≤ X := by exact_mod_cast hX
  have h : (0 : ℝ) < (X : ℝ) - 1 := by linarith
  have key : npStd 0 (fun i => d.g i / d.rho i) / Real.sqrt ((X : ℝ) - 1)
      = standardError (fun i => d.g i / d.rho i) := by
    rw [npStd, standardError, ← Real.sqrt_div' _ h.le, npMean_eq_meanOn]
    congr 1; rw [sub_zero, div_right_comm]
  exact ⟨key, key⟩

/-- What the code reports as jackknife errors, exactly: the textbook jackknife error times
`sqrt(n/(n-1))`.  (`np.std(.., ddof=1)` is used where the formula needs `ddof=0`.) -/
theorem C56_jackknife_error_partial {X : ℕ} (hX : 2 ≤ X) (T : ℝ) (d : Samples X) (an : Analytic) :
    (basicJackknifeAnalysis T d an).jk.Eerr
      = Real.sqrt ((X : ℝ) / ((X : ℝ) - 1))
        * jackknifeError (energyOn deltaBeta 1 1 d.rho d.g d.gPlus d.gMinus)
    ∧ (basicJackknifeAnalysis T d an).jk.Cverr
      = Real.sqrt ((X : ℝ) / ((X : ℝ) - 1))
        * jackknifeError (heatCapacityOn boltzman T deltaBeta 1 1 d.rho d.g d.gPlus d.gMinus)
    ∧ (alphaJackknifeAnalysis T d an).jk.Eerr
      = Real.sqrt ((X : ℝ) / ((X : ℝ) - 1))
        * jackknifeError (energyOn deltaBeta an.alphaPlus an.alphaMinus d.rho d.g d.gPlus d.gMinus)
    ∧ (alphaJackknifeAnalysis T d an).jk.Cverr
      = Real.sqrt ((X : ℝ) / ((X : ℝ) - 1))
        * jackknifeError (heatCapacityOn boltzman T deltaBeta an.alphaPlus an.alphaMinus
            d.rho d.g d.gPlus d.gMinus) := by
  have h2 : (2 : ℝ) ≤ X := by exact_mod_cast hX
  have h : (0 : ℝ) < (X : ℝ) - 1 := by linarith
  have hx : (0 : ℝ) < X := by linarith
  have key : ∀ stat : Finset (Fin X) → ℝ,
      Real.sqrt ((X : ℝ) - 1) * npStd 1 (fun i => stat (univ.erase i))
        = Real.sqrt ((X : ℝ) / ((X : ℝ) - 1)) * jackknifeError stat := by
    intro stat
    rw [sqrt_mul_npStd_one _ hX, jackknifeError, ← Real.sqrt_mul (by positivity)]
    congr 1; field_simp
  refine ⟨?_, ?_, ?_, ?_⟩
  · rw [← key]
    simp only [basicJackknifeAnalysis, addHarmonicJk, estimateJackknife, basic_replicate_E]
  · rw [← key]
    simp only [basicJackknifeAnalysis, addHarmonicJk, estimateJackknife, basic_replicate_E,
      basic_replicate_Cv]
  · rw [← key]
    simp only [alphaJackknifeAnalysis, addHarmonicJk, estimateJackknife]
    simp only [calculateAlphaTerms, alpha_replicate_E]
  · rw [← key]
    simp only [alphaJackknifeAnalysis, addHarmonicJk, estimateJackknife]
    simp only [calculateAlphaTerms, alpha_replicate_E, alpha_replicate_Cv]

/-- Whenever the textbook jackknife error is not zero the reported energy error is strictly larger:
the property "the reported jackknife error is the textbook one" fails for every such sample set. -/
theorem C56_jackknife_error_refuted {X : ℕ} (hX : 2 ≤ X) (T : ℝ) (d : Samples X) (an : Analytic)
    (hne : jackknifeError (energyOn deltaBeta 1 1 d.rho d.g d.gPlus d.gMinus) ≠ 0) :
    jackknifeError (energyOn deltaBeta 1 1 d.rho d.g d.gPlus d.gMinus)
      < (basicJackknifeAnalysis T d an).jk.Eerr := by
  rw [(C56_jackknife_error_partial hX T d an).1]
  have h2 : (2 : ℝ) ≤ X := by exact_mod_cast hX
  have h : (0 : ℝ) < (X : ℝ) - 1 := by linarith
  have hpos : 0 < jackknifeError (energyOn deltaBeta 1 1 d.rho d.g d.gPlus d.gMinus) :=
    lt_of_le_of_ne (Real.sqrt_nonneg _) (Ne.symm hne)
  have h1 : 1 < Real.sqrt ((X : ℝ) / ((X : ℝ) - 1)) := by
    rw [Real.lt_sqrt (by norm_num), one_pow, lt_div_iff₀ h]; linarith
  nlinarith

/-- a sample set of two samples with non-zero textbook error -/
noncomputable def twoSamples : Samples 2 where
  rho := ![1, 1]
  g := ![1, 1]
  gPlus := ![1, 2]
  gMinus := ![0, 0]
theorem C56_witness : jackknifeError (energyOn deltaBeta 1 1 twoSamples.rho twoSamples.g
    twoSamples.gPlus twoSamples.gMinus) ≠ 0 := by
  have e0 : (univ.erase 0 : Finset (Fin 2)) = {1} := by decide
  have e1 : (univ.erase 1 : Finset (Fin 2)) = {0} := by decide
  have hd := deltaBeta_pos
  apply ne_of_gt
  apply Real.sqrt_pos.mpr
  simp only [Fin.sum_univ_two, e0, e1, energyOn, meanOn, sum_singleton, card_singleton, twoSamples,
    card_univ, Fintype.card_fin]
  norm_num
  have h : 2 / (2 * deltaBeta) = deltaBeta⁻¹ := by field_simp
  have : (0:ℝ) < (deltaBeta⁻¹) ^ 2 := by positivity
  rw [h]
  nlinarith [this]

/-! ### C26: constant ratios -/

/-- If `g`, `g+`, `g-` are fixed multiples `z`, `zp`, `zm` of `rho`, all estimates are exact and
all errors vanish. -/
theorem C26_constant_ratio_exact {X : ℕ} (hX : 2 ≤ X) (T z zp zm : ℝ) (d : Samples X)
    (an : Analytic) (hrho : ∀ i, d.rho i ≠ 0) (hg : ∀ i, d.g i = z * d.rho i)
    (hp : ∀ i, d.gPlus i = zp * d.rho i) (hm : ∀ i, d.gMinus i = zm * d.rho i) :
    let Eex := -((zp - zm) / (2 * deltaBeta)) / z
    let Cex := ((zp - 2 * z + zm) / deltaBeta ^ 2 / z - Eex ^ 2) / (boltzman * T ^ 2)
    basicStatisticalAnalysis T d an = ⟨z, 0, Eex + an.E, 0, Cex + an.Cv, 0⟩
    ∧ (basicJackknifeAnalysis T d an).basic = ⟨z, 0, Eex + an.E, 0, Cex + an.Cv, 0⟩
    ∧ (basicJackknifeAnalysis T d an).jk = ⟨Eex + an.E, 0, Cex + an.Cv, 0⟩ := by
  intro Eex Cex
  have h2 : (2 : ℝ) ≤ X := by exact_mod_cast hX
  have hX1 : ((X : ℝ) - 1) ≠ 0 := by intro h; linarith
  have hX0 : (X : ℝ) ≠ 0 := by intro h; linarith
  have hr : (fun i => d.g i / d.rho i) = fun _ : Fin X => z := by
    funext i; rw [hg i, mul_div_assoc, div_self (hrho i), mul_one]
  have hs1 : (fun i => (d.gPlus i - d.gMinus i) / d.rho i / (2 * deltaBeta))
      = fun _ : Fin X => (zp - zm) / (2 * deltaBeta) := by
    funext i; rw [hp i, hm i, ← sub_mul, mul_div_assoc, div_self (hrho i), mul_one]
  have hs2 : (fun i => (d.gPlus i - 2 * d.g i + d.gMinus i) / d.rho i / deltaBeta ^ 2)
      = fun _ : Fin X => (zp - 2 * z + zm) / deltaBeta ^ 2 := by
    funext i
    have : d.gPlus i - 2 * d.g i + d.gMinus i = (zp - 2 * z + zm) * d.rho i := by
      rw [hp i, hm i, hg i]; ring
    rw [this, mul_div_assoc, div_self (hrho i), mul_one]
  have mconst : ∀ c : ℝ, npMean (fun _ : Fin X => c) = c := by
    intro c; simp only [npMean, npSum, sum_const, card_univ, Fintype.card_fin, nsmul_eq_mul]
    field_simp
  have sconst : ∀ dd c : ℝ, npStd dd (fun _ : Fin X => c) = 0 := by
    intro dd c; simp [npStd, mconst]
  have jconst : ∀ c : ℝ, calculateJackknifeTerm (fun _ : Fin X => c) = fun _ => c := by
    intro c; funext i
    simp only [calculateJackknifeTerm, npSum, sum_const, card_univ, Fintype.card_fin, nsmul_eq_mul]
    field_simp
  have hterms : calculateBasicPropertyTerms deltaBeta d
      = ⟨fun _ => z, fun _ => (zp - zm) / (2 * deltaBeta),
          fun _ => (zp - 2 * z + zm) / deltaBeta ^ 2⟩ := by
    simp only [calculateBasicPropertyTerms, hr, hs1, hs2]
  have hEx : -1 * ((zp - zm) / (2 * deltaBeta)) / z = Eex := by simp only [Eex]; ring
  have hb : estimateBasicProperties T (fun _ : Fin X => z) ((zp - zm) / (2 * deltaBeta))
      ((zp - 2 * z + zm) / deltaBeta ^ 2) = ⟨z, 0, Eex, 0, Cex, 0⟩ := by
    simp only [estimateBasicProperties, basicEstimateZ, basicEstimateE, basicEstimateCv, mconst,
      sconst, hEx, zero_div, Cex]
  refine ⟨?_, ?_, ?_⟩
  · simp only [basicStatisticalAnalysis, hterms, mconst, hb, addHarmonic]
  · simp only [basicJackknifeAnalysis, hterms, mconst, hb, addHarmonic]
  · simp only [basicJackknifeAnalysis, hterms, mconst, hb, addHarmonicJk, estimateJackknife,
      calculateJackknifeTerms, jconst, sconst, hEx, mul_zero]
    ext1 <;> simp only [Cex] <;> ring

/-- non-constant `rho`, all hypotheses of C26 hold -/
example : ∃ d : Samples 3, (∀ i, d.rho i ≠ 0) ∧ (∀ i, d.g i = 3 * d.rho i)
    ∧ (∀ i, d.gPlus i = 5 * d.rho i) ∧ (∀ i, d.gMinus i = 2 * d.rho i) ∧ d.rho 0 ≠ d.rho 1 := by
  refine ⟨⟨![1, 2, 4], ![3, 6, 12], ![5, 10, 20], ![2, 4, 8]⟩, ?_, ?_, ?_, ?_, ?_⟩
  · intro i; fin_cases i <;> norm_num
  · intro i; fin_cases i <;> norm_num
  · intro i; fin_cases i <;> norm_num
  · intro i; fin_cases i <;> norm_num
  · norm_num

/-! ### C27: the analytic contribution -/

/-- Changing the analytic contribution from `an₀` to `an` (same alphas) shifts E and Cv of the basic
and jackknife results by exactly the difference and changes nothing else. -/
theorem C27_harmonic_added_once {X : ℕ} (T : ℝ) (d : Samples X) (E Cv aP aM : ℝ) :
    let an : Analytic := ⟨E, Cv, aP, aM⟩
    let none : Analytic := ⟨0, 0, aP, aM⟩
    (∀ f ∈ [basicJackknifeAnalysis (X := X) T, alphaJackknifeAnalysis T],
      f d an = ⟨⟨(f d none).basic.Z, (f d none).basic.Zerr, (f d none).basic.E + E,
                 (f d none).basic.Eerr, (f d none).basic.Cv + Cv, (f d none).basic.Cverr⟩,
                ⟨(f d none).jk.E + E, (f d none).jk.Eerr, (f d none).jk.Cv + Cv,
                 (f d none).jk.Cverr⟩⟩)
    ∧ (∀ f ∈ [basicStatisticalAnalysis (X := X) T, alphaStatisticalAnalysis T],
      f d an = ⟨(f d none).Z, (f d none).Zerr, (f d none).E + E, (f d none).Eerr,
                (f d none).Cv + Cv, (f d none).Cverr⟩) := by
  intro an none
  simp only [List.forall_mem_cons, List.not_mem_nil, false_implies, implies_true, and_true]
  simp [basicJackknifeAnalysis, alphaJackknifeAnalysis, basicStatisticalAnalysis,
    alphaStatisticalAnalysis, addHarmonic, addHarmonicJk, an, none]

/-! ### C43: temperature and inverse temperature -/

/-- C43: the inverse temperature is `1 / (k_B T)` with Boltzmann's constant of CODATA 2014 in joules per
kelvin and the joules of an electronvolt, that is in units of 1/eV. -/
theorem C43_beta (T : ℝ) : beta T = 1.6021766208e-19 / (1.38064852e-23 * T) := by
  unfold beta boltzman nistJPerEv
  rcases eq_or_ne T 0 with rfl | h
  · simp
  · field_simp

theorem C43_T_of_beta_of_T (T : ℝ) (hT : T ≠ 0) : extractTFromBeta (beta T) = T := by
  have := boltzman_pos.ne'
  unfold extractTFromBeta beta; field_simp

theorem C43_beta_of_T_of_beta (b : ℝ) (hb : b ≠ 0) : beta (extractTFromBeta b) = b := by
  have := boltzman_pos.ne'
  unfold extractTFromBeta beta; field_simp

theorem C43_beta_strictly_decreasing (T₁ T₂ : ℝ) (h₁ : 0 < T₁) (h : T₁ < T₂) :
    beta T₂ < beta T₁ ∧ 0 < beta T₂ := by
  have hk := boltzman_pos
  have : 0 < T₂ := h₁.trans h
  unfold beta
  exact ⟨one_div_lt_one_div_of_lt (by positivity) (by nlinarith), by positivity⟩

example : (0 : ℝ) < 250 ∧ (250 : ℝ) < 300 := by norm_num

end Pibronic.Props.Stats
