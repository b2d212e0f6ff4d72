import Mathlib.Analysis.Real.Sqrt
import Mathlib.Algebra.BigOperators.Fin
import Mathlib.Algebra.Order.BigOperators.Ring.Finset
import Verif.Model.Constants

set_option autoImplicit false

/-!
Model of `pibronic/stats/stats.py` and `pibronic/stats/jackknife.py` in exact (real) arithmetic.

Simplifications:
* a numpy array of `X` floats is a function `Fin X → ℝ`; `pimc_result.samples` is `X`
  (the loader makes the array length and `samples` agree, see `Model/Results.lean`);
* IEEE rounding, overflow and NaN are not modelled.  In particular numpy's `x / 0` (inf / nan) is
  Lean's `x / 0 = 0`; theorems for which this matters carry a hypothesis excluding it.
-/
namespace Pibronic.Stats
open Constants Finset

/-- a numpy array of `X` floats -/
abbrev Arr (X : ℕ) := Fin X → ℝ

/-- `np.sum(array)`. -/
def npSum {X : ℕ} (a : Arr X) : ℝ := ∑ i, a i

/-- `np.mean(array)`. -/
noncomputable def npMean {X : ℕ} (a : Arr X) : ℝ := npSum a / (X : ℝ)

/-- `np.std(array, ddof=ddof)`. -/
noncomputable def npStd {X : ℕ} (ddof : ℝ) (a : Arr X) : ℝ :=
  Real.sqrt ((∑ i, (a i - npMean a) ^ 2) / ((X : ℝ) - ddof))

/-- The arrays of a `BoxResultPM` object that the statistics read
(stats.py:186-190: `scaled_rho`, `scaled_g`, `scaled_gofr_plus`, `scaled_gofr_minus`). -/
structure Samples (X : ℕ) where
  rho : Arr X
  g : Arr X
  gPlus : Arr X
  gMinus : Arr X

/-- The entries of `analytic_data` that the statistics read
(stats.py:194, 207-208; filled in by postprocessing.py:313-343). -/
structure Analytic where
  E : ℝ
  Cv : ℝ
  alphaPlus : ℝ
  alphaMinus : ℝ

/-- The dictionary returned by `estimate_basic_properties` (stats.py:119-122). -/
@[ext] structure Estimate where
  Z : ℝ
  Zerr : ℝ
  E : ℝ
  Eerr : ℝ
  Cv : ℝ
  Cverr : ℝ

/-- The dictionary returned by `estimate_jackknife` (jackknife.py:102-105). -/
@[ext] structure JkEstimate where
  E : ℝ
  Eerr : ℝ
  Cv : ℝ
  Cverr : ℝ

/-- The output dictionary of the jackknife analyses: the basic entries and the entries renamed
with the prefix `jk_` (stats.py:294-299, 328-333). -/
@[ext] structure Output where
  basic : Estimate
  jk : JkEstimate

/-- `[ratio, first_symmetric_derivative, second_symmetric_derivative]`. -/
structure Terms (X : ℕ) where
  ratio : Arr X
  sym1 : Arr X
  sym2 : Arr X

/-- stats.py:38-55 `calculate_basic_property_terms`. -/
noncomputable def calculateBasicPropertyTerms {X : ℕ} (dB : ℝ) (d : Samples X) : Terms X where
  ratio := fun i => d.g i / d.rho i
  sym1 := fun i => (d.gPlus i - d.gMinus i) / d.rho i / (2 * dB)
  sym2 := fun i => (d.gPlus i - 2 * d.g i + d.gMinus i) / d.rho i / dB ^ 2

/-- The list returned by `calculate_alpha_terms` (stats.py:75-79). Here the two derivatives are
scalars (they are built from means), unlike in the basic terms. -/
structure AlphaTerms (X : ℕ) where
  ratio : Arr X
  sym1 : ℝ
  sym2 : ℝ
  ratioPlus : Arr X
  alphaPlus : ℝ
  ratioMinus : Arr X
  alphaMinus : ℝ

/-- stats.py:58-81 `calculate_alpha_terms`. `np.mean` of the scalars `alpha_*` is the identity. -/
noncomputable def calculateAlphaTerms {X : ℕ} (dB : ℝ) (d : Samples X) (aP aM : ℝ) :
    AlphaTerms X :=
  let ratio : Arr X := fun i => d.g i / d.rho i
  let rP : Arr X := fun i => d.gPlus i / d.rho i
  let rM : Arr X := fun i => d.gMinus i / d.rho i
  { ratio := ratio
    sym1 := (npMean rP * aP - npMean rM * aM) / (2 * dB)
    sym2 := (npMean rP * aP - 2 * npMean ratio + npMean rM * aM) / dB ^ 2
    ratioPlus := rP, alphaPlus := aP, ratioMinus := rM, alphaMinus := aM }

/-- stats.py:84-90 `basic_estimate_Z_monte_carlo`. -/
noncomputable def basicEstimateZ {X : ℕ} (gOverRho : Arr X) : ℝ × ℝ :=
  (npMean gOverRho, npStd 0 gOverRho / Real.sqrt ((X : ℝ) - 1))

/-- stats.py:93-97 `basic_estimate_internal_energy`; `meanSym1 = np.mean(first_symmetric_derivative)`. -/
noncomputable def basicEstimateE (meanSym1 zMC : ℝ) : ℝ × ℝ := (-1 * meanSym1 / zMC, 0)

/-- stats.py:100-106 `basic_estimate_heat_capacity`. -/
noncomputable def basicEstimateCv (meanSym2 zMC internalE T : ℝ) : ℝ × ℝ :=
  ((meanSym2 / zMC - internalE ^ 2) / (boltzman * T ^ 2), 0)

/-- stats.py:109-123 `estimate_basic_properties`, given the mean of the two derivative terms
(arrays in the basic case, scalars in the alpha case, where `np.mean` is the identity). -/
noncomputable def estimateBasicProperties {X : ℕ} (T : ℝ) (gr : Arr X) (m1 m2 : ℝ) : Estimate :=
  let z := basicEstimateZ gr
  let e := basicEstimateE m1 z.1
  let c := basicEstimateCv m2 z.1 e.1 T
  { Z := z.1, Zerr := z.2, E := e.1, Eerr := e.2, Cv := c.1, Cverr := c.2 }

/-- stats.py:126-130 `add_harmonic_contribution` on the basic dictionary. -/
def addHarmonic (r : Estimate) (E Cv : ℝ) : Estimate := { r with E := r.E + E, Cv := r.Cv + Cv }

/-- stats.py:126-130 `add_harmonic_contribution` on the jackknife dictionary. -/
def addHarmonicJk (r : JkEstimate) (E Cv : ℝ) : JkEstimate :=
  { r with E := r.E + E, Cv := r.Cv + Cv }

/-- stats.py:182-196 `basic_statistical_analysis`. -/
noncomputable def basicStatisticalAnalysis {X : ℕ} (T : ℝ) (d : Samples X) (an : Analytic) :
    Estimate :=
  let t := calculateBasicPropertyTerms deltaBeta d
  addHarmonic (estimateBasicProperties T t.ratio (npMean t.sym1) (npMean t.sym2)) an.E an.Cv

/-- stats.py:199-216 `alpha_statistical_analysis`. -/
noncomputable def alphaStatisticalAnalysis {X : ℕ} (T : ℝ) (d : Samples X) (an : Analytic) :
    Estimate :=
  let t := calculateAlphaTerms deltaBeta d an.alphaPlus an.alphaMinus
  addHarmonic (estimateBasicProperties T t.ratio t.sym1 t.sym2) an.E an.Cv

/-- jackknife.py:60-70 `calculate_jackknife_term`. -/
noncomputable def calculateJackknifeTerm {X : ℕ} (a : Arr X) : Arr X :=
  fun i => (npSum a - a i) / ((X : ℝ) - 1)

/-- jackknife.py:73-74 `calculate_jackknife_terms`. -/
noncomputable def calculateJackknifeTerms {X : ℕ} (t : Terms X) : Terms X where
  ratio := calculateJackknifeTerm t.ratio
  sym1 := calculateJackknifeTerm t.sym1
  sym2 := calculateJackknifeTerm t.sym2

/-- jackknife.py:14-57 `calculate_alpha_jackknife_terms`. -/
noncomputable def calculateAlphaJackknifeTerms {X : ℕ} (dB : ℝ) (ratio LN : Arr X) (aP : ℝ)
    (RN : Arr X) (aM : ℝ) : Terms X :=
  let jkRatio : Arr X := fun i => (npSum ratio - ratio i) / ((X : ℝ) - 1)
  let jkLN : Arr X := fun i => (npSum LN - LN i) / ((X : ℝ) - 1)
  let jkRN : Arr X := fun i => (npSum RN - RN i) / ((X : ℝ) - 1)
  { ratio := jkRatio
    sym1 := fun i => (jkLN i * aP - jkRN i * aM) / (2 * dB)
    sym2 := fun i => (jkLN i * aP - 2 * jkRatio i + jkRN i * aM) / dB ^ 2 }

/-- jackknife.py:77-105 `estimate_jackknife` (the argument `delta_beta` is unused there). -/
noncomputable def estimateJackknife {X : ℕ} (T : ℝ) (input : Estimate) (jk : Terms X) :
    JkEstimate :=
  let fE : Arr X := fun i => -1 * jk.sym1 i / jk.ratio i
  let fC : Arr X := fun i => (jk.sym2 i / jk.ratio i - fE i ^ 2) / (boltzman * T ^ 2)
  { E := (X : ℝ) * input.E - ((X : ℝ) - 1) * npMean fE
    Eerr := Real.sqrt ((X : ℝ) - 1) * npStd 1 fE
    Cv := (X : ℝ) * input.Cv - ((X : ℝ) - 1) * npMean fC
    Cverr := Real.sqrt ((X : ℝ) - 1) * npStd 1 fC }

/-- stats.py:271-299 `basic_jackknife_analysis`. -/
noncomputable def basicJackknifeAnalysis {X : ℕ} (T : ℝ) (d : Samples X) (an : Analytic) :
    Output :=
  let t := calculateBasicPropertyTerms deltaBeta d
  let jt := calculateJackknifeTerms t
  let b := estimateBasicProperties T t.ratio (npMean t.sym1) (npMean t.sym2)
  let j := estimateJackknife T b jt
  { basic := addHarmonic b an.E an.Cv, jk := addHarmonicJk j an.E an.Cv }

/-- stats.py:302-333 `alpha_jackknife_analysis`. -/
noncomputable def alphaJackknifeAnalysis {X : ℕ} (T : ℝ) (d : Samples X) (an : Analytic) :
    Output :=
  let t := calculateAlphaTerms deltaBeta d an.alphaPlus an.alphaMinus
  let jt := calculateAlphaJackknifeTerms deltaBeta t.ratio t.ratioPlus t.alphaPlus t.ratioMinus
    t.alphaMinus
  let b := estimateBasicProperties T t.ratio t.sym1 t.sym2
  let j := estimateJackknife T b jt
  { basic := addHarmonic b an.E an.Cv, jk := addHarmonicJk j an.E an.Cv }

end Pibronic.Stats
