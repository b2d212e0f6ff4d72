import Mathlib.Analysis.Real.Sqrt
import Mathlib.Algebra.BigOperators.Fin
import Mathlib.Algebra.BigOperators.Field

set_option autoImplicit false

/-!
Independent specification of the statistics: plug-in estimators on an arbitrary subset of the
samples and the textbook (Quenouille-Tukey) jackknife built from them.  Nothing here refers to
the model.
-/
namespace Pibronic.Spec.Stats
open Finset

/-- mean of `f` over the samples in `S` -/
noncomputable def meanOn {X : ℕ} (S : Finset (Fin X)) (f : Fin X → ℝ) : ℝ :=
  (∑ i ∈ S, f i) / (S.card : ℝ)

/-- Plug-in estimate of the internal energy from the samples in `S`:
minus the symmetric difference quotient of the mean ratios, divided by the mean ratio.
`aP`, `aM` are the weights of the plus / minus ratio (1 for the basic method). -/
noncomputable def energyOn {X : ℕ} (δ aP aM : ℝ) (rho g gp gm : Fin X → ℝ) (S : Finset (Fin X)) :
    ℝ :=
  -(((meanOn S fun i => gp i / rho i) * aP - (meanOn S fun i => gm i / rho i) * aM) / (2 * δ))
    / (meanOn S fun i => g i / rho i)

/-- Plug-in estimate of the heat capacity from the samples in `S`. -/
noncomputable def heatCapacityOn {X : ℕ} (kB T δ aP aM : ℝ) (rho g gp gm : Fin X → ℝ)
    (S : Finset (Fin X)) : ℝ :=
  ((((meanOn S fun i => gp i / rho i) * aP + (meanOn S fun i => gm i / rho i) * aM
      - 2 * meanOn S fun i => g i / rho i) / δ ^ 2) / (meanOn S fun i => g i / rho i)
    - energyOn δ aP aM rho g gp gm S ^ 2) / (kB * T ^ 2)

/-- Bias corrected jackknife estimate of a statistic of the sample set:
`n θ - (n-1) * average of the leave-one-out values`. -/
noncomputable def jackknife {X : ℕ} (stat : Finset (Fin X) → ℝ) : ℝ :=
  X * stat univ - (X - 1) * meanOn univ fun i => stat (univ.erase i)

/-- Textbook jackknife standard error: `sqrt((n-1)/n * Σ (θ_i - mean θ)^2)`. -/
noncomputable def jackknifeError {X : ℕ} (stat : Finset (Fin X) → ℝ) : ℝ :=
  Real.sqrt (((X : ℝ) - 1) / X *
    ∑ i : Fin X, (stat (univ.erase i) - meanOn univ fun j => stat (univ.erase j)) ^ 2)

/-- Standard error of the mean, unbiased sample variance divided by `n`. -/
noncomputable def standardError {X : ℕ} (f : Fin X → ℝ) : ℝ :=
  Real.sqrt ((∑ i, (f i - meanOn univ f) ^ 2) / ((X : ℝ) - 1) / X)

end Pibronic.Spec.Stats
