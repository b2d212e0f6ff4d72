import Mathlib.Data.Real.Basic
import Mathlib.Tactic.NormNum

set_option autoImplicit false

/-! Model of `pibronic/constants.py` (exact arithmetic). -/
namespace Pibronic.Constants

/-- constants.py:11-12 `nist_j_per_ev` (joules per eV). -/
noncomputable def nistJPerEv : ℝ := 1.6021766208e-19

/-- constants.py:24 `boltzman = 1.38064852e-23 / nist_j_per_ev` (eV per kelvin). -/
noncomputable def boltzman : ℝ := 1.38064852e-23 / nistJPerEv

/-- constants.py:26 `hbar = 1.0`. -/
noncomputable def hbar : ℝ := 1.0

/-- constants.py:28 `delta_beta = 2.0e-4`. -/
noncomputable def deltaBeta : ℝ := 2.0e-4

/-- constants.py:41-44 `beta(temperature) = 1. / (temperature * boltzman)`. -/
noncomputable def beta (temperature : ℝ) : ℝ := 1 / (temperature * boltzman)

/-- constants.py:47-50 `extract_T_from_beta(beta) = 1. / (beta * boltzman)`. -/
noncomputable def extractTFromBeta (b : ℝ) : ℝ := 1 / (b * boltzman)

end Pibronic.Constants
