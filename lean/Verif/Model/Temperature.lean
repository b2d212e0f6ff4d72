import Verif.Py.Round
import Verif.Model.Results
import Verif.Model.Postprocessing
import Verif.Model.Analytic

set_option autoImplicit false

/-!
The temperature on its way from a run to its analysis.  Elsewhere in the model a temperature is a number of
hundredths of a kelvin, because the names and the keys show two decimals; here the temperature of a run is
any number (pimc.py:559 takes it from the parameters), and rounding happens where the code
formats it.
-/
namespace Pibronic.Temperature
open Pibronic.Py Pibronic.FileName Pibronic.Results Pibronic.Postprocessing Pibronic.Analytic

/-- file_name.py:38-46 `pimc` with the format of `T`: the name of the results of a run. -/
def resultName (P : Nat) (T : ℚ) (J : Nat) : Str := pimc (natStr P) (formatF2 T) (natStr J)

/-- pimc.py:777-798 `__init__` with the data of a run at temperature `T`, and the attributes that the run
sets: the job's id and the directory. -/
def runBox {V : Type} (cls : Cls) (P : Nat) (T : ℚ) (X J : Nat) (hv hr root : Str) : Box V :=
  { (init cls (some ⟨P, hundredths T, X, some hv, some hr⟩) none : Box V) with
    pathRoot := some root, idJob := some J }

/-- julia_wrapper.py:72-91, 154-174: a calculation at temperature `T`; the key is formatted with two
decimals. -/
def calculation {V : Type} (float : Str → Except Err V) (m : Method) (h : Hashes) (T : ℚ) (out : Str)
    (old : Contents V) : Except Err (Contents V) :=
  baseFunc float m.checksRho h (hundredths T) false out old

/-- postprocessing.py:313-343 `load_analytic_data` at temperature `T`. -/
def analyticAt {V : Type} [Div V] [Zero V] [DecidableEq V] (h : Hashes) (T : ℚ) (c : Contents V) :
    Except Err (AnalyticData V) :=
  loadAnalytic h (hundredths T) c

end Pibronic.Temperature
