import Verif.Py.Str
import Verif.Py.Chars

set_option autoImplicit false

/-! Model of `pibronic/data/file_name.py`: the naming conventions.
Every argument is a text, exactly as in Python (`{:s}` fields; the defaults are format fields). -/
namespace Pibronic.FileName
open Py

/-- file_name.py:21-31 `execution_output` -/
def executionOutput (D R P T J : Str) : Str :=
  c!"D" ++ D ++ c!"_R" ++ R ++ c!"_P" ++ P ++ c!"_T" ++ T ++ c!".o" ++ J

/-- file_name.py:38-46 `pimc` -/
def pimc (P T J : Str) : Str :=
  c!"P" ++ P ++ c!"_T" ++ T ++ c!"_J" ++ J ++ c!"_data_points.npz"

/-- file_name.py:54-62 `jackknife` -/
def jackknife (P T X : Str) : Str :=
  c!"P" ++ P ++ c!"_T" ++ T ++ c!"_X" ++ X ++ c!"_thermo"

/-- file_name.py:68-76 `sos` -/
def sos (B : Str) : Str := c!"sos_B" ++ B ++ c!".json"

/-- file_name.py:82-90 `trotter` -/
def trotter (P B : Str) : Str := c!"trotter_P" ++ P ++ c!"_B" ++ B ++ c!".json"

/-- file_name.py:98-106 `training_data_input` -/
def trainingDataInput (P T J : Str) : Str :=
  c!"P" ++ P ++ c!"_T" ++ T ++ c!"_J" ++ J ++ c!"_training_data_input.npz"

/-- file_name.py:114-122 `training_data_g_output` -/
def trainingDataGOutput (P T J : Str) : Str :=
  c!"P" ++ P ++ c!"_T" ++ T ++ c!"_J" ++ J ++ c!"_training_data_g_output.npz"

/-- file_name.py:130-138 `training_data_rho_output` -/
def trainingDataRhoOutput (P T J : Str) : Str :=
  c!"P" ++ P ++ c!"_T" ++ T ++ c!"_J" ++ J ++ c!"_training_data_rho_output.npz"

/-- The default arguments `"{P:d}"`, `"{T:.2f}"`, `"{J:d}"`, `"{X:d}"`, `"{B:d}"`
(file_name.py:25, 41, 57, 71, 85). -/
def fieldP : Str := c!"{P:d}"
@[inherit_doc fieldP] def fieldT : Str := c!"{T:.2f}"
@[inherit_doc fieldP] def fieldJ : Str := c!"{J:d}"
@[inherit_doc fieldP] def fieldX : Str := c!"{X:d}"
@[inherit_doc fieldP] def fieldB : Str := c!"{B:d}"

/-- file_name.py:149-192, the fixed names. -/
def coupledModel : Str := c!"coupled_model.json"
@[inherit_doc coupledModel] def originalModel : Str := c!"original_coupled_model.json"
@[inherit_doc coupledModel] def harmonicModel : Str := c!"harmonic_model.json"
@[inherit_doc coupledModel] def samplingModel : Str := c!"sampling_model.json"
@[inherit_doc coupledModel] def iterativeModel : Str := c!"iterative_model.json"
@[inherit_doc coupledModel] def iterativeMatrix : Str := c!"iterative_matrix.txt"
@[inherit_doc coupledModel] def analyticResults : Str := c!"analytic_results.json"
@[inherit_doc coupledModel] def originalAnalyticResults : Str := c!"original_analytic_results.json"
@[inherit_doc coupledModel] def orthogonalMatrix : Str := c!"orthogonal_matrix.npy"

end Pibronic.FileName
