import Verif.Model.Workflow
import Verif.Model.FileStructure

set_option autoImplicit false

/-!
Model of the entry points of `pibronic/vibronic/electronic_structure.py`: `main`, `test_one` and
`calculate_vibronic_model_wrapper_one`.

Simplifications: `os.makedirs(path, exist_ok=True)` succeeds; how the calculations end and the state
file that is found depend on the directory of the job (`env`, `files`); `int` is a parameter.
-/
namespace Pibronic.VibronMain
open Py FileStructure Workflow Buffer

/-- What a call did: the directories it made, the job it constructed with its directory, and how it
ended. -/
structure Outcome where
  made : List Str
  job : Option (Str × Job)
  run : Run Unit

/-- Make the directory, construct the object and run it. -/
def start (env : Str → Env) (files : Str → Option Str) (root : Str) (state : Int) : Outcome :=
  let r := execute (env root) (some state) (files root)
  ⟨[root], r.1.map fun j => (root, j), r.2⟩

/-- The default arguments of electronic_structure.py:1662, 1677. -/
def defaultMolecule : Str := c!"ch2o"
@[inherit_doc defaultMolecule] def defaultState : Int := 0

/-- electronic_structure.py:1662-1672 `test_one`; `here` is the directory of the program. -/
def testOne (env : Str → Env) (files : Str → Option Str) (here molecule : Str) (state : Int) : Outcome :=
  start env files (join here molecule) state

/-- electronic_structure.py:1677-1686 `calculate_vibronic_model_wrapper_one`: the number of the data
set is never put into the path. -/
def wrapperOne (env : Str → Env) (files : Str → Option Str) (_dataSet : Nat) (_molecule : Str)
    (state : Int) : Outcome :=
  start env files c!"/work/ngraymon/pimc/data_set_{:d}/electronic_structure/" state

/-- electronic_structure.py:1689-1701 `main`; `argv` is `sys.argv`. -/
def main (int : Str → Except Err Int) (env : Str → Env) (files : Str → Option Str) (here : Str) :
    List Str → Outcome
  | [_, molecule] => testOne env files here molecule defaultState
  | [_, molecule, stage] =>
    match int stage with
    | .error e => ⟨[], none, .raised e⟩
    | .ok n => testOne env files here molecule n
  | _ => testOne env files here defaultMolecule defaultState

end Pibronic.VibronMain
