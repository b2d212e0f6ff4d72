import Verif.Py.Round
import Verif.Model.JobParams
import Verif.Model.JobScript
import Verif.Model.Results
import Mathlib.Data.Real.Archimedean

set_option autoImplicit false

/-!
The sampling script that a job runs: `server/nlogn_feynman/pimc.py` and `server/compute_canada/pimc.py`
(the two files are the same program), and how the job scripts call it.

Simplifications: the counts, ids and the number of beads are non-negative integers and the temperature is
a non-negative number, anything else is an error of the kind `TypeError`; what `preprocess` raises and what
is computed for a block are arbitrary functions of the parameters; directories are not part of the disk.
-/
namespace Pibronic.ServerJob
open Pibronic.Py Pibronic.JobParams Pibronic.JobScript Pibronic.Results

/-- a parameter that is used as a count -/
def count : Json → Except Err Nat
  | .int (.ofNat n) => .ok n
  | _ => .error .type

/-- pimc.py:780, file_name.py:38-46: the hundredths of a kelvin that `"{T:.2f}"` shows -/
noncomputable def shownTemperature (val : Str → ℝ) (T : Json) : Except Err Nat :=
  match number val T with
  | some t => if 0 ≤ t then .ok (hundredths t) else .error .type
  | none => .error .type

variable {V : Type}

/-- nlogn_feynman/pimc.py:14-37, compute_canada/pimc.py:14-37: the script with the arguments `argv`
(the first one is its own name).  The id of the job is a text; it is read as an integer only when the
results are saved (pimc.py:800-805). -/
noncomputable def samplingMain (env : Env) (dB : Quantity) (prep : BoxParams → Except Err Unit)
    (vals : BoxParams → BlockValues V) (argv : List Str) (disk : Disk V) : Disk V × Except Err Unit :=
  let run : Except Err (Disk V) :=
    match argv with
    | [_, text, scratch, id] => do
      let b ← loadJsonString env dB text
      prep b
      let D ← count b.idData
      let R ← count b.idRho
      let P ← count b.beads
      let T ← shownTemperature env.val b.temperature
      let X ← count b.samples
      let B ← count b.blockSize
      let blocks ← count b.blocks
      let result : Box V := { (init .pm (some ⟨P, T, X, b.hashVib, b.hashRho⟩) none : Box V) with
        pathRoot := some (jobResults scratch D R) }
      let done ← blockLoop (vals b) X B 0 blocks result
      if blocks = 0 then .error .unbound
      else do
        let J ← if done.samples.isZeroLit then .ok 0 else pyInt id
        saveResults disk { done with idJob := some J }
    | _ => .error .assertion
  match run with
  | .ok disk' => (disk', .ok ())
  | .error e => (disk, .error e)

/-- the characters at which the shell splits the value of an unquoted variable -/
def isIfs (c : Char) : Bool := c == ' ' || c == '\t' || c == '\n'

/-- the words of the value of an unquoted variable -/
def shellWords (s : Str) : List Str := (s.splitOnP isIfs).filter fun w => !w.isEmpty

/-- nlogn_feynman/pimc_job.sh:28, compute_canada/pimc_job.sh:28: the arguments that the job scripts call the
script with: the parameters are quoted, the scratch directory and the id are not.  (The name of the script
is unquoted as well; here it is one word.) -/
def scriptArguments (script text scratch id : Str) : List Str :=
  [script, text] ++ shellWords scratch ++ shellWords id

end Pibronic.ServerJob
