import Verif.Model.Analysis
import Verif.Model.Examples

set_option autoImplicit false

/-!
Model of the loops over data sets in `submit_jobs_to_server.py` of the example projects that submit sum over states,
Trotter and iterative calculations.

Simplification: the directories that a call makes do not matter for the next ones (the root stays, the files too), so
every call is given the disk as it was at the beginning; what the results files hold is given for each data set.
-/
namespace Pibronic.ExamplesSubmit
open Py FileName FileStructure Analytic Examples
open Pibronic.Analysis (PyStr)
variable {V : Type}

/-- One submitting call after the other; the first exception ends both. -/
def andAlso (a b : Submitted) : Submitted :=
  match a with
  | (cmds, some e) => (cmds, some e)
  | (cmds, none) => (cmds ++ b.1, b.2)

/-- A loop over data sets. -/
def eachSet (one : Nat → Submitted) : List Nat → Submitted
  | [] => ([], none)
  | d :: rest => andAlso (one d) (eachSet one rest)

/-- What the programs meet: the name of the host, absolute paths, the disk, the hash function, and what the results
files of a data set hold when they are looked at. -/
structure Site (V : Type) where
  host : Str
  absolute : Str → Str
  disk : Disk
  hash : Str → Str
  sosFile : Nat → Calc → Contents V
  trotterFile : Nat → Calc → Contents V

/-- artificial_systems/submit_jobs_to_server.py:163, paper_1.5025058/submit_jobs_to_server.py:162 `lst_BS` -/
def bases : List Nat := [80]

/-- artificial_systems/submit_jobs_to_server.py:164, paper_1.5025058/submit_jobs_to_server.py:163 `lst_T` -/
def temps : List Nat := [30000]

/-- artificial_systems/submit_jobs_to_server.py:168, paper_1.5025058/submit_jobs_to_server.py:167 `lst_P3` -/
def beads : List Nat := [50, 100, 150, 200, 300, 400, 500]

/-- artificial_systems/submit_jobs_to_server.py:171-172, paper_1.5025058/submit_jobs_to_server.py:170-171 -/
def sosTrotter (p : Project) (x : Site V)
    (trotter : FS → Str → (Calc → Contents V) → List Nat → List Nat → List Nat → Submitted) (d : Nat) : Submitted :=
  let opened := openProject p x.hash x.host none x.absolute x.disk d
  andAlso (wrapper (fun s h => generateSos s h (x.sosFile d) temps bases) opened)
    (wrapper (fun s h => trotter s h (x.trotterFile d) temps bases beads) opened)

/-- paper_1.5025058/submit_jobs_to_server.py:158-172 `automate_sos_trotter_submission` -/
def automatePaper (x : Site V) (name : Str) : Submitted :=
  match (do paper.assertName name; dictItem paper.systems name) with
  | .error e => ([], some e)
  | .ok ids => eachSet (sosTrotter paper x generateTrotterPaper) ids

/-- artificial_systems/submit_jobs_to_server.py:157-173 `automate_sos_trotter_submission`: line 161 compares objects. -/
def automateArtificial (x : Site V) (name : PyStr) : Submitted :=
  match (do
    artificial.assertName name.text
    if name.isLit c!"2x2" then dictItem artificial.systems name.text else .error .assertion) with
  | .error e => ([], some e)
  | .ok ids => eachSet (sosTrotter artificial x generateTrotterArtificial) ids

/-! ### the iterative method -/

/-- artificial_systems/submit_jobs_to_server.py:188-204, paper_1.5025058/submit_jobs_to_server.py:187-203: the command;
`.format` applies to the whole text, in which only the last piece has a field. -/
def iterativeCommand (s : FS) : Str :=
  c!"srun --pty --job-name=iterative_D" ++ natStr s.idData ++ c!" --mem=20GB python3 -c '" ++
    (jlImport ++ c!"n_iter = " ++ natStr 50 ++ c!";" ++ makeFS s ++
      c!"jw.prepare_julia();pibronic.julia_wrapper.iterate_method(FS, n_iterations=n_iter);") ++ c!"'"

/-- artificial_systems/submit_jobs_to_server.py:38-48, paper_1.5025058/submit_jobs_to_server.py:39-49
`execute_command_wrapper` with `debugging=True`, which waits: `stderr` is what the command writes there. -/
def executeWaiting (cmd stderr : Str) : Submitted :=
  if stderr ≠ [] ∧ (find c!"Out Of Memory" stderr).isSome then ([cmd], some .exception) else ([cmd], none)

/-- artificial_systems/submit_jobs_to_server.py:176-206, paper_1.5025058/submit_jobs_to_server.py:175-205
`iterative_method_wrapper` without a root -/
def iterativeOne (p : Project) (x : Site V) (stderr : Nat → Str) (d : Nat) : Submitted :=
  match (do
    p.assertId d
    let r ← p.chooseRoot x.host
    let (s, _) ← construct r (x.absolute r) d 0 false x.disk
    .ok s) with
  | .error e => ([], some e)
  | .ok s => executeWaiting (iterativeCommand s) (stderr d)

/-- artificial_systems/submit_jobs_to_server.py:209-215, paper_1.5025058/submit_jobs_to_server.py:208-214
`automate_iterative_submission` -/
def automateIterative (p : Project) (x : Site V) (stderr : Nat → Str) (name : Str) : Submitted :=
  match (do p.assertName name; dictItem p.systems name) with
  | .error e => ([], some e)
  | .ok ids => eachSet (iterativeOne p x stderr) ids

end Pibronic.ExamplesSubmit
