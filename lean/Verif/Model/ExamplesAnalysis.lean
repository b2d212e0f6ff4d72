import Verif.Model.Analysis
import Verif.Model.Examples

set_option autoImplicit false

/-!
Model of `analyze_results.py` in `examples/artificial_systems` and `examples/paper_1.5025058`: the program
analyses the results of every system, each system in a process of its own.

Simplifications: those of `Model/Analysis.lean`; whether the root directory is there is an input and does not
change; what the pool of a process does with a list of tasks is given by a function for each process; one step of
a process is a reading or the writing of one file.
-/
namespace Pibronic.ExamplesAnalysis
open Py FileName FileStructure Examples Analysis

/-- What does not change while the program runs. -/
structure Setting where
  /-- the directory with the program -/
  project : Project
  /-- `socket.gethostname()` -/
  host : Str
  /-- `os.path.abspath` of the root -/
  absRoot : Str
  /-- whether the root is a directory -/
  rootThere : Bool
  /-- the hash function -/
  hash : Str → Str
  /-- the iteration order of a `set` -/
  setOrder : List Str → List Str

/-! ### One system after the other -/

/-- artificial_systems/analyze_results.py:16-22, paper_1.5025058/analyze_results.py:16-22 `simple_wrapper` -/
noncomputable def simpleWrapper (q : Setting) (schedule : List (Nat × Nat) → List (Nat × Nat)) (s : FS) (d : Analysis.Disk) :
    Analysis.Disk × Option Err :=
  analyses q.hash q.setOrder schedule [(false, false), (true, false)] s d

/-- artificial_systems/analyze_results.py:31-38, paper_1.5025058/analyze_results.py:31-38: the loops over the data
sets and the sampling distributions. -/
noncomputable def analysisLoop (q : Setting) (schedule : List (Nat × Nat) → List (Nat × Nat)) :
    List (Nat × Nat) → Analysis.Disk → Analysis.Disk × Option Err
  | [], d => (d, none)
  | (i, r) :: rest, d =>
    if q.rootThere = false then (d, some .assertion)
    else
      let s := initFS q.project.serverRoot q.absRoot i r
      if (d.files s.pathRhoModel).isSome then
        match simpleWrapper q schedule s d with
        | (d', some e) => (d', some e)
        | (d', none) => analysisLoop q schedule rest d'
      else analysisLoop q schedule rest d

/-- artificial_systems/analyze_results.py:25-39, paper_1.5025058/analyze_results.py:25-39
`automate_statistical_analysis`: the disk afterwards and the exception.  (If both the root and the lists of the
system failed, the exception would be that of the root.) -/
noncomputable def automateAnalysis (q : Setting) (schedule : List (Nat × Nat) → List (Nat × Nat)) (name : Str)
    (d : Analysis.Disk) : Analysis.Disk × Option Err :=
  match q.project.assertName name with
  | .error e => (d, some e)
  | .ok _ =>
    match q.project.chooseRoot q.host with
    | .error e => (d, some e)
    | .ok _ =>
      match q.project.visits name with
      | .error e => (d, some e)
      | .ok visits => analysisLoop q schedule visits d

/-! ### All systems at the same time -/

/-- Where a process is. -/
inductive Phase where
  /-- not started yet -/
  | begin
  /-- at the head of the loops -/
  | next (todo : List (Nat × Nat))
  /-- before the next analysis of the object (jackknife or not) -/
  | method (s : FS) (methods : List Bool) (todo : List (Nat × Nat))
  /-- in the pool, the tasks `tasks` are left, `err` was raised -/
  | tasks (s : FS) (op : Op) (tasks : List (Nat × Nat)) (err : Option Err) (methods : List Bool)
      (todo : List (Nat × Nat))
  /-- a task is about to write -/
  | write (path : Str) (t : Thermo) (s : FS) (op : Op) (tasks : List (Nat × Nat)) (err : Option Err)
      (methods : List Bool) (todo : List (Nat × Nat))
  /-- ended -/
  | done (err : Option Err)

/-- One step of the process of the system `name`
(artificial_systems/analyze_results.py:16-39, paper_1.5025058/analyze_results.py:16-39, stats.py:148-179, 219-268,
336-377). -/
noncomputable def step (q : Setting) (schedule : List (Nat × Nat) → List (Nat × Nat)) (name : Str) :
    Phase → Analysis.Disk → Phase × Analysis.Disk
  | .begin, d =>
    match q.project.assertName name with
    | .error e => (.done (some e), d)
    | .ok _ =>
      match q.project.chooseRoot q.host with
      | .error e => (.done (some e), d)
      | .ok _ =>
        match q.project.visits name with
        | .error e => (.done (some e), d)
        | .ok visits => (.next visits, d)
  | .next [], d => (.done none, d)
  | .next ((i, r) :: todo), d =>
    if q.rootThere = false then (.done (some .assertion), d)
    else
      let s := initFS q.project.serverRoot q.absRoot i r
      if (d.files s.pathRhoModel).isSome then (.method s [false, true] todo, d) else (.next todo, d)
  | .method _ [] todo, d => (.next todo, d)
  | .method s (jackknife :: methods) todo, d =>
    match plan q.hash s d with
    | .error e => (.done (some e), d)
    | .ok (s', ts) =>
      (.tasks s' (if jackknife then .basicJackknife else .basic) (schedule ts) none methods todo, d)
  | .tasks s _ [] none methods todo, d => (.method s methods todo, d)
  | .tasks _ _ [] (some e) _ _, d => (.done (some e), d)
  | .tasks s op ((P, T) :: rest) err methods todo, d =>
    match analyse q.setOrder s op d P T with
    | .error e => (.tasks s op rest (some (err.getD e)) methods todo, d)
    | .ok (path, t) => (.write path t s op rest err methods todo, d)
  | .write path t s op rest err methods todo, d =>
    (.tasks s op rest err methods todo, d.write path (.thermo t))
  | .done err, d => (.done err, d)

/-- The phases of all processes and the disk they share. -/
structure World where
  phases : Str → Phase
  disk : Analysis.Disk

/-- artificial_systems/analyze_results.py:47-60, paper_1.5025058/analyze_results.py:48-61: all processes run at the
same time; `moves` says which of them makes the next step. -/
noncomputable def together (q : Setting) (schedule : Str → List (Nat × Nat) → List (Nat × Nat)) :
    List Str → World → World
  | [], w => w
  | name :: moves, w =>
    let (phase, disk) := step q (schedule name) name (w.phases name) w.disk
    together q schedule moves ⟨fun n => if n = name then phase else w.phases n, disk⟩

/-- `k` steps of one process on a disk that nobody else uses. -/
noncomputable def alone (q : Setting) (schedule : List (Nat × Nat) → List (Nat × Nat)) (name : Str) :
    Nat → Phase × Analysis.Disk → Phase × Analysis.Disk
  | 0, x => x
  | k + 1, x => alone q schedule name k (step q schedule name x.1 x.2)

end Pibronic.ExamplesAnalysis
