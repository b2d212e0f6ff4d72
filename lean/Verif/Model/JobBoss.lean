import Verif.Py.Str
import Verif.Py.Chars

set_option autoImplicit false

/-!
Model of `pibronic/server/job_boss.py`: splitting a calculation into jobs, submitting them, the job
id, and waiting for a job.

Simplifications: parameters are non-negative ints, floats given in hundredths (temperatures), texts,
`None`, and lists of ints or floats; the answers of Slurm's programs are inputs; the sbatch command
line itself is not spelled out, a submission is recorded as the parameters it carries.
-/
namespace Pibronic.JobBoss
open Py

/-- A value in a parameter dictionary. -/
inductive PVal where
  | int (n : Nat)
  | float (t : Nat)
  | str (s : Str)
  | none
  | ints (l : List Nat)
  | floats (l : List Nat)
  deriving DecidableEq, Repr

/-- A parameter dictionary. -/
abbrev Dict := Str → Option PVal

/-- `d[k] = v` -/
def Dict.set (d : Dict) (k : Str) (v : PVal) : Dict := fun j => if j = k then some v else d j

/-- `d.update(new)` -/
def Dict.update (d new : Dict) : Dict := fun j => (new j).orElse fun _ => d j

/-- `d[k]`: `KeyError` when absent -/
def Dict.get (d : Dict) (k : Str) : Except Err PVal :=
  match d k with
  | some v => .ok v
  | none => .error .key

/-- job_boss.py:498 `PimcSubmissionClass.MAX_SAMPLES_PER_JOB` -/
def maxSamplesPerJob : Nat := 100000

/-- job_boss.py:538-570 `setup_blocks_and_jobs`: what it leaves in the dictionary, which may be changed
when it raises, and `n_jobs`.  (Simplification: a number of samples overall that is a float or a list is a
`TypeError` here.  With a float Python only raises it when it comes to submitting, and only from 200000 on.) -/
def setup (d : Dict) : Dict × Except Err Nat :=
  match d.get c!"number_of_samples", d.get c!"block_size" with
  | .error e, _ => (d, .error e)
  | _, .error e => (d, .error e)
  | .ok (.int n), .ok (.int b) =>
    if ¬ b ≤ n then (d, .error .assertion)
    else if ¬ b ≤ maxSamplesPerJob then (d, .error .assertion)
    else
      let perJob := min n maxSamplesPerJob
      let d := d.set c!"number_of_samples_per_job" (.int perJob)
      let d := d.set c!"number_of_samples" (.int perJob)
      if b = 0 then (d, .error .zeroDivision)
      else
        let d := d.set c!"number_of_blocks" (.int (perJob / b))
        match d.get c!"number_of_samples_overall" with
        | .error e => (d, .error e)
        | .ok (.int total) =>
          let (d, total) :=
            if total = 0 then (d.set c!"number_of_samples_overall" (.int n), n) else (d, total)
          (d, .ok (max 1 (total / maxSamplesPerJob)))
        | .ok _ => (d, .error .type)
  | _, _ => (d, .error .assertion)

/-- job_boss.py:538-570 `setup_blocks_and_jobs`; returns the new dictionary and `n_jobs`. -/
def setupBlocksAndJobs (d : Dict) : Except Err (Dict × Nat) :=
  match setup d with
  | (d, .ok n) => .ok (d, n)
  | (_, .error e) => .error e

/-- job_boss.py:168-178 `extract_id_job_from_output` for a text. -/
def extractIdJob (out : Str) : Except Err (Option Nat) :=
  if out.length ≥ 21 then do .ok (some (← pyInt (out.drop 20)))
  else .ok none

/-- A submitted job: the parameters handed to it (the serialised dictionary) and its name. -/
structure Job where
  params : Dict
  name : Str

/-- `{number:d}`: floats and texts have no such format (`ValueError`), `None` and lists have no format
at all (`TypeError`). -/
def fieldInt : PVal → Except Err Str
  | .int n => .ok (natStr n)
  | .float _ => .error .value
  | .str _ => .error .value
  | _ => .error .type
/-- `{temperature:.2f}` -/
def fieldFloat : PVal → Except Err Str
  | .float t => .ok (tempStr t)
  | .int n => .ok (tempStr (100 * n))
  | .str _ => .error .value
  | _ => .error .type

/-- job_boss.py:226-234, 288-296, 347-353: the job name. -/
def jobName (d : Dict) : Except Err Str := do
  let D ← fieldInt (← d.get c!"id_data")
  let R ← fieldInt (← d.get c!"id_rho")
  let P ← fieldInt (← d.get c!"number_of_beads")
  let T ← fieldFloat (← d.get c!"temperature")
  .ok (c!"D" ++ D ++ c!"_R" ++ R ++ c!"_P" ++ P ++ c!"_T" ++ T)

/-- job_boss.py:283-403, 443-448, 478-490 `construct_job_command` through `node_dict`: the host that
the preparing function writes into the dictionary; unknown hosts raise. -/
def nodeHost (host : Str) : Except Err Str :=
  if host = c!"feynman" ∨ host = c!"nlogn" then .ok c!"nlogn"
  else if host = c!"graham" then .ok c!"graham"
  else if host = c!"orca" then .ok c!"orca"
  else .error .exception

/-- job_boss.py:583-604: the parameters of one `(T, P)`, and the job they make. -/
def prepareJob (host : Str) (partitions : Str → Bool) (d : Dict) (T : PVal) (P : PVal) :
    Except Err Job := do
  let p := ((d.set c!"number_of_beads" P).set c!"number_of_links" P).set c!"temperature" T
  let p := p.set c!"hostname" (.str host)
  let part ← p.get c!"partition"
  let p := if (host = c!"feynman" ∨ host = c!"nlogn") ∧ part = .none then
      p.set c!"partition" (.str (if host = c!"feynman" then c!"highmem" else c!"serial"))
    else p
  let p := if host = c!"orca" ∨ host = c!"graham" then p.set c!"partition" .none else p
  match ← p.get c!"partition" with
  | .str s => if partitions s = false then .error .assertion
  | .none => pure ()
  | _ => .error .type
  let h ← nodeHost host
  let p := p.set c!"hostname" (.str h)
  let name ← jobName p
  .ok ⟨p.set c!"job_name" (.str name), name⟩

/-- What Slurm answers to the `k`-th `sbatch`: the standard output, or a non-zero return code. -/
abbrev Replies := Nat → Option Str

/-- job_boss.py:606-610 with `submit_job` (181-193): `n` submissions of one job.  `log` lists the
jobs Slurm has accepted so far. -/
def submitMany (reply : Replies) (job : Job) : Nat → List Job → List Job × Option Err
  | 0, log => (log, none)
  | n + 1, log =>
    match reply log.length with
    | none => (log, some .exception)
    | some out =>
      match extractIdJob out with
      | .error e => (log ++ [job], some e)
      | .ok _ => submitMany reply job n (log ++ [job])

/-- job_boss.py:579-610: the loops over temperatures and beads (as one loop over the pairs, in the
order of the nested loops). -/
def submitPairs (host : Str) (partitions : Str → Bool) (reply : Replies) (d : Dict) (nJobs : Nat) :
    List (PVal × PVal) → List Job → List Job × Option Err
  | [], log => (log, none)
  | (T, P) :: rest, log =>
    match prepareJob host partitions d T P with
    | .error e => (log, some e)
    | .ok job =>
      match submitMany reply job nJobs log with
      | (log, some e) => (log, some e)
      | (log, none) => submitPairs host partitions reply d nJobs rest log

/-- job_boss.py:572-611 `submit_jobs`: the new class dictionary, the accepted jobs, and the
exception if one was raised.  The host name is taken to be the same during the call. -/
def submitJobs (host : Str) (partitions : Str → Bool) (reply : Replies) (d : Dict) :
    Dict × List Job × Option Err :=
  match setup d with
  | (d, .error e) => (d, [], some e)
  | (d, .ok n) =>
    match d.get c!"temperature_list", d.get c!"bead_list" with
    | .ok (.floats ts), .ok (.ints ps) =>
      let pairs := ts.flatMap fun T => ps.map fun P => (PVal.float T, PVal.int P)
      let r := submitPairs host partitions reply d n pairs []
      (d, r.1, r.2)
    | .error e, _ => (d, [], some e)
    | _, .error e => (d, [], some e)
    | _, _ => (d, [], some .type)

/-! ### Submission objects -/

/-- job_boss.py:406-455, 493-536: the classes; each has ONE dictionary, shared by its objects. -/
inductive SubCls where
  | base | pimc
  deriving DecidableEq, Repr

/-- The class-level dictionaries. -/
abbrev Heap := SubCls → Dict

/-- A submission object: its class and the paths of its FileStructure (job_boss.py:450-464). -/
structure Obj where
  cls : SubCls
  paths : Dict

/-- `self.param_dict` of an object: there is no instance attribute, so it is the class's. -/
def Obj.params (h : Heap) (o : Obj) : Dict := h o.cls

/-- job_boss.py:464-474 `__init__`: `self.param_dict['hostname'] = ...`, `update(input)`,
`prepare_paths`. -/
def createObj (h : Heap) (cls : SubCls) (host : Str) (input paths : Dict) : Heap × Obj :=
  let d := (h cls).set c!"hostname" (.str host)
  let d := (d.update input).update paths
  (fun c => if c = cls then d else h c, ⟨cls, paths⟩)

/-- job_boss.py:572-611 `submit_jobs` of an object: it works on the dictionary of the class. -/
def submitObj (h : Heap) (o : Obj) (host : Str) (partitions : Str → Bool) (reply : Replies) :
    Heap × List Job × Option Err :=
  let r := submitJobs host partitions reply (h o.cls)
  (fun c => if c = o.cls then r.1 else h c, r.2)

/-! ### Waiting -/

/-- `needle in s` -/
def contains (needle s : Str) : Bool := (find needle s).isSome

/-- What became of a call that received the given answers. -/
inductive Waiting where
  | stillWaiting | returned | raised
  deriving DecidableEq, Repr

/-- job_boss.py:122-139: the polling loop; one answer `(stdout, stderr)` per round. -/
def pollLoop : List (Str × Str) → Waiting
  | [] => .stillWaiting
  | (out, err) :: rest =>
    if contains c!"COMPLETED" out then .returned
    else if err = [] then pollLoop rest
    else .raised

/-- job_boss.py:103-139 `synchronize_with_job`, after Slurm gave these answers and `woken` tells
whether the wait for the signal is over (or was skipped). -/
def synchronize (answers : List (Str × Str)) (woken : Bool) : Waiting :=
  match answers with
  | [] => .stillWaiting
  | (_, err) :: rest =>
    if err = [] then (if woken then pollLoop rest else .stillWaiting) else .raised

/-! #### The signal handler and the critical section

CPython runs a Python signal handler in the main thread between two bytecodes: the C-level handler
only marks the signal as tripped.  `sigwait` (a C call) consumes a signal that arrives while it
waits.  `SIGALRM` has no handler: outside `sigwait` its default action ends the process. -/

/-- Where the main thread is in job_boss.py:107-122. -/
inductive Pc where
  | before      -- not yet in the critical section
  | inside      -- lock held, flag not yet tested
  | aboutToWait -- flag was false; the call of `sigwait` comes next
  | waiting     -- inside `sigwait`
  | woken       -- after the wait (or the wait was skipped), lock still held
  | polling     -- lock released
  | killed      -- the process was terminated by SIGALRM
  deriving DecidableEq, Repr

/-- The state of the main thread, the flag, a pending alarm, and a tripped but not yet handled
SIGUSR1. -/
structure Sync where
  pc : Pc
  flag : Bool
  alarm : Bool
  tripped : Bool
  deriving DecidableEq, Repr

/-- Is `job_state_lock` held? -/
def Sync.locked (s : Sync) : Bool :=
  match s.pc with
  | .inside | .aboutToWait | .waiting | .woken => true
  | _ => false

/-- job_boss.py:71-87 `SIGUSR1_handle` (the signal is SIGUSR1). -/
def runHandler (s : Sync) : Sync :=
  if s.locked then { s with flag := true, alarm := true, tripped := false }
  else { s with flag := true, tripped := false }

/-- What may happen. -/
inductive Ev where
  | signal   -- SIGUSR1 arrives
  | handle   -- the interpreter runs the Python handler of a tripped signal
  | alarm    -- a pending alarm expires
  | main     -- the main thread makes its next step
  deriving DecidableEq, Repr

/-- One step; `none` when the event cannot happen. -/
def step (s : Sync) : Ev → Option Sync
  | .signal => match s.pc with
    | .killed => none
    | .waiting => some { s with pc := .woken }
    | _ => some { s with tripped := true }
  | .handle =>
    if s.tripped = true ∧ s.pc ≠ .waiting ∧ s.pc ≠ .killed then some (runHandler s) else none
  | .alarm =>
    if s.alarm = true ∧ s.pc ≠ .killed then
      if s.pc = .waiting then some { s with pc := .woken, alarm := false }
      else some { s with pc := .killed, alarm := false }
    else none
  | .main => match s.pc with
    | .before => some { s with pc := .inside }
    | .inside => some { s with pc := if s.flag then .woken else .aboutToWait }
    | .aboutToWait => some { s with pc := .waiting }
    | .waiting => none
    | .woken => some { s with pc := .polling }
    | .polling => none
    | .killed => none

/-- A run. -/
def run (s : Sync) : List Ev → Option Sync
  | [] => some s
  | e :: es => (step s e).bind fun s => run s es

/-- The state at the start of the first synchronisation. -/
def Sync.init : Sync := ⟨.before, false, false, false⟩

end Pibronic.JobBoss
