import Verif.Model.JobBoss
import Verif.Model.Workflow

set_option autoImplicit false

/-!
Model of how `pibronic/server/job_boss.py` and `pibronic/vibronic/electronic_structure.py` talk to
Slurm: the name of the cluster, its partitions, submitting one command, the recorded state of a
job, the output file of a job, and the progress report over all molecules.

Simplifications: the answers of the programs `scontrol`, `sinfo`, `sacct` and `sbatch` are inputs;
waiting times and messages to the log are left out, except for the lines of the progress report.
-/
namespace Pibronic.Slurm
open Py Buffer JobBoss

/-- job_boss.py:64-66: the loop of `get_hostname` over the lines of the answer -/
def clusterName : List Str → Except Err Str
  | [] => .error .exception
  | line :: rest =>
    if contains c!"ClusterName" line then do
      .ok (Workflow.strip (← item (split ['='] line) 1))
    else clusterName rest

/-- a text without the end of line it may have -/
def chomp (l : Str) : Str := l.filter (· ≠ '\n')

/-- job_boss.py:59-68 `get_hostname`, on what `scontrol show config` prints -/
def getHostname (config : Str) : Except Err Str := clusterName ((keepLines config).map chomp)

/-- job_boss.py:196-202 `assert_partition_exists`, on what `sinfo -O partition` prints -/
def assertPartitionExists (sinfo : Str) : Option Str → Except Err Unit
  | none => .error .assertion
  | some name => if contains name sinfo then .ok () else .error .assertion

/-- What a program that was run left: return code, standard output and standard error (as texts,
job_boss.py:48-56 asks for that). -/
structure Completed where
  code : Nat
  out : Str
  err : Str

/-- job_boss.py:181-193 `submit_job` after the command was filled in: the job id and the two
outputs.  A non-zero return code raises. -/
def submitJob (r : Completed) : Except Err (Option Nat × Str × Str) :=
  if r.code ≠ 0 then .error .exception
  else do .ok (← extractIdJob r.out, r.out, r.err)

/-- Python objects that stand for the error output: bytes can be decoded, texts cannot. -/
inductive Output where
  | text (s : Str)
  | bytes (s : Str)

/-- `error.decode('utf-8')` -/
def Output.decode : Output → Except Err Str
  | .text _ => .error .attribute
  | .bytes s => .ok s

/-- electronic_structure.py:324-354 `submit_job`: what it returns when `sbatch` left `r`.  The
error output arrives as a text. (`is not ""` is taken as `!= ""`.) -/
def esSubmitJob (r : Completed) : Except Err (Option Nat) := do
  let (id, _, error) ← submitJob r
  let message ← (Output.text error).decode
  if message ≠ [] then .error .exception
  else .ok id

/-- electronic_structure.py:271-292 `wait_on_results`: `waiting` is how the synchronisation ended,
`state` what `sacct` says (job_boss.py:89-93 `check_acct_state`). `none`: still waiting. -/
def waitOnResults (waiting : Waiting) (state : Str) : Option (Except Err Unit) :=
  match waiting with
  | .stillWaiting => none
  | .raised => some (.error .exception)
  | .returned =>
    if contains c!"FAILED" state then some (.error .exception)
    else if ¬ contains c!"COMPLETED" state then some (.error .exception)
    else some (.ok ())

/-! ### The output file of a job -/

/-- `x in file`: reads lines until one equals `x`; what is left to read afterwards. -/
def inFile (x : Str) : List Str → Bool × List Str
  | [] => (false, [])
  | l :: rest => if l = x then (true, rest) else inFile x rest

/-- job_boss.py:151-164: the tests on the opened file (all on the same file object) -/
def slurmVerdict (lines : List Str) : Except Err Unit :=
  let f := inFile c!"Finished" lines
  if f.1 = false then .ok ()
  else
    let s := inFile c!"SIGSEGV" f.2
    if s.1 = true then .error .exception
    else
      let k := inFile c!"Killed" s.2
      if k.1 = true then
        if (inFile c!"Exceeded step memory limit" k.2).1 then .error .exception
        else .error .exception
      else .ok ()

/-- job_boss.py:142-165 `check_slurm_output`; `none`: there is no output file -/
def checkSlurmOutput : Option Str → Except Err Unit
  | none => .error .os
  | some text => slurmVerdict (keepLines text)

/-! ### One stage of the electronic structure calculations -/

/-- What a stage did, in order. -/
inductive Effect where
  | wroteInput
  | submitted
  deriving DecidableEq, Repr

/-- job_boss.py:7-27, 32-494: the names a user of the module `job_boss` can ask for.  (`partition`
only occurs in a comment, line 29, and `hostname` only as a local name.) -/
def jobBossNames : List Str :=
  [c!"subprocess", c!"threading", c!"socket", c!"signal", c!"time", c!"sys", c!"os", c!"log",
   c!"constants", c!"pimc", c!"job_state_lock", c!"job_almost_done_flag",
   c!"get_path_to_python_executable", c!"get_path_of_job_boss_directory",
   c!"subprocess_submit_asynch_wrapper", c!"subprocess_run_wrapper", c!"get_hostname",
   c!"SIGUSR1_handle", c!"check_acct_state", c!"check_running_state", c!"synchronize_with_job",
   c!"check_slurm_output", c!"extract_id_job_from_output", c!"submit_job",
   c!"assert_partition_exists", c!"serialize_BoxData_dictionary", c!"prepare_job_feynman",
   c!"prepare_job_nlogn", c!"prepare_job_compute_canada", c!"prepare_job_orca",
   c!"prepare_job_graham", c!"SubmissionClass", c!"PimcSubmissionClass"]

/-- `job_boss.name` -/
def moduleAttr (names : List Str) (n : Str) : Except Err Unit :=
  if n ∈ names then .ok () else .error .attribute

/-- electronic_structure.py:401-460, 679-736, 820-880, 883-943, 1046-1093, 1237-1270: what every
calculation does after preparing its input.  `writes`: whether it writes an input file first (all
but the last do); `names`: the names defined in `job_boss`; `r`: what `sbatch` leaves; `rest`: how
waiting and checking end. -/
def stage (names : List Str) (writes : Bool) (r : Completed) (rest : Option Nat → Except Err Unit) :
    List Effect × Except Err Unit :=
  let log := if writes then [Effect.wroteInput] else []
  match (do moduleAttr names c!"partition"; moduleAttr names c!"hostname") with
  | .error e => (log, .error e)
  | .ok () =>
    let log := if r.code = 0 then log ++ [Effect.submitted] else log
    match esSubmitJob r with
    | .error e => (log, .error e)
    | .ok id => (log, rest id)

/-! ### The progress report -/

/-- electronic_structure.py:166-190 `number_dictionary.values()` -/
def molecules : List (Str × Nat) :=
  [(c!"acetonitrile", 200), (c!"ammonia", 201), (c!"boron_trifluoride", 202),
   (c!"formaldehyde", 203), (c!"methane", 204), (c!"formamide", 205), (c!"formic_acid", 206),
   (c!"hydrogen_peroxide", 207), (c!"water", 208), (c!"pyridine", 209), (c!"furan", 210),
   (c!"trichloroethylene", 211), (c!"chloroethylene", 212), (c!"acrolein", 213),
   (c!"acrylonitrile", 214), (c!"cis_12_dichloroethylene", 215),
   (c!"trans_12_dichloroethylene", 216), (c!"11_dichloroethylene", 217)]

/-- electronic_structure.py:211-215: the last line of the file that is not empty, stripped; when
there is none, the variable `last_state` keeps its value. -/
def lastState (before : Option Str) : List Str → Option Str
  | [] => before
  | l :: rest =>
    if l = [] ∨ l = ['\n'] then lastState before rest else some (Workflow.strip l)

/-- A line of the report. -/
inductive Report where
  | state (name : Str) (id : Nat) (last : Str)
  | noFile (name : Str) (id : Nat)
  deriving DecidableEq, Repr

/-- electronic_structure.py:206-220: the loop over the molecules; `files id` is the state file of
data set `id`; `last` the variable `last_state` (`none`: not assigned yet). -/
def reportLoop (files : Nat → Option Str) : Option Str → List (Str × Nat) → List Report × Option Err
  | _, [] => ([], none)
  | last, (name, id) :: rest =>
    match files id with
    | none =>
      let r := reportLoop files last rest
      (.noFile name id :: r.1, r.2)
    | some text =>
      match lastState last (keepLines text).reverse with
      | none => ([], some .unbound)
      | some s =>
        let r := reportLoop files (some s) rest
        (.state name id s :: r.1, r.2)

/-- electronic_structure.py:194-222 `pretty_print_job_status` -/
def report (files : Nat → Option Str) : List Report × Option Err := reportLoop files none molecules

end Pibronic.Slurm
