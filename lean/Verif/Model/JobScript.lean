import Verif.Model.JobBoss

set_option autoImplicit false

/-!
Model of the command line that `pibronic/server/job_boss.py` hands to `sbatch`, of the job scripts
`server/nlogn_feynman/pimc_job.sh` and `server/compute_canada/pimc_job.sh`, and of where the
sampling script `server/*/pimc.py` puts its results.

Simplifications: the serialised parameters are an input of the command (`JobParams` models them);
the shell removes the quotes around the exported values, so the values are given without them; the
sampling itself is an input: the name and the contents of the file it saves; paths are absolute and
begin with a single slash.
-/
namespace Pibronic.JobScript
open Py JobBoss

/-- `s.replace(old, new)` -/
def replaceStr (old new s : Str) : Str := List.intercalate new (split old s)

/-- job_boss.py:31-33 `get_path_to_python_executable`: `os.__file__` is the file of the module `os` -/
def pythonExecutable (osFile : Str) : Str := osFile

/-- job_boss.py:36-38 `get_path_of_job_boss_directory`: `__file__` is the file `job_boss.py` -/
def jobBossDirectory (file : Str) : Str := file

/-- `{field:s}` of a value -/
def fieldStr : PVal → Except Err Str
  | .str s => .ok s
  | .int _ | .float _ => .error .value
  | .none | .ints _ | .floats _ => .error .type

/-- `{field:}` of a value that is an int or a text (the other kinds do not occur) -/
def fieldAny : PVal → Except Err Str
  | .str s => .ok s
  | .int n => .ok (natStr n)
  | .none => .ok c!"None"
  | _ => .error .value

/-- What the two families of servers differ in. -/
inductive Family where
  | nlogn | computeCanada
  deriving DecidableEq, Repr

/-- job_boss.py:304, 326, 359, 382: the directory with the scripts -/
def Family.dir : Family → Str
  | .nlogn => c!"/nlogn_feynman"
  | .computeCanada => c!"/compute_canada"

/-- job_boss.py:442-447 `node_dict`, as the family of the preparing function -/
def familyOf (host : Str) : Except Err Family :=
  if host = c!"feynman" ∨ host = c!"nlogn" then .ok .nlogn
  else if host = c!"graham" ∨ host = c!"orca" then .ok .computeCanada
  else .error .exception

/-- job_boss.py:287, 342: what the job script moves when it is done -/
def copyFrom (f : Family) (scratch name : Str) : Str :=
  match f with
  | .nlogn => scratch ++ c!"results/"
  | .computeCanada => scratch ++ c!"results/" ++ name ++ c!"_J"

/-- job_boss.py:297-308, 352-363: the exported variables -/
def exportOptions (f : Family) (file osFile json : Str) (d : Dict) : Except Err Str := do
  let rho ← fieldStr (← d.get c!"path_rho")
  let scratch ← fieldStr (← d.get c!"path_scratch")
  let name ← fieldStr (← d.get c!"job_name")
  let script ← fieldAny (← d.get c!"script_name")
  .ok (c!" --export=ROOT_DIR=" ++ rho
    ++ c!",SCRATCH_DIR=" ++ scratch
    ++ c!",COPY_FROM=\"" ++ copyFrom f scratch name ++ c!"\""
    ++ c!",COPY_TO=\"" ++ rho ++ c!"results/\""
    ++ c!",PYTHON3_PATH=" ++ pythonExecutable osFile
    ++ c!",SAMPLING_SCRIPT=" ++ jobBossDirectory file ++ f.dir ++ c!"/" ++ script
    ++ c!",EXECUTION_PARAMETERS='" ++ json ++ c!"'")

/-- job_boss.py:317, 372 (the compute canada servers are asked without a partition) -/
def partitionOption (f : Family) (d : Dict) : Except Err Str :=
  match f with
  | .nlogn => do .ok (c!" --partition=" ++ (← fieldStr (← d.get c!"partition")))
  | .computeCanada => .ok []

/-- job_boss.py:378 -/
def accountOption : Family → Str
  | .nlogn => []
  | .computeCanada => c!" --account=rrg-pnroy"

/-- job_boss.py:272-329 `prepare_job_nlogn`, 332-385 `prepare_job_compute_canada` and 388-403, with
the fields filled in by 185 `command.format(**parameter_dictionary)`: the executed command.  `d` is
the dictionary with the job's name. -/
def command (f : Family) (file osFile json : Str) (d : Dict) : Except Err Str := do
  let env ← exportOptions f file osFile json d
  let name ← fieldStr (← d.get c!"job_name")
  let part ← partitionOption f d
  let rho ← fieldAny (← d.get c!"path_rho")
  let cpus ← fieldInt (← d.get c!"cpus_per_task")
  let cores ← fieldInt (← d.get c!"cores_per_socket")
  let mem ← fieldAny (← d.get c!"memory_per_node")
  let wait ← fieldStr (← d.get c!"wait_param")
  .ok (c!"sbatch -m n --ntasks=1 --job-name=" ++ name ++ part
    ++ c!" -D " ++ rho ++ c!"execution_output/"
    ++ c!" --output=" ++ rho ++ c!"execution_output/" ++ name ++ c!".o%A"
    ++ c!" --cpus-per-task=" ++ cpus
    ++ c!" --cores-per-socket=" ++ cores
    ++ c!" --mem=" ++ mem ++ c!"G"
    ++ accountOption f
    ++ c!" " ++ wait
    ++ c!" " ++ env
    ++ c!" " ++ jobBossDirectory file ++ f.dir ++ c!"/pimc_job.sh")

/-! ### Where the results of a job go -/

/-- file_structure.py:34-35, 80 `path_rho` of a file structure with the absolute path `root` -/
def pathRho (root : Str) (idData idRho : Nat) : Str :=
  root ++ c!"/data_set_" ++ natStr idData ++ c!"/rho_" ++ natStr idRho ++ c!"/"

/-- file_structure.py:41, 90 `path_rho_results` -/
def pathRhoResults (root : Str) (idData idRho : Nat) : Str := pathRho root idData idRho ++ c!"results/"

/-- job_boss.py:454 `path_scratch` -/
def pathScratch (pathRho : Str) : Str := replaceStr c!"work" c!"scratch" pathRho

/-- `posixpath.normpath`: the components that remain (`acc` is the list so far, last one first) -/
def normComps : List Str → List Str → List Str
  | [], acc => acc.reverse
  | c :: cs, acc =>
    if c = [] ∨ c = c!"." then normComps cs acc
    else if c = c!".." then normComps cs acc.tail
    else normComps cs (c :: acc)

/-- `os.path.normpath` of an absolute path -/
def normpath (p : Str) : Str := c!"/" ++ List.intercalate c!"/" (normComps (split c!"/" p) [])

/-- `os.path.join(p, "../..")` for a path that may end with a slash -/
def joinUpTwice (p : Str) : Str :=
  if p.getLast? = some '/' then p ++ c!"../.." else p ++ c!"/../.."

/-- nlogn_feynman/pimc.py:29-33, compute_canada/pimc.py:29-33 with file_structure.py:56-59
`from_boxdata`: the directory the sampling script saves its results in. -/
def jobResults (scratch : Str) (idData idRho : Nat) : Str :=
  pathRhoResults (normpath (joinUpTwice scratch)) idData idRho

/-- Files by path. -/
abbrev Files := Str → Option Str

/-- the names that `*` stands for in a directory -/
def movable (name : Str) : Bool := '/' ∉ name ∧ name ≠ [] ∧ name.head? ≠ some '.'

/-- `mv --force src* dst` for directories that end with a slash: every file directly in `src` (not
the hidden ones) takes the place of the file of that name in `dst`.  When both are the same
directory `mv` refuses and nothing changes. -/
def moveAll (src dst : Str) (fs : Files) : Files := fun p =>
  if src = dst then fs p
  else
    match (dropPrefix dst p).filter fun name => movable name ∧ (fs (src ++ name)).isSome with
    | some name => fs (src ++ name)
    | none => if ((dropPrefix src p).filter fun name => movable name).isSome then none else fs p

/-- What a job does with the files: the sampling script saves `contents` under `name` in its
results directory; afterwards nlogn_feynman/pimc_job.sh:43 moves all results, while the same line of
compute_canada/pimc_job.sh (43) is commented out. -/
def runJob (f : Family) (root : Str) (idData idRho : Nat) (name contents : Str) (fs : Files) : Files :=
  let rho := pathRho root idData idRho
  let scratch := pathScratch rho
  let saved := jobResults scratch idData idRho ++ name
  let fs := fun p => if p = saved then some contents else fs p
  match f with
  | .nlogn => moveAll (copyFrom .nlogn scratch []) (rho ++ c!"results/") fs
  | .computeCanada => fs

end Pibronic.JobScript
