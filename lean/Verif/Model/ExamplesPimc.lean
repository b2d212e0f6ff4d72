import Verif.Model.Examples
import Verif.Model.JobBoss
import Verif.Model.JobScript
import Verif.Model.Prepare

set_option autoImplicit false

/-!
Model of the programs in `examples/artificial_systems` and `examples/paper_1.5025058` that submit path integral
Monte Carlo jobs (`submit_jobs_to_server.py`: `simple_pimc_wrapper`, `automate_pimc_submission` and the analytical
calculations that are started before).

Simplifications: the model files are given as parsed JSON objects (`Model/ModelIO.lean`), apart from the disk on
which directories are made; `constants.delta_beta` is an input; Slurm's answers are inputs, one sequence of answers
for each data set and sampling distribution; what `srun` does afterwards is not part of the program.
-/
namespace Pibronic.ExamplesPimc
open Py FileName FileStructure Analytic Examples JobBoss

/-- What the two directories do differently. -/
structure Setting where
  /-- `lst_P5`, `lst_P` -/
  beads : List Nat
  /-- `lst_T` in hundredths of a kelvin -/
  temps : List Nat
  /-- `"number_of_samples"` -/
  samples : Nat
  /-- whether the original model is calculated too -/
  coupledToo : Bool
  /-- whether the number of the sampling distribution is in the name of its analytical job -/
  rhoInName : Bool

/-- artificial_systems/submit_jobs_to_server.py:218-259, 294, 299, 309 -/
def artificialSetting : Setting := ⟨[50, 100, 150, 200, 300, 400, 500], [30000], 100000, true, true⟩

/-- paper_1.5025058/submit_jobs_to_server.py:217-238, 251, 257, 266 -/
def paperSetting : Setting := ⟨[50], [30000], 10000, false, false⟩

/-! ### The analytical calculations -/

/-- artificial_systems/submit_jobs_to_server.py:220-227, 242-249, paper_1.5025058/submit_jobs_to_server.py:221-228:
the text `func_call` before `.format`, for a function of `julia_wrapper`. -/
def analyticTemplate (s : FS) (function : Str) : Str :=
  jlImport ++ c!"b = beta({temperature:.2f});" ++ makeFS s ++
    c!"FS.generate_model_hashes();jw.prepare_julia();pibronic.julia_wrapper." ++ function ++ c!"(FS, b);"

/-- artificial_systems/submit_jobs_to_server.py:232-235, 254-257, paper_1.5025058/submit_jobs_to_server.py:233-236 -/
def analyticCommand (s : FS) (function : Str) (withRho : Bool) (T : Nat) : Except Err Str := do
  let code ← format (fun n => if n = c!"temperature" then some (.float T) else none) (analyticTemplate s function)
  .ok (c!"srun --job-name=analytic_D" ++ natStr s.idData ++ (if withRho then c!"_R" ++ natStr s.idRho else []) ++
    c!"_T" ++ tempStr T ++ c!" python3 -c '" ++ code ++ c!"'")

/-- artificial_systems/submit_jobs_to_server.py:229-237, 251-259, paper_1.5025058/submit_jobs_to_server.py:230-238:
the loop over the temperatures; the commands that were started. -/
def analyticLoop (s : FS) (function : Str) (withRho : Bool) : List Nat → Submitted
  | [] => ([], none)
  | T :: rest =>
    match analyticCommand s function withRho T with
    | .error e => ([], some e)
    | .ok cmd =>
      let r := analyticLoop s function withRho rest
      (cmd :: r.1, r.2)

/-- artificial_systems/submit_jobs_to_server.py:218-237 `_generate_original_analytic_results` -/
def originalAnalytic (s : FS) (temps : List Nat) : Submitted :=
  analyticLoop s c!"analytic_of_coupled_model" false temps

/-- artificial_systems/submit_jobs_to_server.py:240-259 `_generate_sampling_analytic_results`,
paper_1.5025058/submit_jobs_to_server.py:217-238 `generate_sampling_analytical_results` -/
def samplingAnalytic (q : Setting) (s : FS) (temps : List Nat) : Submitted :=
  analyticLoop s c!"analytic_of_sampling_model" q.rhoInName temps

/-- artificial_systems/submit_jobs_to_server.py:262-269 `generate_analytical_results`,
paper_1.5025058/submit_jobs_to_server.py:217-238 -/
def analytic (q : Setting) (p : Project) (s : FS) (temps : List Nat) : Submitted :=
  match p.assertId s.idData with
  | .error e => ([], some e)
  | .ok _ =>
    if q.coupledToo then
      match originalAnalytic s temps with
      | (cmds, some e) => (cmds, some e)
      | (cmds, none) =>
        let r := samplingAnalytic q s temps
        (cmds ++ r.1, r.2)
    else samplingAnalytic q s temps

/-- julia_wrapper.py:56-370: the names of the functions of the module. -/
def juliaWrapperFunctions : List Str :=
  [c!"parse_ouput", c!"convert_keys", c!"compute", c!"validate_old_rho_data", c!"validate_old_model_data",
   c!"base_func", c!"analytic_wrapper", c!"analytic_of_sampling_model", c!"analytic_of_original_coupled_model",
   c!"sos_wrapper", c!"sos_of_coupled_model", c!"trotter_wrapper", c!"trotter_of_coupled_model",
   c!"iterate_method", c!"prepare_julia", c!"construct_command_dictionary", c!"main"]

/-! ### The submission -/

/-- A dictionary with given items. -/
def dictOf (l : List (Str × PVal)) : Dict := fun k => (l.find? fun e => e.1 = k).map (·.2)

/-- job_boss.py:503-528 `PimcSubmissionClass.param_dict` -/
def pimcDefaults : Dict := dictOf
  [(c!"temperature_list", .floats [0]), (c!"bead_list", .ints [0]), (c!"number_of_samples", .int 0),
   (c!"number_of_samples_overall", .int 0), (c!"number_of_samples_per_job", .int 0), (c!"number_of_blocks", .int 0),
   (c!"number_of_states", .int 0), (c!"number_of_modes", .int 0), (c!"number_of_beads", .int 0),
   (c!"path_scratch", .str []), (c!"path_root", .str []), (c!"path_data", .str []), (c!"path_rho", .str []),
   (c!"id_data", .int 0), (c!"id_rho", .int 0), (c!"partition", .none), (c!"hostname", .none),
   (c!"block_size", .int 1000), (c!"memory_per_node", .int 20), (c!"total_memory", .int 20),
   (c!"cpus_per_task", .int 4), (c!"cores_per_socket", .int 4), (c!"wait_param", .str []),
   (c!"script_name", .str c!"pimc.py")]

/-- job_boss.py:450-462 `prepare_paths` -/
def pathsOf (s : FS) : Dict := dictOf
  [(c!"path_scratch", .str (JobScript.pathScratch s.pathRho)), (c!"path_root", .str s.pathRoot),
   (c!"path_data", .str s.pathData), (c!"path_rho", .str s.pathRho), (c!"path_vib_model", .str s.pathVibModel),
   (c!"path_rho_model", .str s.pathRhoModel)]

/-- artificial_systems/submit_jobs_to_server.py:308-317, paper_1.5025058/submit_jobs_to_server.py:265-274
`parameter_dictionary` -/
def parameters (q : Setting) (A N d r : Nat) (deltaBeta : PVal) : Dict := dictOf
  [(c!"number_of_samples", .int q.samples), (c!"number_of_states", .int A), (c!"number_of_modes", .int N),
   (c!"bead_list", .ints q.beads), (c!"temperature_list", .floats q.temps), (c!"delta_beta", deltaBeta),
   (c!"id_data", .int d), (c!"id_rho", .int r)]

/-- The machine: the name of the host (`socket`), the one Slurm gives, the partitions, absolute paths, the model
files, `constants.delta_beta` and Slurm's answers to the jobs of a data set and sampling distribution. -/
structure Machine where
  host : Str
  slurmHost : Str
  partitions : Str → Bool
  absolute : Str → Str
  models : ModelIO.Disk ℝ
  deltaBeta : PVal
  reply : Nat → Nat → Replies

/-- What a program leaves: the parameters in the classes, the disk, the commands it has started, the jobs Slurm has
accepted, and the exception that ends it. -/
structure Outcome where
  heap : Heap
  disk : Disk
  commands : List Str
  jobs : List Job
  error : Option Err

/-- artificial_systems/submit_jobs_to_server.py:302-322, paper_1.5025058/submit_jobs_to_server.py:260-280: the part
after the file structure was made. -/
def submitFrom (q : Setting) (p : Project) (m : Machine) (h : Heap) (s : FS) (k : Disk) (d r : Nat) : Outcome :=
  match analytic q p s q.temps with
  | (cmds, some e) => ⟨h, k, cmds, [], some e⟩
  | (cmds, none) =>
    match Prepare.extractDims s.pathVibModel m.models with
    | .error e => ⟨h, k, cmds, [], some e⟩
    | .ok (A, N) =>
      let (h, o) := createObj h .pimc m.slurmHost (parameters q A N d r m.deltaBeta) (pathsOf s)
      let (h, jobs, err) := submitObj h o m.slurmHost m.partitions (m.reply d r)
      ⟨h, k, cmds, jobs, err⟩

/-- artificial_systems/submit_jobs_to_server.py:272-322, paper_1.5025058/submit_jobs_to_server.py:241-280
`simple_pimc_wrapper`; `root` is the given root with its absolute path. -/
def simplePimc (q : Setting) (p : Project) (m : Machine) (root : Option (Str × Str)) (h : Heap) (k : Disk)
    (d r : Nat) : Outcome :=
  match p.assertId d with
  | .error e => ⟨h, k, [], [], some e⟩
  | .ok _ =>
    match (match root with
      | some x => Except.ok x
      | none => (p.chooseRoot m.host).map fun x => (x, m.absolute x)) with
    | .error e => ⟨h, k, [], [], some e⟩
    | .ok (root, absRoot) =>
      match construct root absRoot d r false k with
      | .error e => ⟨h, k, [], [], some e⟩
      | .ok (s, k) => submitFrom q p m h s k d r

/-- artificial_systems/submit_jobs_to_server.py:329-331, paper_1.5025058/submit_jobs_to_server.py:287-289: the calls
one after the other, in one process. -/
def pimcLoop (q : Setting) (p : Project) (m : Machine) : List (Nat × Nat) → Heap → Disk → Outcome
  | [], h, k => ⟨h, k, [], [], none⟩
  | (d, r) :: rest, h, k =>
    let o := simplePimc q p m none h k d r
    match o.error with
    | some _ => o
    | none =>
      let o' := pimcLoop q p m rest o.heap o.disk
      { o' with commands := o.commands ++ o'.commands, jobs := o.jobs ++ o'.jobs }

/-- artificial_systems/submit_jobs_to_server.py:325-332, paper_1.5025058/submit_jobs_to_server.py:283-290
`automate_pimc_submission` -/
def automatePimc (q : Setting) (p : Project) (m : Machine) (name : Str) (h : Heap) (k : Disk) : Outcome :=
  match p.visits name with
  | .error e => ⟨h, k, [], [], some e⟩
  | .ok l => pimcLoop q p m l h k

/-- artificial_systems/submit_jobs_to_server.py:335-352 `main` (its flag for several processes is `False`): the first of
`name_lst`. -/
def artificialMain (m : Machine) (h : Heap) (k : Disk) : Outcome :=
  match artificial.systems[0]? with
  | none => ⟨h, k, [], [], some .index⟩
  | some e => automatePimc artificialSetting artificial m e.1 h k

/-- paper_1.5025058/submit_jobs_to_server.py:293-313 `main` (its flag for several processes is `False`) -/
def paperMain (m : Machine) (h : Heap) (k : Disk) : Outcome :=
  automatePimc paperSetting paper m c!"superimposed" h k

end Pibronic.ExamplesPimc
