import Verif.Model.Analytic
import Mathlib.Algebra.Order.Field.Rat

set_option autoImplicit false

/-!
Model of the programs in `examples/artificial_systems` and `examples/paper_1.5025058` that list the
systems (`systems.py`, `context.py`) and submit sum over states and Trotter calculations
(`submit_jobs_to_server.py`).

Simplifications: numbers of data sets, basis sizes and beads are not negative; temperatures are
hundredths of a kelvin; log messages and what is printed are left out; a text of at most one character
in a results file is a `ValueError` for `json.loads` (a single digit would fail one line later).
-/
namespace Pibronic.Examples
open Py FileName FileStructure Analytic

/-! ### The systems -/

/-- The fixed data of one of the two directories. -/
structure Project where
  /-- `name_lst` with the entries of `id_dict` -/
  systems : List (Str × List Nat)
  /-- `rho_dict` -/
  rhos : List (Str × List (Nat × List Nat))
  /-- `default_server_root` -/
  serverRoot : Str

/-- `list(range(a, b))` -/
def range (a b : Nat) : List Nat := (List.range (b - a)).map (a + ·)

/-- artificial_systems/systems.py:13-54, artificial_systems/context.py:16 -/
def artificial : Project where
  systems := [(c!"2x2", range 11 16), (c!"4x6", range 21 26), (c!"7x12", range 31 36)]
  rhos := [(c!"2x2", [11, 12, 13, 14, 15, 16].map fun d => (d, range 0 5)),
    (c!"4x6", [21, 22, 23, 24, 25].map fun d => (d, range 0 5)),
    (c!"7x12", [31, 32, 33, 34, 35].map fun d => (d, range 0 5))]
  serverRoot := c!"/work/ngraymon/pimc/artificial/"

/-- paper_1.5025058/systems.py:14-69, paper_1.5025058/context.py:16 -/
def paper : Project where
  systems := [(c!"superimposed", range 11 17), (c!"displaced", range 21 27),
    (c!"elevated", range 31 37), (c!"jahnteller", range 41 47)]
  rhos := [(c!"superimposed", [11, 12, 13, 14, 15, 16].map fun d => (d, [0, 1, 11])),
    (c!"displaced", [21, 22, 23, 24, 25, 26].map fun d => (d, [0, 1, 11])),
    (c!"elevated", [31, 32, 33, 34, 35, 36].map fun d => (d, [0, 1, 11])),
    (c!"jahnteller", [41, 42, 43, 44, 45, 46].map fun d => (d, [0, 1, 2, 11]))]
  serverRoot := c!"/work/ngraymon/pimc/paper_2018/"

/-- artificial_systems/systems.py:57-60, paper_1.5025058/systems.py:79-82 `id_data_is_valid` -/
def Project.idValid (p : Project) (d : Nat) : Bool := (p.systems.flatMap (·.2)).contains d

/-- artificial_systems/systems.py:63-66, paper_1.5025058/systems.py:85-88 `assert_id_data_is_valid` -/
def Project.assertId (p : Project) (d : Nat) : Except Err Unit :=
  if p.idValid d then .ok () else .error .assertion

/-- artificial_systems/systems.py:69-72, paper_1.5025058/systems.py:91-94 `system_name_is_valid` -/
def Project.nameValid (p : Project) (name : Str) : Bool := (p.systems.map (·.1)).contains name

/-- artificial_systems/systems.py:75-78, paper_1.5025058/systems.py:97-100
`assert_system_name_is_valid` -/
def Project.assertName (p : Project) (name : Str) : Except Err Unit :=
  if p.nameValid name then .ok () else .error .assertion

/-- artificial_systems/systems.py:81-96 `get_tuning_parameter` -/
def tuningParameter (d : Nat) : Except Err ℚ := do
  artificial.assertId d
  match [(1, (0.05 : ℚ)), (2, 0.25), (3, 0.50), (4, 0.75), (5, 1.0)].find? fun e => e.1 == d % 10 with
  | some e => .ok e.2
  | none => .error .key

/-- artificial_systems/systems.py:99-108, paper_1.5025058/systems.py:103-112 `get_system_name` -/
def Project.systemName (p : Project) (d : Nat) : Except Err Str := do
  p.assertId d
  match p.systems.find? fun e => e.2.contains d with
  | some e => .ok e.1
  | none => .error .exception

/-- artificial_systems/context.py:19-33, paper_1.5025058/context.py:19-33 `choose_root_folder` -/
def Project.chooseRoot (p : Project) (hostname : Str) : Except Err Str :=
  if hostname = c!"nlogn" ∨ hostname = c!"feynman" then .ok p.serverRoot else .error .exception

/-- `d[k]` -/
def dictItem {K V : Type} [DecidableEq K] (d : List (K × V)) (k : K) : Except Err V :=
  match d.find? fun e => e.1 = k with
  | some e => .ok e.2
  | none => .error .key

/-- artificial_systems/submit_jobs_to_server.py:325-332, paper_1.5025058/submit_jobs_to_server.py:283-290
`automate_pimc_submission`, artificial_systems/analyze_results.py:25-39
`automate_statistical_analysis`, artificial_systems/generate_z_plots.py:14-33
`automate_simple_z_plots`: the pairs of a data set and a sampling distribution that these programs
visit for a system, in order. -/
def Project.visits (p : Project) (name : Str) : Except Err (List (Nat × Nat)) := do
  p.assertName name
  let ids ← dictItem p.systems name
  let rhos ← dictItem p.rhos name
  let lists ← ids.mapM fun d => do
    let rs ← dictItem rhos d
    .ok (rs.map fun r => (d, r))
  .ok lists.flatten

/-! ### Which results are there -/

variable {V : Type}

/-- artificial_systems/submit_jobs_to_server.py:50-64, 83, paper_1.5025058/submit_jobs_to_server.py:51-65,
84: `isfile(path) and _valid_hash(FS, path) and _temp_already_present(FS, path, T)`; `h` is the hash
in the FileStructure object. -/
def alreadyPresent (h : Str) (T : Nat) : Contents V → Except Err Bool
  | .absent => .ok false
  | .short => .error .value
  | .broken => .error .value
  | .dict d =>
    match d c!"hash_vib" with
    | none => .error .key
    | some _ => .ok (hasHash d c!"hash_vib" h && (d (tempStr T)).isSome)

/-! ### The commands -/

/-- artificial_systems/submit_jobs_to_server.py:19-24, paper_1.5025058/submit_jobs_to_server.py:20-25
`jl_import` -/
def jlImport : Str :=
  c!"import pibronic;from pibronic.data import file_structure as fs;from pibronic import julia_wrapper as jw;from pibronic.constants import beta;"

/-- `f'FS = fs.FileStructure("{FS.path_root:s}", {FS.id_data:d}, {FS.id_rho:d});'` -/
def makeFS (s : FS) : Str :=
  c!"FS = fs.FileStructure(\"" ++ s.pathRoot ++ c!"\", " ++ natStr s.idData ++ c!", " ++ natStr s.idRho ++
    c!");"

/-- artificial_systems/submit_jobs_to_server.py:69-77, paper_1.5025058/submit_jobs_to_server.py:70-78: the text
`func_call`, in which the path of the root has been put already, before `.format`. -/
def sosTemplate (s : FS) : Str :=
  jlImport ++ c!"b = beta({temperature:.2f});BS = {BS:d};" ++ makeFS s ++
    c!"FS.generate_model_hashes();jw.prepare_julia();pibronic.julia_wrapper.sos_of_coupled_model(FS, BS, b);"

/-- artificial_systems/submit_jobs_to_server.py:88-92, paper_1.5025058/submit_jobs_to_server.py:89-93 -/
def sosCommand (s : FS) (B T : Nat) : Except Err Str := do
  let code ← format (fun n => if n = c!"temperature" then some (.float T)
    else if n = c!"BS" then some (.int B) else none) (sosTemplate s)
  .ok (c!"srun --job-name=sos_D" ++ natStr s.idData ++ c!"_T" ++ tempStr T ++ c!" --mem=20GB python3 -c '" ++
    code ++ c!"'")

/-- artificial_systems/submit_jobs_to_server.py:99-108, paper_1.5025058/submit_jobs_to_server.py:100-109 -/
def trotterTemplate (s : FS) : Str :=
  jlImport ++ c!"b = beta({temperature:.2f});P = {nbeads:d};BS = {BS:d};" ++ makeFS s ++
    c!"FS.generate_model_hashes();jw.prepare_julia();pibronic.julia_wrapper.trotter_of_coupled_model(FS, P, BS, b);"

/-- artificial_systems/submit_jobs_to_server.py:120-124, paper_1.5025058/submit_jobs_to_server.py:121-125 -/
def trotterCommand (s : FS) (B T P : Nat) : Except Err Str := do
  let code ← format (fun n => if n = c!"temperature" then some (.float T)
    else if n = c!"nbeads" then some (.int P)
    else if n = c!"BS" then some (.int B) else none) (trotterTemplate s)
  .ok (c!"srun --job-name=trotter_D" ++ natStr s.idData ++ c!"_P" ++ natStr P ++ c!"_T" ++ tempStr T ++
    c!" --mem=20GB python3 -c '" ++ code ++ c!"'")

/-! ### The loops -/

/-- A program that submits commands: the commands so far, and the exception that ends it. -/
abbrev Submitted := List Str × Option Err

/-- One calculation: basis size, temperature, number of beads. -/
structure Calc where
  basis : Nat
  temp : Nat
  beads : Nat
  deriving DecidableEq, Repr

/-- The test at the beginning of the loops' bodies: the name of the results file is built from its template
(the file of `m`), then the file is looked at. -/
def skips (s : FS) (h : Str) (m : Method) (T : Nat) (seen : Contents V) : Except Err Bool := do
  let _ ← m.dst s
  alreadyPresent h T seen

/-- The body of the loops: `continue` when the result is there, otherwise the command is built and
submitted.  `seen` is what the results file holds at the moment it is looked at (earlier jobs
may be running). -/
def submitAll (s : FS) (h : Str) (file : Calc → Method) (seen : Calc → Contents V)
    (command : Calc → Except Err Str) : List Calc → Submitted
  | [] => ([], none)
  | c :: rest =>
    match skips s h (file c) c.temp (seen c) with
    | .error e => ([], some e)
    | .ok true => submitAll s h file seen command rest
    | .ok false =>
      match command c with
      | .error e => ([], some e)
      | .ok cmd =>
        let r := submitAll s h file seen command rest
        (cmd :: r.1, r.2)

/-- artificial_systems/submit_jobs_to_server.py:67-94, paper_1.5025058/submit_jobs_to_server.py:68-95
`_generate_sos_results` (the number of beads is not used). -/
def generateSos (s : FS) (h : Str) (seen : Calc → Contents V) (temps bases : List Nat) : Submitted :=
  submitAll s h (fun c => .sos c.basis) seen (fun c => sosCommand s c.basis c.temp)
    (bases.flatMap fun B => temps.map fun T => ⟨B, T, 0⟩)

/-- paper_1.5025058/submit_jobs_to_server.py:98-127 `_generate_trotter_results` -/
def generateTrotterPaper (s : FS) (h : Str) (seen : Calc → Contents V) (temps bases beads : List Nat) :
    Submitted :=
  submitAll s h (fun c => .trotter c.beads c.basis) seen
    (fun c => trotterCommand s c.basis c.temp c.beads)
    (bases.flatMap fun B => temps.flatMap fun T => beads.map fun P => ⟨B, T, P⟩)

/-- artificial_systems/submit_jobs_to_server.py:112-124: the loop over the beads, which only sets the
variable `cmd`. -/
def lastCommand (s : FS) (h : Str) (seen : Calc → Contents V) (B T : Nat) :
    List Nat → Option Str → Except Err (Option Str)
  | [], cmd => .ok cmd
  | P :: rest, cmd =>
    match skips s h (.trotter P B) T (seen ⟨B, T, P⟩) with
    | .error e => .error e
    | .ok true => lastCommand s h seen B T rest cmd
    | .ok false =>
      match trotterCommand s B T P with
      | .error e => .error e
      | .ok c => lastCommand s h seen B T rest (some c)

/-- artificial_systems/submit_jobs_to_server.py:110-125: the loops over basis sizes and temperatures; the
line that submits stands after the loop over the beads. -/
def trotterLoop (s : FS) (h : Str) (seen : Calc → Contents V) (beads : List Nat) :
    List (Nat × Nat) → Option Str → Submitted
  | [], _ => ([], none)
  | (B, T) :: rest, cmd =>
    match lastCommand s h seen B T beads cmd with
    | .error e => ([], some e)
    | .ok none => ([], some .unbound)
    | .ok (some c) =>
      let r := trotterLoop s h seen beads rest (some c)
      (c :: r.1, r.2)

/-- artificial_systems/submit_jobs_to_server.py:97-126 `_generate_trotter_results` -/
def generateTrotterArtificial (s : FS) (h : Str) (seen : Calc → Contents V)
    (temps bases beads : List Nat) : Submitted :=
  trotterLoop s h seen beads (bases.flatMap fun B => temps.map fun T => (B, T)) none

/-- artificial_systems/submit_jobs_to_server.py:131-138, 145-152, paper_1.5025058/submit_jobs_to_server.py:132-138,
146-152: the FileStructure object of `simple_sos_wrapper` and `simple_trotter_wrapper`.  `root` is the given
root (with its absolute path), `none` when it is chosen by the name of the host; the disk has the files with
the models. -/
def openProject (p : Project) (hash : Str → Str) (hostname : Str) (root : Option (Str × Str))
    (absolute : Str → Str) (k : Disk) (d : Nat) : Except Err FS := do
  p.assertId d
  let r ← match root with
    | some r => .ok r
    | none => do
      let r ← p.chooseRoot hostname
      .ok (r, absolute r)
  let (s, k) ← construct r.1 r.2 d 0 false k
  s.generateModelHashes hash k false

/-- artificial_systems/submit_jobs_to_server.py:129-140, paper_1.5025058/submit_jobs_to_server.py:130-141
`simple_sos_wrapper`; 143-154, 144-155 `simple_trotter_wrapper` with its `_generate_trotter_results`. -/
def wrapper (generate : FS → Str → Submitted) : Except Err FS → Submitted
  | .error e => ([], some e)
  | .ok s => generate s (s.hashVib.getD [])

end Pibronic.Examples
