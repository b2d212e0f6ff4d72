import Verif.Model.FileName

set_option autoImplicit false

/-!
Model of `pibronic/data/file_structure.py` (class `FileStructure`) and of the two hash functions of
`vibronic_model_io.py` it calls.

Simplifications: `os.path.abspath(path_root)` is an argument `absRoot` (the current directory is
not modelled); ids are non-negative ints; the disk is a list of directories that were created and
a partial function from file paths to texts; `os.makedirs` records the path it was given (the
parents it also creates are not recorded).
-/
namespace Pibronic.FileStructure
open Py FileName

/-- `os.path.join(a, b)` on POSIX. -/
def join (a b : Str) : Str :=
  match b with
  | '/' :: _ => b
  | _ => if a = [] ∨ a.getLast? = some '/' then a ++ b else a ++ '/' :: b

/-- file_structure.py:35 `template_vib.format(id_data)` -/
def templateVib (d : Nat) : Str := c!"data_set_" ++ natStr d ++ c!"/"

/-- file_structure.py:36 `template_rho.format(id_data, id_rho)` -/
def templateRho (d r : Nat) : Str := templateVib d ++ c!"rho_" ++ natStr r ++ c!"/"

/-- file_structure.py:23-28 `list_sub_dirs` -/
def listSubDirs : List Str := [c!"parameters/", c!"results/", c!"execution_output/", c!"plots/"]

/-- The attributes of a `FileStructure` object (file_structure.py:73-131, 238-239).
`hashVib`, `hashRho` are absent until `generate_model_hashes` was called. -/
@[ext] structure FS where
  idRho : Nat
  idData : Nat
  pathRoot : Str
  pathData : Str
  pathRho : Str
  pathEs : Str
  pathVibParams : Str
  pathVibResults : Str
  pathVibOutput : Str
  pathVibPlots : Str
  pathRhoParams : Str
  pathRhoResults : Str
  pathRhoOutput : Str
  pathRhoPlots : Str
  templatePimc : Str
  templateJackknife : Str
  templateSosRho : Str
  templateSosVib : Str
  templateTrotterVib : Str
  pathVibModel : Str
  pathHarModel : Str
  pathIterModel : Str
  pathIterMat : Str
  pathRhoModel : Str
  pathAnalyticRho : Str
  pathAnalyticVib : Str
  pathAnalyticOrig : Str
  pathOrigModel : Str
  pathOrthoMat : Str
  hashVib : Option Str
  hashRho : Option Str

/-- The part of the disk that `FileStructure` reads and writes. -/
structure Disk where
  dirs : List Str
  files : Str → Option Str

/-- `os.path.isdir` -/
def Disk.isDir (k : Disk) (p : Str) : Bool := k.dirs.contains p

/-- `os.makedirs(p, exist_ok=True)` -/
def Disk.makedirs (k : Disk) (p : Str) : Disk := { k with dirs := p :: k.dirs }

/-- file_structure.py:61-131: the attributes set by `__init__`
(`root` is the argument `path_root`, `absRoot` its absolute path). -/
def initFS (root absRoot : Str) (d r : Nat) : FS :=
  let pathVibParams := join root (templateVib d ++ c!"parameters/")
  let pathRhoParams := join root (templateRho d r ++ c!"parameters/")
  let pathRhoResults := join root (templateRho d r ++ c!"results/")
  { idRho := r
    idData := d
    pathRoot := absRoot
    pathData := join absRoot (templateVib d)
    pathRho := join absRoot (templateRho d r)
    pathEs := join (join absRoot (templateVib d)) c!"electronic_structure"
    pathVibParams := pathVibParams
    pathVibResults := join root (templateVib d ++ c!"results/")
    pathVibOutput := join root (templateVib d ++ c!"execution_output/")
    pathVibPlots := join root (templateVib d ++ c!"plots/")
    pathRhoParams := pathRhoParams
    pathRhoResults := pathRhoResults
    pathRhoOutput := join root (templateRho d r ++ c!"execution_output/")
    pathRhoPlots := join root (templateRho d r ++ c!"plots/")
    templatePimc := pathRhoResults ++ pimc fieldP fieldT c!"{J:s}"
    templateJackknife := pathRhoResults ++ jackknife fieldP fieldT fieldX
    templateSosRho := pathRhoParams ++ sos fieldB
    templateSosVib := pathVibParams ++ sos fieldB
    templateTrotterVib := pathVibParams ++ trotter fieldP fieldB
    pathVibModel := join pathVibParams coupledModel
    pathHarModel := join pathVibParams harmonicModel
    pathIterModel := join pathVibParams iterativeModel
    pathIterMat := join pathVibParams iterativeMatrix
    pathRhoModel := join pathRhoParams samplingModel
    pathAnalyticRho := join pathRhoParams analyticResults
    pathAnalyticVib := join pathVibParams analyticResults
    pathAnalyticOrig := join pathVibParams originalAnalyticResults
    pathOrigModel := join pathVibParams originalModel
    pathOrthoMat := join pathVibParams orthogonalMatrix
    hashVib := none
    hashRho := none }

/-- file_structure.py:109 `self.dir_list`: the names of the attributes that begin with `path_` and
exist at that point of `__init__`, in the order of `dir(self)`. -/
def dirList : List Str :=
  [c!"path_data", c!"path_es", c!"path_rho", c!"path_rho_output", c!"path_rho_params",
   c!"path_rho_plots", c!"path_rho_results", c!"path_root", c!"path_vib_output",
   c!"path_vib_params", c!"path_vib_plots", c!"path_vib_results"]

/-- The current values of the attributes named in `dirList` (what `getattr(self, directory)`
returns for each name, file_structure.py:148-149). -/
def FS.dirValues (s : FS) : List Str :=
  [s.pathData, s.pathEs, s.pathRho, s.pathRhoOutput, s.pathRhoParams, s.pathRhoPlots,
   s.pathRhoResults, s.pathRoot, s.pathVibOutput, s.pathVibParams, s.pathVibPlots,
   s.pathVibResults]

/-- file_structure.py:140-144 `directories_exist`: `isdir` is applied to the attribute *names*
(relative paths in the current directory), not to their values. -/
def FS.directoriesExist (_s : FS) (k : Disk) : Bool := !((dirList.map k.isDir).contains false)

/-- file_structure.py:146-154 `make_directories`. -/
def FS.makeDirectories (s : FS) (k : Disk) : Disk := s.dirValues.foldl Disk.makedirs k

/-- file_structure.py:61-138 `__init__` including the creation of the directories. -/
def new (root absRoot : Str) (d r : Nat) (noMakedir : Bool) (k : Disk) : FS × Disk :=
  let s := initFS root absRoot d r
  (s, if noMakedir then k else s.makeDirectories k)

/-- file_structure.py:72-73 with 61-138: the constructor with its two assertions about the root. -/
def construct (root absRoot : Str) (d r : Nat) (noMakedir : Bool) (k : Disk) :
    Except Err (FS × Disk) :=
  if (k.isDir root || (k.files root).isSome) = false then .error .assertion
  else if k.isDir root = false then .error .assertion
  else .ok (new root absRoot d r noMakedir k)

/-- file_structure.py:204-217 `verify_directories_exists`: the disk afterwards.  `self` is not used;
`root` is the argument `path_root` with its absolute form. -/
def verifyDirectoriesExists (root : Option (Str × Str)) (d : Nat) (k : Disk) : Except Err Disk :=
  match root with
  | none => .error .exception
  | some (root, absRoot) =>
    match construct root absRoot d 0 false k with
    | .error e => .error e
    | .ok (s, k) => .ok (if s.directoriesExist k then k else s.makeDirectories k)

/-- file_structure.py:156-171 `make_rho_directories`. -/
def FS.makeRhoDirectories (s : FS) (r : Nat) (k : Disk) : Disk :=
  if r = s.idRho then s.makeDirectories k
  else (listSubDirs.map fun x => join (join s.pathRoot (templateRho s.idData r)) x).foldl
    Disk.makedirs k

/-- file_structure.py:173-202 `change_rho`. -/
def FS.changeRho (s : FS) (r : Nat) (k : Disk) : FS × Disk :=
  let k := s.makeRhoDirectories r k
  let params := join s.pathRoot (templateRho s.idData r ++ c!"parameters/")
  let results := join s.pathRoot (templateRho s.idData r ++ c!"results/")
  ({ s with
      pathRhoParams := params
      pathRhoResults := results
      pathRhoOutput := join s.pathRoot (templateRho s.idData r ++ c!"execution_output/")
      pathRhoPlots := join s.pathRoot (templateRho s.idData r ++ c!"plots/")
      templatePimc := results ++ pimc fieldP fieldT c!"{J:s}"
      templateJackknife := results ++ jackknife fieldP fieldT fieldX
      templateSosRho := params ++ sos fieldB
      pathRhoModel := join params samplingModel
      pathAnalyticRho := join params analyticResults }, k)

/-- vibronic_model_io.py:300-331 `create_model_hash` / `create_diagonal_model_hash` of the file at
`path`; `hash` is sha512's hex digest, opaque. -/
def hashOfFile (hash : Str → Str) (k : Disk) (path : Str) : Except Err Str :=
  match k.files path with
  | none => .error .assertion
  | some text => .ok (hash text)

/-- file_structure.py:231-240 `generate_model_hashes`. -/
def FS.generateModelHashes (s : FS) (hash : Str → Str) (k : Disk) (force : Bool) :
    Except Err FS :=
  if s.hashVib.isSome && s.hashRho.isSome && !force then .ok s
  else do
    let hv ← hashOfFile hash k s.pathVibModel
    let hr ← hashOfFile hash k s.pathRhoModel
    .ok { s with hashVib := some hv, hashRho := some hr }

/-- file_structure.py:242-250 `valid_vib_hash`, `valid_rho_hash` on a dictionary's stored value
(`none` when the key is missing). -/
def validHash (own stored : Option Str) : Except Err Bool :=
  match own with
  | none => .error .assertion
  | some h => match stored with
    | none => .error .key
    | some h' => .ok (h' == h)

/-- file_structure.py:252-253 `valid_vib_and_rho_hashes`: `and` stops at the first false value. -/
def validVibAndRhoHashes (ownVib ownRho storedVib storedRho : Option Str) : Except Err Bool := do
  if ← validHash ownRho storedRho then validHash ownVib storedVib else .ok false

end Pibronic.FileStructure
