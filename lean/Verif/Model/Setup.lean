import Verif.Model.Examples
import Verif.Model.ModelIO
import Verif.Model.Postprocessing

set_option autoImplicit false

/-!
Model of `setup_models.py` in `examples/artificial_systems` and `examples/paper_1.5025058`: the preparation of the
model files of a data set.

Simplifications: directories are not modelled (the constructor of `FileStructure` and `change_rho` make them, C19,
C20) except that the root must exist; the input files lie outside of the roots; the MCTDH variant behind `if True`
is in `Model/SetupMctdh.lean`; messages and `time.sleep` are left out.  The program for the iterative method runs elsewhere: what it
makes of the coupled model it finds is an input.
-/
namespace Pibronic.Setup
open Py FileName FileStructure Examples
open ModelIO hiding Disk
variable {α : Type}

/-- The model files and the stored matrices. -/
structure World (α : Type) where
  files : ModelIO.Disk α
  mats : Str → Option (NDArray α)

/-- What the programs meet. -/
structure Env (α : Type) where
  /-- the name of the host -/
  host : Str
  /-- `os.path.abspath` -/
  absolute : Str → Str
  isDir : Str → Bool
  /-- `abspath(dirname(__file__))` -/
  scriptDir : Str
  /-- the files below `scriptDir` -/
  inputs : Str → Option (File α)
  /-- the paths of the same files in the order of `glob` -/
  listing : List Str
  /-- `create_orthonormal_matrix_lambda_close_to_identity(A, tuning_parameter)` -/
  orthonormal : ℚ → Nat → Except Err (NDArray α)
  /-- the job of the iterative method: the model file it writes, `none` when it fails without writing one, or the
  exception of the submission when its memory runs out -/
  iterate : Option (File α) → Except Err (Option (File α))
  /-- `min(np.linalg.eigvalsh(V))` -/
  minEig : (A : Nat) → Tensor α [A, A] → α

/-- A statement: how it ends, and what it leaves. -/
abbrev Step (α : Type) := World α → Except Err Unit × World α

/-- One statement after the other. -/
def andThen (f g : Step α) : Step α := fun w =>
  match f w with
  | (.error e, w) => (.error e, w)
  | (.ok (), w) => g w

/-- A statement that only works on model files. -/
def onFiles (f : ModelIO.Disk α → Except Err Unit × ModelIO.Disk α) : Step α := fun w =>
  ((f w.files).1, { w with files := (f w.files).2 })

/-- artificial_systems/setup_models.py:117-123, paper_1.5025058/setup_models.py:83-89,
artificial_systems/submit_jobs_to_server.py:178-184, paper_1.5025058/submit_jobs_to_server.py:177-183: the
FileStructure object; `root` is the given root with its absolute path. -/
def openData (p : Project) (e : Env α) (root : Option (Str × Str)) (d : Nat) : Except Err FS := do
  p.assertId d
  let r ← match root with
    | some r => .ok r
    | none => do
      let r ← p.chooseRoot e.host
      .ok (r, e.absolute r)
  if e.isDir r.1 then .ok (initFS r.1 r.2 d 0) else .error .assertion

/-- `FS.change_rho(r)` (file_structure.py:173-202), without the directories. -/
def atRho (s : FS) (r : Nat) : FS := (s.changeRho r ⟨[], fun _ => none⟩).1

/-- `shutil.copy(src, dst)` of an input file. -/
def copyInput (e : Env α) (src dst : Str) : Step α := fun w =>
  match e.inputs src with
  | none => (.error .os, w)
  | some f => (.ok (), { w with files := w.files.write dst f })

/-- artificial_systems/setup_models.py:107-108, paper_1.5025058/setup_models.py:47-49, 64-67 `dir_src` with an entry of it. -/
def inputPath (e : Env α) (dir name : Str) : Str := join (join e.scriptDir dir) name

/-- artificial_systems/submit_jobs_to_server.py:176-206, paper_1.5025058/submit_jobs_to_server.py:175-205
`iterative_method_wrapper` with julia_wrapper.py:264-283 `iterate_method` in the job it waits for. -/
def iterativeWrapper (p : Project) (e : Env α) (root : Option (Str × Str)) (d : Nat) : Step α := fun w =>
  match openData p e root d with
  | .error err => (.error err, w)
  | .ok s =>
    match e.iterate (w.files s.pathVibModel) with
    | .error err => (.error err, w)
    | .ok none => (.ok (), w)
    | .ok (some f) => (.ok (), { w with files := w.files.write s.pathIterModel f })

/-! ### the artificial systems -/

/-- artificial_systems/setup_models.py:102-112 `copy_input_json_files_into_directories` -/
def copyInputJson (e : Env α) (s : FS) (name : Str) : Step α :=
  copyInput e (inputPath e c!"input_json" (c!"model_" ++ name ++ c!".json")) s.pathVibModel

variable [Field α] [DecidableEq α] [AllClose α]

/-- artificial_systems/setup_models.py:72-83 `unitary_transformation`, with `np.save` of the matrix
(vibronic_model_io.py:871). -/
noncomputable def unitaryTransformation (e : Env α) (s : FS) (force : Bool) : Step α := fun w =>
  let arg : Except Err (UArg α) :=
    if !force && (w.mats s.pathOrthoMat).isSome then .ok .reuse
    else do
      let t ← tuningParameter s.idData
      .ok (.fresh (e.orthonormal t))
  match (do
    let arg ← arg
    createFake s.pathVibModel s.pathOrigModel (w.mats s.pathOrthoMat) arg w.files) with
  | .error err => (.error err, w)
  | .ok (ops, U) =>
    (.ok (), { files := runOps ops w.files, mats := fun p => if p = s.pathOrthoMat then some U else w.mats p })

/-- artificial_systems/setup_models.py:56-59: the energies of the third sampling model are replaced. -/
noncomputable def replaceEnergies (e : Env α) (vib iter rho : Str) (disk : ModelIO.Disk α) :
    Except Err Unit × ModelIO.Disk α :=
  match (do
    let i ← load .diagonal iter disk
    let v ← load .coupled vib disk
    let new ← singlePoint e.minEig i v
    let m ← load .diagonal rho disk
    .ok { m.model.toDict with arr := fun k => if k = .E then some ⟨[i.A], new⟩ else m.model.toDict.arr k } :
      Except Err (Dict α)) with
  | .error err => (.error err, disk)
  | .ok d => save .diagonal rho d disk

/-- artificial_systems/setup_models.py:20-69 `setup_sampling_distributions`, first part: 26-37. -/
def basicDistributions (s : FS) : Step α :=
  andThen (onFiles (createBasicDiagonal s.pathVibModel s.pathHarModel (atRho s 0).pathRhoModel))
    (onFiles (removeCoupling s.pathOrigModel (atRho s 1).pathRhoModel))

/-- artificial_systems/setup_models.py:42-69, the part with the iterative method. -/
noncomputable def iterativeDistributions (e : Env α) (s : FS) : Step α :=
  andThen (iterativeWrapper artificial e none s.idData) <|
  andThen (onFiles (copyFile s.pathIterModel (atRho s 2).pathRhoModel)) <|
  andThen (onFiles (copyFile s.pathIterModel (atRho s 3).pathRhoModel)) <|
  andThen (onFiles (replaceEnergies e s.pathVibModel s.pathIterModel (atRho s 3).pathRhoModel)) <|
  andThen (onFiles (copyFile s.pathIterModel (atRho s 4).pathRhoModel))
    (onFiles (recalculate e.minEig s.pathVibModel (atRho s 4).pathRhoModel))

/-- artificial_systems/setup_models.py:115-140 `prepare_model` -/
noncomputable def prepareModel (e : Env α) (root : Option (Str × Str)) (name : Str) (d : Nat) : Step α := fun w =>
  match openData artificial e root d with
  | .error err => (.error err, w)
  | .ok s =>
    andThen (copyInputJson e s name) (andThen (unitaryTransformation e s false)
      (andThen (basicDistributions s) (iterativeDistributions e s))) w

/-! ### the paper -/

/-- paper_1.5025058/setup_models.py:42-56 `copy_input_json_files_into_directories` -/
def copyInputPaper (e : Env α) (s : FS) (name : Str) : Step α :=
  andThen (copyInput e (inputPath e c!"input_json" (name ++ c!"_" ++ natStr (s.idData % 10) ++ c!".json"))
    s.pathVibModel)
    (onFiles (createBasicDiagonal s.pathVibModel s.pathHarModel s.pathRhoModel))

/-- paper_1.5025058/setup_models.py:72 `int(file.split("_R")[1].split(".json")[0])` -/
def rhoOfFile (file : Str) : Except Err Nat :=
  match (split c!"_R" file)[1]? with
  | none => .error .index
  | some t =>
    match (split c!".json" t)[0]? with
    | none => .error .index
    | some t => pyInt t

/-- paper_1.5025058/setup_models.py:70-76: the loop over the files. -/
def copyRhos (e : Env α) (s : FS) : List Str → Step α
  | [] => fun w => (.ok (), w)
  | file :: rest => fun w =>
    match rhoOfFile file with
    | .error err => (.error err, w)
    | .ok r => andThen (copyInput e file (atRho s r).pathRhoModel) (copyRhos e s rest) w

/-- paper_1.5025058/setup_models.py:59-78 `copy_alternate_rhos_into_directories` -/
def copyAlternateRhos (e : Env α) (s : FS) (name : Str) : Step α :=
  copyRhos e s (Postprocessing.glob e.listing
    (inputPath e c!"alternate_rhos" (name ++ c!"_D" ++ natStr (s.idData % 10) ++ c!"_R*.json")))

/-- paper_1.5025058/setup_models.py:81-102 `prepare_paper_model` -/
def preparePaperModel (e : Env α) (root : Option (Str × Str)) (name : Str) (d : Nat) : Step α := fun w =>
  match openData paper e root d with
  | .error err => (.error err, w)
  | .ok s => andThen (copyInputPaper e s name) (copyAlternateRhos e s name) w

/-- paper_1.5025058/systems.py:33 `iterative_model_id_rho` -/
def iterativeRho : Nat := 11

/-- paper_1.5025058/setup_models.py:105-111 `setup_weight_corrected_iterative_model` -/
noncomputable def setupWeightCorrected (e : Env α) (s : FS) : Step α :=
  andThen (iterativeWrapper paper e none s.idData) <|
  andThen (onFiles (recalculate e.minEig s.pathVibModel s.pathIterModel))
    (onFiles (copyFile s.pathIterModel (atRho s iterativeRho).pathRhoModel))

/-- paper_1.5025058/setup_models.py:114-129 `prepare_paper_model_plus_iterative_method` -/
noncomputable def preparePaperPlus (e : Env α) (root : Option (Str × Str)) (name : Str) (d : Nat) : Step α :=
  andThen (preparePaperModel e root name d) fun w =>
    match openData paper e root d with
    | .error err => (.error err, w)
    | .ok s => setupWeightCorrected e s w

end Pibronic.Setup
