import Verif.Model.OpFile
import Verif.Model.Setup

set_option autoImplicit false

/-!
Model of the second way to fill a data set in `setup_models.py` of `examples/artificial_systems` and
`examples/paper_1.5025058`: from an operator file of MCTDH instead of a model file.  (The programs have a switch
in their source between the two ways.)

Simplifications: operator files are texts, kept apart from the model files; `FS.path_es` is a directory.
-/
namespace Pibronic.SetupMctdh
open Py FileName FileStructure
open ModelIO hiding Disk

variable {K : Type}

/-- The texts and the model files. -/
structure Store (K : Type) where
  texts : Str → Option Str
  files : ModelIO.Disk K

/-- artificial_systems/setup_models.py:92-95, paper_1.5025058/setup_models.py:27-30: `shutil.copy` of the operator
file `name` into the directory of the electronic structure; returns the new path. -/
def copyOp (scriptDir : Str) (s : FS) (name : Str) (w : Store K) : Except Err Str × Store K :=
  match w.texts (join (join scriptDir c!"input_mctdh") name) with
  | none => (.error .os, w)
  | some t =>
    let dst := join s.pathEs name
    (.ok dst, { w with texts := fun p => if p = dst then some t else w.texts p })

variable [Field K] [DecidableEq K] [AllClose K]

/-- artificial_systems/setup_models.py:86-99 `parse_input_mctdh_files_into_directories` -/
noncomputable def parseArtificial (num : Str → Option K) (scriptDir : Str) (s : FS) (name : Str) (w : Store K) :
    Except Err Unit × Store K :=
  match copyOp scriptDir s (c!"model_" ++ name ++ c!".op") w with
  | (.error e, w) => (.error e, w)
  | (.ok dst, w) =>
    let r := OpFile.createCoupling num (w.texts dst) s.pathVibModel w.files
    (r.1, { w with files := r.2 })

/-- paper_1.5025058/setup_models.py:22-39 `parse_input_mctdh_files_into_directories`: `create_basic_diagonal_model`
makes the harmonic model a second time. -/
noncomputable def parsePaper (num : Str → Option K) (scriptDir : Str) (s : FS) (name : Str) (w : Store K) :
    Except Err Unit × Store K :=
  match copyOp scriptDir s (name ++ c!"_" ++ natStr (s.idData % 10) ++ c!".op") w with
  | (.error e, w) => (.error e, w)
  | (.ok dst, w) =>
    match OpFile.createCoupling num (w.texts dst) s.pathVibModel w.files with
    | (.error e, k) => (.error e, { w with files := k })
    | (.ok (), k) =>
      match removeCoupling s.pathVibModel s.pathHarModel k with
      | (.error e, k) => (.error e, { w with files := k })
      | (.ok (), k) =>
        let r := createBasicDiagonal s.pathVibModel s.pathHarModel s.pathRhoModel k
        (r.1, { w with files := r.2 })

end Pibronic.SetupMctdh
