import Verif.Model.ModelIO
import Verif.Lemmas.JsonDefault

set_option autoImplicit false

/-!
The text of model files (`pibronic/vibronic/vibronic_model_io.py`): `json.dumps` with the default
separators when a model is written, `json.loads` when it is read.  This removes the simplification
of `Model/ModelIO.lean` that a file is a parsed object.

Simplifications: the members are written in the order number of modes, number of surfaces, arrays;
the values in a file are numbers and lists (numpy would also turn `true`, `null` and numerals in
quotation marks into floats; here they raise `TypeError`).
-/
namespace Pibronic.ModelText
open Py Pibronic.ModelIO
variable {α : Type}

/-- How floats are written and read: `float.__repr__` and `float(token)`.  What is written is always
a floating point token. -/
structure FloatText (α : Type) where
  repr : α → Str
  ofTok : Str → α
  tok : ∀ x, FloatTok (repr x)

/-- `x` is a float: it is what Python reads back from its `repr`. -/
def FloatText.IsFloat (fl : FloatText α) (x : α) : Prop := fl.ofTok (fl.repr x) = x

/-- The disk as texts (vibronic_model_io.py:530-531, 578-579: `encoding='UTF8'`; the texts are plain
ASCII, see `C01_text_ascii`). -/
abbrev TextDisk : Type := Str → Option Str

/-- `open(path, mode='w')` + `write` -/
def TextDisk.write (disk : TextDisk) (path text : Str) : TextDisk :=
  fun p => if p = path then some text else disk p

mutual
/-- The Python value that `json.dumps` gets. -/
def toJson (fl : FloatText α) : J α → Json
  | .int n => .int n
  | .num x => .float (fl.repr x)
  | .list l => .list (toJsons fl l)
/-- `toJson` of every item. -/
def toJsons (fl : FloatText α) : List (J α) → List Json
  | [] => []
  | v :: l => toJson fl v :: toJsons fl l
end

mutual
/-- The numbers and lists among the values that `json.loads` returns. -/
def fromJson [IntCast α] (fl : FloatText α) : Json → Except Err (J α)
  | .int (.ofNat n) => .ok (.int n)
  | .int z => .ok (.num z)
  | .float t => .ok (.num (fl.ofTok t))
  | .list l => do .ok (.list (← fromJsons fl l))
  | _ => .error .type
/-- `fromJson` of every item. -/
def fromJsons [IntCast α] (fl : FloatText α) : List Json → Except Err (List (J α))
  | [] => .ok []
  | v :: l => do
    let a ← fromJson fl v
    let as ← fromJsons fl l
    .ok (a :: as)
end

/-- vibronic_model_io.py:531 `json.dumps(dict_copy)` -/
def fileText (fl : FloatText α) (f : File α) : Str :=
  dumpsDefault (.dict (f.map fun m => (m.1, toJson fl m.2)))

/-- vibronic_model_io.py:560, 579 `json.loads(file.read())`; a text that is not an object has no
`.items()` (vibronic_model_keys.py:42). -/
def parseText [IntCast α] (fl : FloatText α) (text : Str) : Except Err (File α) := do
  match ← loads text with
  | .dict l => l.mapM fun m => do .ok (m.1, ← fromJson fl m.2)
  | _ => .error .attribute

variable [CommRing α] [DecidableEq α]

/-- vibronic_model_io.py:517-553 `save_model_to_JSON`, `save_diagonal_model_to_JSON`: the outcome
and the disk afterwards. -/
def saveText (fl : FloatText α) (kind : Kind) (path : Str) (d : Dict α) (disk : TextDisk) :
    Except Err Unit × TextDisk :=
  match verify kind d with
  | .error e => (.error e, disk)
  | .ok _ => (.ok (), disk.write path (fileText fl (toFile d)))

/-- vibronic_model_io.py:578-579: open, read, parse. -/
def openText (fl : FloatText α) (disk : TextDisk) (path : Str) : Except Err (File α) :=
  match disk path with
  | none => .error .os
  | some text => parseText fl text

/-- vibronic_model_io.py:575-649 `load_model_from_JSON`, `load_diagonal_model_from_JSON`. -/
def loadText (fl : FloatText α) (kind : Kind) (path : Str) (disk : TextDisk) :
    Except Err (Verified α kind) := do
  let f ← openText fl disk path
  let d ← loadDict f
  verify kind d

open Classical in
/-- vibronic_model_io.py:802-872 `create_fake_coupled_model`: the writes of a call that gets through
its checks, each with its path and its full text, and the matrix stored at the end.  The backup is
made with `shutil.copyfile`, so it has the text of the model file. -/
noncomputable def createFakeText [AllClose α] (fl : FloatText α) (vib orig : Str) (stored : Option (NDArray α))
    (arg : UArg α) (disk : TextDisk) : Except Err (List (Str × Str) × NDArray α) :=
  match disk vib with
  | none => .error .assertion
  | some old => do
    let v ← loadText fl .coupled vib disk
    let U ← chooseU v.A stored arg
    if SymmetricInSurfaces v.model ∧ SymmetricInModes v.model then
      let new := (Model.mapSurf (kind := .coupled) (kind' := .coupled) (einsumSurf U) v.model).toDict
      match verify .coupled new with
      | .error e => .error e
      | .ok _ => .ok ([(orig, old), (vib, fileText fl (toFile new))], ⟨[v.A, v.A], U⟩)
    else .error .assertion

/-- All writes are complete. -/
def writeAll (ws : List (Str × Str)) (disk : TextDisk) : TextDisk :=
  ws.foldl (fun d w => d.write w.1 w.2) disk

/-- The process dies during write number `i`, when `n` characters of it have reached the disk (the
file is truncated when it is opened for writing). -/
def crashAt (ws : List (Str × Str)) (i n : Nat) (disk : TextDisk) : TextDisk :=
  match ws[i]? with
  | none => writeAll ws disk
  | some w => (writeAll (ws.take i) disk).write w.1 (w.2.take n)

end Pibronic.ModelText
