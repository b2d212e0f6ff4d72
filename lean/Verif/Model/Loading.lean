import Verif.Model.ModelIO
import Verif.Model.JobParams

set_option autoImplicit false

/-!
Model of the ways to make an object of `pibronic/pimc/pimc.py` straight from a file: `load_model` of a
plain `ModelClass` object, `ModelClass.from_json_file`, `BoxData.from_json_file`.

Simplification: a model file is the parsed JSON object (see `Model/ModelIO.lean`).
-/
namespace Pibronic.Loading
open Py Pibronic.ModelIO

variable {α : Type} [CommRing α] [DecidableEq α]

/-- pimc.py:94-108, 118-133, 141-147 `ModelClass(states, modes)` and `load_model` while one of the four
arrays is still `None`: the members afterwards.  The dictionary is indexed with the linear terms
(line 127) before the test whether it has any (line 131), and with the quadratic terms at the end
(line 147) although the dictionary may have none. -/
def loadFirst (path : Str) (disk : ModelIO.Disk α) : Except Err (ModelIO.Dict α) := do
  let v ← load .coupled path disk
  match v.model.arr .w with
  | none => .error .key
  | some w =>
    match v.model.arr .G1 with
    | none => .error .key
    | some g1 =>
      match v.model.arr .G2 with
      | none => .error .key
      | some g2 =>
        .ok { N := some v.N, A := some v.A, arr := fun k => match k with
          | .E => (v.model.arr .E).map fun e => ⟨_, e⟩
          | .w => some ⟨_, w⟩
          | .G1 => some ⟨_, g1⟩
          | .G2 => some ⟨_, g2⟩
          | _ => none }

/-- pimc.py:111-116 `ModelClass.from_json_file`: the *contents* of the file are handed to `load_model`
as the path, with the class as the object; `load_model` has no result (`None`).  `texts` are the
contents of the files as texts, `disk` the files that hold models. -/
def modelFromFile (texts : Str → Option Str) (disk : ModelIO.Disk α) (path : Str) :
    Except Err (Option (ModelIO.Dict α)) :=
  match texts path with
  | none => .error .os
  | some contents =>
    match loadFirst contents disk with
    | .error e => .error e
    | .ok _ => .ok none

/-- pimc.py:495-500 `BoxData.from_json_file`: `cls.from_json_string(cls, file_data)` gives a class
method one argument too many (`TypeError`). -/
def boxFromFile (texts : Str → Option Str) (path : Str) : Except Err JobParams.BoxParams :=
  match texts path with
  | none => .error .os
  | some _ => .error .type

end Pibronic.Loading
