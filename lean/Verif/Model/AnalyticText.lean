import Verif.Model.Analytic
import Verif.Py.JsonDefault

set_option autoImplicit false

/-!
The text of the files with analytic results (`pibronic/julia_wrapper.py`).  `Model/Analytic.lean`
takes the contents of a results file as one of four cases; here they are computed from the text.
-/
namespace Pibronic.Analytic
open Py
variable {V : Type}

/-- One value of a results file: a hash or a dictionary of floats.  `number t` is the float with the
token `t`.  Simplification: other values are ignored. -/
def valueOf (number : Str → V) : Json → Option (AVal V)
  | .str h => some (.hash h)
  | .dict l => some (.entry fun k => match dictGet k l with
    | .ok (.float t) => some (number t)
    | _ => none)
  | _ => none

/-- The dictionary that `json.loads` returns. -/
def dictOfItems (number : Str → V) (l : List (Str × Json)) : ADict V :=
  fun k => match dictGet k l with
    | .ok v => valueOf number v
    | .error _ => none

/-- julia_wrapper.py:158-162: a text of more than one character goes through `json.loads`. -/
def contentsOf (number : Str → V) (text : Str) : Contents V :=
  if 1 < text.length then
    match loads text with
    | .ok (.dict l) => .dict (dictOfItems number l)
    | _ => .broken
  else .short

/-- julia_wrapper.py:168-169: `json.dump(old_dict, file)`. -/
def textOf (l : List (Str × Json)) : Str := dumpsDefault (.dict l)

/-- What a crash leaves of that write: the file is emptied when it is opened, then the text
arrives. -/
def crashText (l : List (Str × Json)) (n : Nat) : Str := (textOf l).take n

end Pibronic.Analytic
