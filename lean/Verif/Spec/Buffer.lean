import Verif.Py.Str
import Verif.Py.Chars

set_option autoImplicit false

/-! Specification of the searches in output files, independent of the model. -/
namespace Pibronic.Buffer
open Py

/-- The number of newlines at the positions from `a` up to but not including `b`. -/
def newlinesIn (buf : Str) (a b : Nat) : Nat := ((buf.take b).drop a).count '\n'

/-- The text made of the given lines, each ended by a newline. -/
def terminated (ls : List Str) : Str := ls.flatMap fun l => l ++ ['\n']

/-- `r` is the position of the `n`-th newline before `start` (`start` itself for `n = 0`). -/
def NthBefore (buf : Str) (n start r : Nat) : Prop :=
  if n = 0 then r = start
  else r < start ∧ buf[r]? = some '\n' ∧ newlinesIn buf r start = n

/-- `r` is the position of the `n`-th newline after `start` (`start` itself for `n = 0`). -/
def NthAfter (buf : Str) (n start r : Nat) : Prop :=
  if n = 0 then r = start
  else start < r ∧ buf[r]? = some '\n' ∧ newlinesIn buf (start + 1) (r + 1) = n

end Pibronic.Buffer
