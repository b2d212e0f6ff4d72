import Lean

set_option autoImplicit false

/-! `c!"abc"` is the list of characters `['a', 'b', 'c']` (a Python string literal). -/
namespace Pibronic.Py
open Lean

syntax:max (name := charsLit) "c!" str : term

macro_rules
  | `(c! $s:str) => do
    let cs := s.getString.toList.toArray.map fun c => (Syntax.mkCharLit c : TSyntax `term)
    `(([$cs,*] : List Char))

end Pibronic.Py
