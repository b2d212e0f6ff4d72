import Verif.Spec.Buffer

set_option autoImplicit false

/-!
What stands where in a file with sections of titled blocks; independent of how it is read.
-/
namespace Pibronic.HeffFile.Spec
open Py

/-- A section of a file begins with the first line that shows its title and ends before the first line that
shows the next title; `inner` are the lines below the line `first` with the title. -/
structure IsSection (lines : List Str) (title next first : Str) (inner : List Str) : Prop where
  ex : ∃ before last after, lines = before ++ first :: inner ++ last :: after ∧
    title <:+: first ∧ (∀ l ∈ before, ¬ title <:+: l) ∧
    next <:+: last ∧ ∀ l ∈ before ++ first :: inner, ¬ next <:+: l

/-- `rows` are the lines below the first line that shows `w`. -/
structure IsBelow (inner : List Str) (w : Str) (rows : List Str) : Prop where
  ex : ∃ before header after, inner = before ++ header :: rows ++ after ∧
    w <:+: header ∧ ∀ l ∈ before, ¬ w <:+: l

end Pibronic.HeffFile.Spec
