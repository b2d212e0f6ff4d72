import Verif.Model.Grids

set_option autoImplicit false

/-! What the claim about grid figures (C85) means. -/
namespace Pibronic.Spec.Grids
open Pibronic.Py Pibronic.FileStructure Pibronic.Grids

variable {K : Type}

/-- The figure shows the matrix: row `r`, column `c` of the matrix is the colour of the square in row
`r` and column `c`. -/
def Shows (g : Grid K) (n : Nat) (data : Nat → Nat → Option K) : Prop :=
  g.size = n ∧ ∀ r < n, ∀ c < n, g.square c r = data r c

/-- The text for a number. -/
def IsSign [LinearOrder K] [Zero K] (v : Option K) (c : Char) : Prop :=
  (c = '+' ∧ ∃ x, v = some x ∧ 0 < x) ∨ (c = '-' ∧ ∃ x, v = some x ∧ x < 0) ∨
  (c = '0' ∧ v = some 0) ∨ (c = 'y' ∧ v = none)

/-- Every square carries exactly one text, and it is the sign of the number it shows. -/
def MarksCorrect [LinearOrder K] [Zero K] (g : Grid K) : Prop :=
  (∀ x < g.size, ∀ y < g.size, ∃ t, (⟨x, y, t⟩ : Mark) ∈ g.marks) ∧
  ∀ m ∈ g.marks, m.x < g.size ∧ m.y < g.size ∧ IsSign (g.square m.x m.y) m.text

/-- The name of the figure of the linear terms of mode `j` (counted from 1). -/
def linearName (kind : Str) (d j : Nat) : Str :=
  kind ++ c!"_linear_grid_D" ++ natStr d ++ c!"_N" ++ natStr j ++ c!".pdf"

/-- The name of the figure of the quadratic terms of modes `i`, `j` (counted from 1). -/
def quadraticName (kind : Str) (d i j : Nat) : Str :=
  kind ++ c!"_quadratic_grid_D" ++ natStr d ++ c!"_N" ++ natStr i ++ c!"_N" ++ natStr j ++ c!".pdf"

/-- The name of the figure of the energies. -/
def energyName (kind : Str) (d : Nat) : Str := kind ++ c!"_energy_grid_D" ++ natStr d ++ c!".pdf"

end Pibronic.Spec.Grids
