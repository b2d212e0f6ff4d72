import Verif.Py.Str

set_option autoImplicit false

/-!
The layout of a `*.auto` file: a title, four lines about the grid and the modes, and six sections, each
with a title line.
-/
namespace Pibronic.Spec.OldFormats
open Py

/-- The lines of a file with `A` surfaces and `N` modes, without blank lines and rulers. -/
structure AutoText (A N : Nat) where
  title : Str
  header : Fin 4 → Str
  parentGradientTitle : Str
  parentGradient : Fin N → Str
  parentHessianTitle : Str
  parentHessian : Fin N → Str
  hamiltonianTitle : Str
  hamiltonian : Fin A → Str
  linearTitle : Str
  linearHead : Fin N → Str
  linear : Fin N → Fin A → Str
  diagonalTitle : Str
  diagonalHead : Fin N → Str
  diagonal : Fin N → Fin A → Str
  offDiagonalTitle : Str
  /-- for a pair of modes `i`, `j` with `j < i` -/
  offDiagonalHead : (i : Fin N) → Fin i → Str
  offDiagonal : (i : Fin N) → Fin i → Fin A → Str

variable {A N : Nat}

/-- The sections up to the reference Hamiltonian. -/
def AutoText.front (t : AutoText A N) : List Str :=
  t.title :: List.ofFn t.header ++ t.parentGradientTitle :: List.ofFn t.parentGradient ++
    t.parentHessianTitle :: List.ofFn t.parentHessian ++ t.hamiltonianTitle :: List.ofFn t.hamiltonian

/-- The sections after the reference Hamiltonian. -/
def AutoText.back (t : AutoText A N) : List Str :=
  t.linearTitle :: (List.ofFn fun i => t.linearHead i :: List.ofFn (t.linear i)).flatten ++
    t.diagonalTitle :: (List.ofFn fun i => t.diagonalHead i :: List.ofFn (t.diagonal i)).flatten ++
    t.offDiagonalTitle :: (List.ofFn fun i => (List.ofFn fun j =>
      t.offDiagonalHead i j :: List.ofFn (t.offDiagonal i j)).flatten).flatten

/-- The whole file. -/
def AutoText.lines (t : AutoText A N) : List Str := t.front ++ t.back

/-- A file in which the rows of the reference Hamiltonian are written twice. -/
def AutoText.linesTwice (t : AutoText A N) : List Str := t.front ++ List.ofFn t.hamiltonian ++ t.back

end Pibronic.Spec.OldFormats
