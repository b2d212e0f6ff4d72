import Verif.Py.Str
import Verif.Py.Chars

set_option autoImplicit false

/-! Independent specification of the directory layout: texts only, no reference to the model. -/
namespace Pibronic.Spec.FileStructure
open Py

/-- `root/data_set_D/` for a root given without trailing slash -/
def dataDir (root : Str) (d : Nat) : Str := root ++ c!"/data_set_" ++ natStr d ++ c!"/"

/-- `root/data_set_D/rho_R/` -/
def rhoDir (root : Str) (d r : Nat) : Str := dataDir root d ++ c!"rho_" ++ natStr r ++ c!"/"

/-- `p` lies inside directory `dir` (which ends in a slash), or is the directory itself -/
def Inside (dir p : Str) : Prop := dir <+: p

/-- The root argument and its absolute path: the caller passed an absolute, normalised path,
possibly with one trailing slash. -/
def RootOk (root absRoot : Str) : Prop :=
  absRoot ≠ [] ∧ absRoot.getLast? ≠ some '/' ∧ (root = absRoot ∨ root = absRoot ++ c!"/")

end Pibronic.Spec.FileStructure
