import Verif.Py.Str
import Mathlib.Data.Real.Basic
import Mathlib.Data.Matrix.Basic

set_option autoImplicit false

/-!
Model of `pos_sym_assert` of `pibronic/pimc/pimc.py` for a square matrix.
-/
namespace Pibronic.PosSym
open Py

/-- pimc.py:50 `float_tolerance` -/
noncomputable def floatTolerance : ℝ := 1 / 10 ^ 23

open Classical in
/-- pimc.py:1043-1059 `pos_sym_assert`: every entry must be above `-float_tolerance`; then a function
of `numpy.linalg` is called that does not exist (`choleskys`), and an `AttributeError` is none of the
exceptions that are caught. -/
noncomputable def posSymAssert {n : Nat} (M : Matrix (Fin n) (Fin n) ℝ) : Except Err Unit :=
  if ∀ i j, M i j > -floatTolerance then .error .attribute else .error .assertion

end Pibronic.PosSym
