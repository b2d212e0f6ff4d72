import Mathlib.Algebra.Field.Basic
import Mathlib.Algebra.Order.Floor.Ring
import Mathlib.Data.Rat.Floor
import Verif.Py.Str

set_option autoImplicit false

/-!
Python's formatting of a number with two decimals.
-/
namespace Pibronic.Py

/-- The number of hundredths that Python's format `.2f` shows for the number `x ≥ 0`: the nearest one,
and the even one of two equally near ones.  (CPython rounds the exact value of the float correctly; a float
is a rational number.) -/
def hundredths {K : Type} [Field K] [LinearOrder K] [FloorRing K] (x : K) : Nat :=
  let n := ⌊x * 100⌋.toNat
  let r := x * 100 - n
  if r < 1 / 2 then n else if 1 / 2 < r then n + 1 else if n % 2 = 0 then n else n + 1

/-- `"{:.2f}".format(x)` for `x ≥ 0`. -/
def formatF2 (x : ℚ) : Str := tempStr (hundredths x)

end Pibronic.Py
