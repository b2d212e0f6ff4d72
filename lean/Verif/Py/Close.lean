import Verif.Py.NDArray
import Mathlib.Algebra.Order.Ring.Abs
import Mathlib.Algebra.Order.Field.Basic
import Mathlib.Tactic.Ring
import Mathlib.Tactic.Linarith
import Mathlib.Tactic.NormNum

set_option autoImplicit false

/-!
`np.isclose(a, b)` and `np.allclose(a, b)` with the default tolerances `rtol=1e-05`, `atol=1e-08`.
-/
namespace Pibronic.Py

/-- Numbers that `np.allclose` compares.  `Close a b` is the outcome for two numbers; the only law the
general proofs use is that a number is close to itself. -/
class AllClose (α : Type) where
  /-- `np.isclose(a, b)` -/
  Close : α → α → Prop
  refl : ∀ a, Close a a

export AllClose (Close)

/-- numpy's formula `|a - b| <= atol + rtol * |b|`, multiplied by `10^8` so that it can be read in any
ordered ring (`close_iff`). -/
instance orderedClose {α : Type} [CommRing α] [LinearOrder α] [IsStrictOrderedRing α] : AllClose α where
  Close a b := 100000000 * |a - b| ≤ 1 + 1000 * |b|
  refl a := by
    rw [sub_self, abs_zero, mul_zero]
    have := abs_nonneg a
    positivity

theorem close_iff {α : Type} [Field α] [LinearOrder α] [IsStrictOrderedRing α] (a b : α) :
    Close a b ↔ |a - b| ≤ 1 / 10 ^ 8 + 1 / 10 ^ 5 * |b| := by
  show 100000000 * |a - b| ≤ 1 + 1000 * |b| ↔ _
  constructor <;> intro h
  · have : (100000000 : α) * |a - b| ≤ 100000000 * (1 / 10 ^ 8 + 1 / 10 ^ 5 * |b|) := by
      refine h.trans (le_of_eq ?_)
      ring_nf
    exact le_of_mul_le_mul_left this (by norm_num)
  · have := mul_le_mul_of_nonneg_left h (show (0 : α) ≤ 100000000 by norm_num)
    refine this.trans (le_of_eq ?_)
    ring_nf

/-- `np.allclose(a, b)` for two arrays of the same shape. -/
def Tensor.Close {α : Type} [AllClose α] : (s : List Nat) → Tensor α s → Tensor α s → Prop
  | [], x, y => AllClose.Close (show α from x) y
  | _ :: s, x, y => ∀ i, Tensor.Close s (x i) (y i)

theorem Tensor.Close.refl {α : Type} [AllClose α] : (s : List Nat) → (x : Tensor α s) → Tensor.Close s x x
  | [], x => AllClose.refl (show α from x)
  | _ :: s, x => fun i => Tensor.Close.refl s (x i)

end Pibronic.Py
