import Mathlib.Algebra.Order.Field.Rat
import Mathlib.Algebra.Order.Group.Unbundled.Abs

set_option autoImplicit false

/-!
Vocabulary for the temperatures of runs, which are any non-negative numbers of kelvin.
-/
namespace Pibronic.Spec.Temperature

/-- `n` hundredths are the number of hundredths nearest to `T`; of two equally near ones, the even one. -/
def IsNearest (n : Nat) (T : ℚ) : Prop :=
  ∀ m : Nat, m ≠ n → |T - n / 100| < |T - m / 100| ∨ (|T - n / 100| = |T - m / 100| ∧ n % 2 = 0)

/-- `T` is a whole number of hundredths of a kelvin. -/
def Whole (T : ℚ) : Prop := ∃ n : Nat, T = n / 100

end Pibronic.Spec.Temperature
