import Mathlib.Data.Real.Sqrt
import Mathlib.Data.List.Pairwise
import Mathlib.Analysis.Normed.Algebra.MatrixExponential

set_option autoImplicit false

/-!
Specification of tuned orthonormal matrices: what a usable sequence file is, and how far a matrix is
from the identity.
-/
namespace Pibronic.Spec.Orthonormal

/-- The rows (distance, argument) start with (0, 0) and their distances increase. -/
def Proper {K : Type} [Zero K] [LT K] (rows : List (K × K)) : Prop :=
  rows.head? = some (0, 0) ∧ rows.Pairwise fun a b => a.1 < b.1

/-- The Frobenius distance of a matrix from the identity matrix: the root of the sum of the squared
differences of the entries. -/
noncomputable def fromIdentity {n : ℕ} (M : Matrix (Fin n) (Fin n) ℝ) : ℝ :=
  Real.sqrt (∑ i, ∑ j, (M i j - if i = j then 1 else 0) ^ 2)

/-- The matrix with ones above the diagonal and minus ones below it. -/
def skew (n : ℕ) : Matrix (Fin n) (Fin n) ℝ :=
  Matrix.of fun i j => if i < j then 1 else if j < i then -1 else 0

/-- The rotation for the argument `x`: the exponential of `x` times that matrix. -/
noncomputable def rotation (n : ℕ) (x : ℝ) : Matrix (Fin n) (Fin n) ℝ := NormedSpace.exp (x • skew n)

/-- Every row records the distance from the identity of the rotation for its argument. -/
def Records (n : ℕ) (rows : List (ℝ × ℝ)) : Prop := ∀ r ∈ rows, r.1 = fromIdentity (rotation n r.2)

end Pibronic.Spec.Orthonormal
