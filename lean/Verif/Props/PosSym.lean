import Verif.Model.PosSym
import Mathlib.LinearAlgebra.Matrix.PosDef
import Mathlib.LinearAlgebra.Matrix.Notation
import Mathlib.Tactic.NormNum
import Mathlib.Tactic.Linarith

set_option autoImplicit false

/-!
C110: the check of a covariance matrix.
-/
namespace Pibronic.Props.PosSym
open Pibronic.Py Pibronic.PosSym Matrix

variable {n : Nat}

/-- C110, refuted: no matrix passes the check. -/
theorem C110_never_passes_refuted (M : Matrix (Fin n) (Fin n) ℝ) : posSymAssert M ≠ .ok () := by
  unfold posSymAssert; split <;> simp

/-- C110: which exception is raised depends on the signs of the entries only: a matrix with a negative
entry is refused as not positive semidefinite, every other one with an `AttributeError`. -/
theorem C110_entries (M : Matrix (Fin n) (Fin n) ℝ) :
    (posSymAssert M = .error .assertion ↔ ∃ i j, M i j ≤ -(1 / 10 ^ 23)) ∧
    (posSymAssert M = .error .attribute ↔ ∀ i j, -(1 / 10 ^ 23) < M i j) := by
  unfold posSymAssert floatTolerance
  constructor
  · split
    · next h => simpa using h
    · next h => simpa using h
  · split
    · next h => simpa using h
    · next h => simpa using h

/-- C110, the part that holds: a matrix with a clearly negative entry on the diagonal, which is not
positive semidefinite, is refused as such. -/
theorem C110_diagonal_partial (M : Matrix (Fin n) (Fin n) ℝ) (i : Fin n) (h : M i i ≤ -(1 / 10 ^ 23)) :
    ¬ M.PosSemidef ∧ posSymAssert M = .error .assertion := by
  refine ⟨fun hp => ?_, (C110_entries M).1.2 ⟨i, i, h⟩⟩
  have h0 := hp.diag_nonneg (i := i)
  have : (0 : ℝ) < 1 / 10 ^ 23 := by positivity
  linarith

/-- C110, refuted: there are positive definite matrices that are refused as not positive semidefinite. -/
theorem C110_refuses_positive_refuted : ∃ M : Matrix (Fin 2) (Fin 2) ℝ,
    M.PosDef ∧ posSymAssert M = .error .assertion := by
  refine ⟨!![2, -1; -1, 2], ?_, (C110_entries _).1.2 ⟨0, 1, ?_⟩⟩
  · rw [posDef_iff_dotProduct_mulVec]
    refine ⟨by ext i j; fin_cases i <;> fin_cases j <;> simp, fun {x} hx => ?_⟩
    have hne : x 0 ≠ 0 ∨ x 1 ≠ 0 := by
      by_contra h
      push Not at h
      exact hx (by ext i; fin_cases i <;> simp [h.1, h.2])
    have : star x ⬝ᵥ (!![2, -1; -1, 2] *ᵥ x) = x 0 ^ 2 + x 1 ^ 2 + (x 0 - x 1) ^ 2 := by
      simp [Matrix.mulVec, dotProduct, Fin.sum_univ_two]; ring
    rw [this]
    rcases hne with h | h <;> positivity
  · norm_num

/-- C110, refuted: there are matrices that are not positive semidefinite and pass the check of the
entries, so that the exception says nothing about it. -/
theorem C110_misses_indefinite_refuted : ∃ M : Matrix (Fin 2) (Fin 2) ℝ,
    M.IsHermitian ∧ ¬ M.PosSemidef ∧ posSymAssert M = .error .attribute := by
  refine ⟨!![1, 2; 2, 1], ?_, ?_, (C110_entries _).2.2 ?_⟩
  · ext i j; fin_cases i <;> fin_cases j <;> simp
  · intro h
    have := h.dotProduct_mulVec_nonneg ![1, -1]
    norm_num [Matrix.mulVec, dotProduct, Fin.sum_univ_two] at this
  · have : (0 : ℝ) < 1 / 10 ^ 23 := by positivity
    intro i j
    fin_cases i <;> fin_cases j <;> simp <;> linarith

end Pibronic.Props.PosSym
