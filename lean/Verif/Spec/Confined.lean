import Verif.Spec.PIMC

set_option autoImplicit false

/-! Systems whose potential energy rises in every direction, and changes of the electronic basis. -/
namespace Pibronic.Spec.PIMC
open Pibronic.PIMC Finset

/-- The second derivative of the potential energy in the direction `x` of the coordinates, in the electronic state
`v`. -/
noncomputable def curvature {A N : ℕ} (m : Vib A N) (x : Fin N → ℝ) (v : Fin A → ℝ) : ℝ :=
  (∑ i, m.omega i * x i ^ 2) * ∑ a, v a ^ 2 + ∑ i, ∑ j, x i * x j * ∑ a, ∑ b, v a * m.quadratic i j a b * v b

/-- The potential energy rises in every direction, whatever the electronic state. -/
def Confined {A N : ℕ} (m : Vib A N) : Prop := ∀ x, x ≠ 0 → ∀ v, v ≠ 0 → 0 < curvature m x v

/-- All matrices of the system are symmetric. -/
def Symmetric {A N : ℕ} (m : Vib A N) : Prop :=
  m.energy.IsSymm ∧ (∀ i, (m.linear i).IsSymm) ∧ ∀ i j, (m.quadratic i j).IsSymm

/-- The same system in another electronic basis: the columns of `U` are the old basis vectors in the new basis. -/
def rotate {A N : ℕ} (U : Matrix (Fin A) (Fin A) ℝ) (m : Vib A N) : Vib A N where
  energy := U * m.energy * U.transpose
  omega := m.omega
  linear := fun i => U * m.linear i * U.transpose
  quadratic := fun i j => U * m.quadratic i j * U.transpose

end Pibronic.Spec.PIMC
