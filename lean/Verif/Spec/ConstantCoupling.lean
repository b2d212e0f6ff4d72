import Verif.Spec.PIMC
import Mathlib.LinearAlgebra.Matrix.NonsingularInverse

set_option autoImplicit false

/-!
Systems whose partition function is known in closed form: only constants couple the surfaces, and surfaces that are
coupled have the same oscillators.  The modes may be mixed, and surfaces that are not coupled may differ.
-/
namespace Pibronic.Spec.PIMC
open Pibronic.PIMC Finset

/-- Different surfaces are coupled by constants only; where the constant is not zero the two surfaces have the same
linear and quadratic terms. -/
def ConstantCoupling {A N : ℕ} (m : Vib A N) : Prop :=
  ∀ a b, a ≠ b → (∀ i, m.linear i a b = 0) ∧ (∀ i j, m.quadratic i j a b = 0) ∧
    (m.energy a b ≠ 0 → (∀ i, m.linear i a a = m.linear i b b) ∧ ∀ i j, m.quadratic i j a a = m.quadratic i j b b)

/-- The second derivatives of the potential of surface `a`: the potential is
`E a a + l x + x H x / 2`. -/
def hessian {A N : ℕ} (m : Vib A N) (a : Fin A) : Matrix (Fin N) (Fin N) ℝ :=
  Matrix.of fun i j => (if i = j then m.omega i else 0) + m.quadratic i j a a

/-- `f` are the frequencies of the normal modes of surface `a`: the kinetic energy is `w / 2 p ^ 2` in every mode, so
their squares are the eigenvalues of `sqrt w H sqrt w`. -/
def NormalModes {A N : ℕ} (m : Vib A N) (a : Fin A) (f : Fin N → ℝ) : Prop :=
  (∀ i, 0 < f i) ∧ ∃ V : Matrix (Fin N) (Fin N) ℝ, V.transpose * V = 1 ∧
    ∀ i j, Real.sqrt (m.omega i) * hessian m a i j * Real.sqrt (m.omega j) = ∑ k, f k ^ 2 * (V i k * V j k)

/-- The partition function of the oscillators of one surface relative to its constant: their lowest point is
`- l H⁻¹ l / 2`. -/
noncomputable def surfaceZ {A N : ℕ} (beta : ℝ) (m : Vib A N) (a : Fin A) (f : Fin N → ℝ) : ℝ :=
  Real.exp (-beta * -((fun i => m.linear i a a) ⬝ᵥ (hessian m a)⁻¹.mulVec (fun i => m.linear i a a)) / 2)
    * ∏ i, (2 * Real.sinh (beta * f i / 2))⁻¹

/-- The partition function of the Hamiltonian of such a system: the surfaces with the same oscillators form blocks, in
every block the oscillators and the constants are independent. -/
noncomputable def constantCouplingZ {A N : ℕ} (beta : ℝ) (m : Vib A N) (f : Fin A → Fin N → ℝ) : ℝ :=
  ∑ a, NormedSpace.exp (-beta • m.energy) a a * surfaceZ beta m a (f a)

end Pibronic.Spec.PIMC
