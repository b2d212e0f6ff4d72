import Verif.Spec.PIMC

set_option autoImplicit false

/-!
Systems whose partition function is known in closed form: the surfaces are coupled by constants only, and every
surface has the same oscillators.
-/
namespace Pibronic.Spec.PIMC
open Pibronic.PIMC Finset

/-- The linear terms are `l i` and the quadratic terms `q i` on every surface, the modes are not mixed; the constants
that couple the surfaces are arbitrary. -/
def Separable {A N : ℕ} (m : Vib A N) (l q : Fin N → ℝ) : Prop :=
  (∀ i, m.linear i = l i • 1) ∧ ∀ i j, m.quadratic i j = if i = j then q i • 1 else 0

/-- The partition function of the Hamiltonian of such a system: the trace of `exp (-beta E)` for the matrix `E` of the
constants, times for every mode the partition function of the oscillator
`w / 2 (p ^ 2 + x ^ 2) + l x + q / 2 x ^ 2`, whose frequency is `sqrt (w (w + q))` and whose lowest point is
`- l ^ 2 / (2 (w + q))`. -/
noncomputable def separableZ {A N : ℕ} (beta : ℝ) (m : Vib A N) (l q : Fin N → ℝ) : ℝ :=
  (NormedSpace.exp (-beta • m.energy)).trace * ∏ i, (Real.exp (beta * (l i ^ 2 / (2 * (m.omega i + q i))))
    * (2 * Real.sinh (beta * Real.sqrt (m.omega i * (m.omega i + q i)) / 2))⁻¹)

end Pibronic.Spec.PIMC
