import Verif.Spec.PIMC
import Mathlib.Topology.Algebra.InfiniteSum.Defs
import Mathlib.Analysis.Normed.Algebra.MatrixExponential

set_option autoImplicit false

/-! The Hamiltonian of a vibronic model in the basis of oscillator functions, as quantum mechanics defines it. -/
namespace Pibronic.Spec.PIMC
open Pibronic.PIMC Finset

/-- One quantum more in mode `i`. -/
def raise {N : ℕ} (i : Fin N) (n : Fin N → ℕ) : Fin N → ℕ := Function.update n i (n i + 1)

/-- The matrix element of coordinate `i` between two products of oscillator functions: the square root of half the larger
number of quanta, if the two differ by one quantum in mode `i`. -/
noncomputable def position {N : ℕ} (i : Fin N) (m n : Fin N → ℕ) : ℝ :=
  if m = raise i n then Real.sqrt ((n i + 1) / 2) else if n = raise i m then Real.sqrt ((m i + 1) / 2) else 0

/-- The matrix element of the product of coordinates `i` and `j`. -/
noncomputable def positions {N : ℕ} (i j : Fin N) (m n : Fin N → ℕ) : ℝ := ∑' k, position i m k * position j k n

/-- The matrix element of the Hamiltonian `∑ ω (p² + q²) / 2 + E + ∑ q L + ∑ q q Q / 2` between two basis functions, each
with a number of quanta in every mode and an electronic state. -/
noncomputable def hamiltonian {A N : ℕ} (v : Vib A N) (s r : (Fin N → ℕ) × Fin A) : ℝ :=
  (if s = r then ∑ i, v.omega i * (r.1 i + 1 / 2) else 0) + (if s.1 = r.1 then v.energy s.2 r.2 else 0)
    + ∑ i, v.linear i s.2 r.2 * position i s.1 r.1
    + ∑ i, ∑ j, v.quadratic i j s.2 r.2 / 2 * positions i j s.1 r.1

/-- The Hamiltonian in the basis of all functions with fewer than `B` quanta in each mode. -/
noncomputable def truncated {A N : ℕ} (v : Vib A N) (B : ℕ) : Matrix ((Fin N → Fin B) × Fin A) ((Fin N → Fin B) × Fin A) ℝ :=
  Matrix.of fun s r => hamiltonian v (fun i => (s.1 i).1, s.2) (fun i => (r.1 i).1, r.2)

/-- The partition function of the Hamiltonian in this basis: the trace of `exp (-β H)`. -/
noncomputable def truncatedZ {A N : ℕ} (beta : ℝ) (v : Vib A N) (B : ℕ) : ℝ :=
  Matrix.trace (NormedSpace.exp (-(beta • truncated v B)))

end Pibronic.Spec.PIMC
