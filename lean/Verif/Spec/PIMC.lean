import Verif.Model.PIMC
import Mathlib.Analysis.Normed.Algebra.MatrixExponential

set_option autoImplicit false

/-!
Specification of the path integral quantities: the potential of a vibronic model, its displaced
oscillators, the (unnormalised) oscillator propagator and the integrands `g` and `rho`, written as in
the literature and not as in the code.
-/
namespace Pibronic.Spec.PIMC
open Pibronic.PIMC Finset

/-- The contract of `np.linalg.eigh`: for a symmetric matrix the second component is orthogonal and
diagonalises the matrix with the first component on the diagonal. -/
def EighSpec (eigh : Eigh) : Prop := ∀ n (C : Matrix (Fin n) (Fin n) ℝ), C.IsSymm →
  (eigh n C).2.transpose * (eigh n C).2 = 1 ∧
  C = (eigh n C).2 * Matrix.diagonal (eigh n C).1 * (eigh n C).2.transpose

/-- The potential energy matrix of a vibronic model at the point `x`. -/
noncomputable def potential {A N : ℕ} (m : Vib A N) (x : Fin N → ℝ) : Matrix (Fin A) (Fin A) ℝ :=
  m.energy + (∑ i, m.omega i * x i ^ 2 / 2) • (1 : Matrix (Fin A) (Fin A) ℝ)
    + ∑ i, x i • m.linear i + ∑ i, ∑ j, (x i * x j / 2) • m.quadratic i j

/-- The centre of the oscillator with linear term `l` and frequency `w`. -/
noncomputable def centre (l w : ℝ) : ℝ := -l / w

/-- The lowest point of oscillators with energy `e`, linear terms `l` and frequencies `w`. -/
noncomputable def bottom {N : ℕ} (e : ℝ) (l w : Fin N → ℝ) : ℝ := e - ∑ i, l i ^ 2 / (2 * w i)

/-- The displaced oscillator of surface `a` at the point `x`. -/
noncomputable def oscillator {A N : ℕ} (m : Vib A N) (a : Fin A) (x : Fin N → ℝ) : ℝ :=
  bottom (m.energy a a) (fun i => m.linear i a a) m.omega
    + ∑ i, m.omega i / 2 * (x i - centre (m.linear i a a) (m.omega i)) ^ 2

/-- The oscillator propagator from `x` to `y` in imaginary time `t` (without the factor
`sqrt(1 / 2 pi)`). -/
noncomputable def propagator (t w x y : ℝ) : ℝ :=
  Real.exp (-((x ^ 2 + y ^ 2) * Real.cosh (t * w) - 2 * x * y) / (2 * Real.sinh (t * w)))
    / Real.sqrt (Real.sinh (t * w))

/-- The propagator of displaced oscillators with energy `e`, linear terms `l` and frequencies `w`
from bead `p` to the next bead of the path. -/
noncomputable def step {N P : ℕ} [NeZero P] (t e : ℝ) (l w : Fin N → ℝ) (R : BeadPath N P) (p : Fin P) : ℝ :=
  Real.exp (-t * bottom e l w) *
    ∏ i, propagator t (w i) (R i p - centre (l i) (w i)) (R i (p + 1) - centre (l i) (w i))

/-- The sampling integrand: the sum over the surfaces of the closed product of propagators. -/
noncomputable def rhoExact {A N P : ℕ} [NeZero P] (t : ℝ) (m : Rho A N) (R : BeadPath N P) : ℝ :=
  ∑ a, ∏ p, step t (m.energy a) (fun i => m.linear i a) m.omega R p

/-- The part of the potential at bead `p` that is not in the displaced oscillators. -/
noncomputable def remainder {A N P : ℕ} (m : Vib A N) (R : BeadPath N P) (p : Fin P) :
    Matrix (Fin A) (Fin A) ℝ :=
  potential m (fun i => R i p) - Matrix.diagonal fun a => oscillator m a fun i => R i p

/-- The system integrand: the trace of the ordered product over the beads of the exponential of the
remaining potential (imaginary time `s`) and the propagator of the oscillators (imaginary time
`t`).  The integrand of the Trotter formula has `s = t`. -/
noncomputable def gSplit {A N P : ℕ} [NeZero P] (s t : ℝ) (m : Vib A N) (R : BeadPath N P) : ℝ :=
  Matrix.trace (List.ofFn fun p : Fin P => NormedSpace.exp (-s • remainder m R p) *
    Matrix.diagonal fun a => step t (m.energy a a) (fun i => m.linear i a a) m.omega R p).prod

/-- The system integrand at imaginary time step `t`. -/
noncomputable def gExact {A N P : ℕ} [NeZero P] (t : ℝ) (m : Vib A N) (R : BeadPath N P) : ℝ :=
  gSplit t t m R

/-- The quadratic terms are small against the frequencies: `q i j` bounds the row sums of the matrix that multiplies
`x i * x j / 2`. -/
def SmallQuadratic {A N : ℕ} (s t : ℝ) (m : Vib A N) : Prop :=
  ∃ q : Fin N → Fin N → ℝ, (∀ i j a, ∑ b, |m.quadratic i j a b| ≤ q i j) ∧
    ∀ i, s * ∑ j, (q i j + q j i) / 4 < Real.tanh (t * m.omega i / 2)

end Pibronic.Spec.PIMC
