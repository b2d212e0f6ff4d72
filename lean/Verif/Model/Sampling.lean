import Verif.Model.PIMC
import Mathlib.Probability.Distributions.Gaussian.Real
import Mathlib.MeasureTheory.Constructions.Pi

set_option autoImplicit false

/-!
Model of the random part of `pibronic/pimc/pimc.py`: the probability law of one sampled path.

Simplification: `np.random.choice` and `np.random.normal` are taken to draw from the distributions
they document, independently; the pseudo random generator is not modelled.
-/
namespace Pibronic.PIMC
open MeasureTheory ProbabilityTheory Py

/-- pimc.py:676-683: the eigenvalues and eigenvectors of the circulant matrix; fewer than three beads
are refused. -/
noncomputable def circulantEig (eigh : Eigh) (P : ℕ) :
    Except Err ((Fin P → ℝ) × Matrix (Fin P) (Fin P) ℝ) :=
  if 3 ≤ P then .ok (eigh P (circulant P)) else .error .assertion

/-- The law of one path.  pimc.py:387-391 draws the surface with the normalised weights,
pimc.py:326-334 (with the standard deviations of line 399 and mean zero, line 400) draws independent
normal collective coordinates for every mode and bead, pimc.py:616-634 transforms them with the
eigenvectors of the circulant matrix (lines 677-683) and adds the shift of the drawn surface. -/
noncomputable def sampleLaw {A N : ℕ} (P : ℕ) (eigh : Eigh) (beta : ℝ) (rho : Rho A N) :
    Measure (BeadPath N P) :=
  ∑ a, ENNReal.ofReal (rho.weight beta a) •
    (Measure.pi fun i => Measure.pi fun p => gaussianReal 0
      (Real.toNNReal (stdDev (rho.consts (beta / P)) (eigh P (circulant P)).1 i p ^ 2))).map
      (transform (eigh P (circulant P)).2 rho a)

/-- The ratio `g/rho` of the values stored for a path (stats.py:46 divides the stored arrays); 0 if
the calculation fails. -/
noncomputable def storedRatio {A B N P : ℕ} [NeZero A] [NeZero B] [NeZero P] (eigh : Eigh) (tau : ℝ)
    (vib : Vib A N) (rho : Rho B N) (R : BeadPath N P) : ℝ :=
  match compute eigh tau vib rho R with
  | .ok s => s.g / s.rho
  | .error _ => 0

end Pibronic.PIMC
