import Verif.Model.PIMC

set_option autoImplicit false

/-!
Model of the three functions of `pibronic/pimc/pimc.py` that make training data: the integrands `g`
and `rho` without scaling, at sampled or at given coordinates.

These functions let `data.qTensor` hold different coordinates for every surface, so the coordinates of
one sample are a path per surface here.  Simplifications as in `Model/PIMC.lean`: exact real
arithmetic, one sample at a time.
-/
namespace Pibronic.PIMC
open Py Finset

/-- `qTensor[b, :, :, :]` or `qTempTensor[b, :, :, :]`: the coordinates of one sample for every
surface. -/
abbrev Coords (A N P : ℕ) := Fin A → BeadPath N P

/-- pimc.py:613-634: what `transform_sampled_coordinates` leaves behind, one path for all surfaces. -/
def sameForAll {A N P : ℕ} (R : BeadPath N P) : Coords A N P := fun _ => R

/-- pimc.py:602-611 `generate_random_R_values` and pimc.py:1290-1294: the given coordinates minus the
displacement of every surface of the system. -/
noncomputable def shifted {A N P : ℕ} (m : Vib A N) (R : BeadPath N P) : Coords A N P :=
  fun a i p => R i p - m.shift a i

/-- pimc.py:1087-1129 `build_o_matrix`.  The coordinates are shifted by `state_shift` (lines 1091-1096)
and shifted back at the end (lines 1125-1128), so over the reals they are unchanged. -/
noncomputable def buildOT {A N P : ℕ} [NeZero P] (dataStates : ℕ) (c : Consts A N)
    (shift : Fin A → Fin N → ℝ) (q : Coords A N P) :
    Except Err (Fin P → Matrix (Fin A) (Fin A) ℝ) :=
  if A < dataStates then .error .index
  else .ok fun p => Matrix.diagonal fun a =>
    if a.1 < dataStates then oRaw c shift (q a) p a * c.prefactor a else 0

/-- pimc.py:1139-1162: the coupling matrix.  The einsum `'acef, debc, abdf->afbc'` takes one
coordinate from the column surface `c` and one from the row surface `b`; `'dbc, abdf->afbc'` takes it
from the row surface. -/
noncomputable def couplingT {A N P : ℕ} (m : Vib A N) (q : Coords A N P) (p : Fin P) :
    Matrix (Fin A) (Fin A) ℝ := fun b c =>
  (∑ d, ∑ e, q c e p * (0.5 * m.quadratic d e b c) * q b d p) + (∑ d, m.linear d b c * q b d p)
    + m.energy b c

open Classical in
/-- pimc.py:1168-1173 -/
noncomputable def diagonalizeT {A N P : ℕ} (eigh : Eigh) (m : Vib A N) (q : Coords A N P) :
    Except Err (Fin P → (Fin A → ℝ) × Matrix (Fin A) (Fin A) ℝ) :=
  if ∀ p a b, Close ((couplingT m q p).transpose a b) (couplingT m q p a b) then .ok fun p => eigh A (couplingT m q p)
  else .error .assertion

/-- pimc.py:1237-1242, 1328-1333: O matrices of the system, diagonalisation, numerator; no scaling. -/
noncomputable def gUnscaled {A N P : ℕ} [NeZero P] (eigh : Eigh) (tau : ℝ) (vib : Vib A N)
    (q : Coords A N P) : Except Err ℝ := do
  let o ← buildOT A (vib.consts tau) vib.shift q
  let eig ← diagonalizeT eigh vib.folded q
  .ok (numerator (fun p => mMatrix tau (eig p)) o)

/-- pimc.py:1216-1245 `block_compute_gR` for one sample at the path `R`. -/
noncomputable def computeG {A N P : ℕ} [NeZero P] (eigh : Eigh) (tau : ℝ) (vib : Vib A N)
    (R : BeadPath N P) : Except Err ℝ := gUnscaled eigh tau vib (sameForAll R)

/-- pimc.py:1305-1338 `block_compute_gR_from_raw_samples` for one sample: the value saved beside the
coordinates `R`. -/
noncomputable def computeGRaw {A N P : ℕ} [NeZero P] (eigh : Eigh) (tau : ℝ) (vib : Vib A N)
    (R : BeadPath N P) : Except Err ℝ := gUnscaled eigh tau vib (shifted vib R)

/-- pimc.py:1091-1096: the coordinates that `build_o_matrix` uses for a model with `B` surfaces:
`qTensor` if it has as many surfaces as the system, else `qTempTensor`. -/
def selectCoords {A B N P : ℕ} (q : Coords A N P) (temp : Coords B N P) : Coords B N P :=
  if h : B = A then h ▸ q else temp

/-- pimc.py:1273-1302 `block_compute_rhoR_from_input_samples` for one sample: the value stored for the
coordinates `R`.  `temp` is what `qTempTensor` holds: zeros after `preprocess` (lines 646-647), else
what an earlier `transform_sampled_coordinates` left there; this function never writes to it. -/
noncomputable def computeRhoRaw {A B N P : ℕ} [NeZero P] (tau : ℝ) (vib : Vib A N) (rho : Rho B N)
    (temp : Coords B N P) (R : BeadPath N P) : Except Err ℝ := do
  let o ← buildOT A (rho.consts tau) rho.shift (selectCoords (shifted vib R) temp)
  .ok (denominator o)

end Pibronic.PIMC
