import Verif.Model.Constants
import Verif.Py.Str
import Verif.Py.Close
import Mathlib.Analysis.SpecialFunctions.Trigonometric.DerivHyp
import Mathlib.Analysis.SpecialFunctions.Pow.Real
import Mathlib.Data.Matrix.Basic
import Mathlib.LinearAlgebra.Matrix.Trace
import Mathlib.LinearAlgebra.Matrix.Symmetric
import Mathlib.Algebra.BigOperators.Fin

set_option autoImplicit false

/-!
Model of the numerical core of `pibronic/pimc/pimc.py`: the precomputed constants, the sampling
distribution and the integrands `g` and `rho` of one sample.

Simplifications: exact real arithmetic (no overflow, no NaN); one sample
at a time (every array operation of the code acts on each sample of a block separately; the block
loop itself is in `Model/Blocks.lean`); `np.linalg.eigh` is a parameter `eigh`, whose contract
(`EighSpec`) appears as a hypothesis of the theorems that need it; the in-place
`x.dot(y, out=x)` of line 1203 is the matrix product (numpy copies overlapping operands).
-/
namespace Pibronic.PIMC
open Py Constants Finset

/-- The arrays of a `ModelVibronic` object after `load_model` (pimc.py:118-166). -/
structure Vib (A N : ℕ) where
  energy : Matrix (Fin A) (Fin A) ℝ
  omega : Fin N → ℝ
  linear : Fin N → Matrix (Fin A) (Fin A) ℝ
  quadratic : Fin N → Fin N → Matrix (Fin A) (Fin A) ℝ

/-- The arrays of a `ModelSampling` object after `load_model` (pimc.py:282-318).  The quadratic terms
of the file are loaded but never used. -/
structure Rho (A N : ℕ) where
  energy : Fin A → ℝ
  omega : Fin N → ℝ
  linear : Fin N → Fin A → ℝ

/-- A path: the coordinate of every mode at every bead (`qTensor[b, a, :, :]`, the same for all
surfaces `a`). -/
abbrev BeadPath (N P : ℕ) := Fin N → Fin P → ℝ

/-! ### precomputation -/

/-- The temperature dependent constants of pimc.py:59-78.  `cothAN`, `cschAN` are broadcast from the
frequencies, so they do not depend on the surface. -/
structure Consts (A N : ℕ) where
  coth : Fin N → ℝ
  csch : Fin N → ℝ
  prefactor : Fin A → ℝ

/-- pimc.py:61-78 `TemperatureDependentClass.__init__`; `energy` is the diagonal of the energies and
`delta` is `delta_weight`. -/
noncomputable def consts {A N : ℕ} (tau : ℝ) (omega : Fin N → ℝ) (energy delta : Fin A → ℝ) :
    Consts A N :=
  let csch := fun i => (Real.sinh (hbar * tau * omega i))⁻¹
  { coth := fun i => (Real.tanh (hbar * tau * omega i))⁻¹
    csch := csch
    prefactor := fun a => Real.exp (-tau * (energy a + delta a)) * (∏ i, csch i) ^ (0.5 : ℝ) }

/-- pimc.py:172-177 `ModelVibronic.compute_linear_displacement`. -/
noncomputable def Vib.delta {A N : ℕ} (m : Vib A N) (a : Fin A) : ℝ :=
  -0.5 * ∑ i, m.linear i a a ^ 2 / m.omega i

/-- pimc.py:211: the surface dependent displacement. -/
noncomputable def Vib.shift {A N : ℕ} (m : Vib A N) (a : Fin A) (i : Fin N) : ℝ :=
  -m.linear i a a / m.omega i

/-- pimc.py:207-217 `finish_folding_in_terms`: the diagonal of the energies and linear terms is set to
zero, the quadratic terms are kept. -/
def Vib.folded {A N : ℕ} (m : Vib A N) : Vib A N :=
  { m with
    energy := fun a b => if a = b then 0 else m.energy a b
    linear := fun i a b => if a = b then 0 else m.linear i a b }

/-- pimc.py:219-235: the constants are made before the energies are set to zero. -/
noncomputable def Vib.consts {A N : ℕ} (m : Vib A N) (tau : ℝ) : Consts A N :=
  PIMC.consts tau m.omega (fun a => m.energy a a) m.delta

/-- pimc.py:336-339 `ModelSampling.compute_linear_displacement`. -/
noncomputable def Rho.delta {A N : ℕ} (m : Rho A N) (a : Fin A) : ℝ :=
  -0.5 * ∑ i, m.linear i a ^ 2 / m.omega i

/-- pimc.py:372-381: the displacement. -/
noncomputable def Rho.shift {A N : ℕ} (m : Rho A N) (a : Fin A) (i : Fin N) : ℝ :=
  -m.linear i a / m.omega i

/-- pimc.py:406-424 -/
noncomputable def Rho.consts {A N : ℕ} (m : Rho A N) (tau : ℝ) : Consts A N :=
  PIMC.consts tau m.omega m.energy m.delta

/-- pimc.py:335-345 `compute_weight_for_each_state` before the normalisation. -/
noncomputable def Rho.rawWeight {A N : ℕ} (m : Rho A N) (beta : ℝ) (a : Fin A) : ℝ :=
  Real.exp (-beta * (m.energy a + m.delta a)) / ∏ i, Real.sinh (beta * m.omega i / 2)

/-- pimc.py:344-345: the normalised weights. -/
noncomputable def Rho.weight {A N : ℕ} (m : Rho A N) (beta : ℝ) (a : Fin A) : ℝ :=
  m.rawWeight beta a / ∑ b, m.rawWeight beta b

/-! ### sampling -/

/-- pimc.py:677-679: `scipy.linalg.circulant([0, 1] + [0]*(P-3) + [1])`: entry `(i, j)` is
`c[(i - j) mod P]`. -/
def circulant (P : ℕ) : Matrix (Fin P) (Fin P) ℝ := fun i j =>
  ([0, 1] ++ List.replicate (P - 3) 0 ++ [1] : List ℝ).getD (i - j).val 0

/-- `np.linalg.eigh`: eigenvalues and the matrix whose columns are eigenvectors, from the lower
triangle. -/
abbrev Eigh := (n : ℕ) → Matrix (Fin n) (Fin n) ℝ → (Fin n → ℝ) × Matrix (Fin n) (Fin n) ℝ

/-- pimc.py:397-398: the inverse covariance of mode `i` in the collective coordinate `p`. -/
noncomputable def invCov {A N P : ℕ} (c : Consts A N) (eigvals : Fin P → ℝ) (i : Fin N) (p : Fin P) :
    ℝ := 2 * c.coth i - c.csch i * eigvals p

/-- pimc.py:399 `standard_deviation`. -/
noncomputable def stdDev {A N P : ℕ} (c : Consts A N) (eigvals : Fin P → ℝ) (i : Fin N) (p : Fin P) :
    ℝ := Real.sqrt (1 / invCov c eigvals i p)

/-- pimc.py:613-634 `transform_sampled_coordinates`: from the collective coordinates `cc` drawn for
the surface `source` to bead coordinates. -/
noncomputable def transform {A N P : ℕ} (eigvects : Matrix (Fin P) (Fin P) ℝ) (rho : Rho A N)
    (source : Fin A) (cc : BeadPath N P) : BeadPath N P :=
  fun i p => (∑ b, eigvects p b * cc i b) + rho.shift source i

/-! ### integrands -/

/-- pimc.py:1106-1111: one diagonal entry of the O matrix of bead `p` before the prefactor;
`q2` is `np.roll(q1, shift=-1)`. -/
noncomputable def oRaw {A N P : ℕ} [NeZero P] (c : Consts A N) (shift : Fin A → Fin N → ℝ)
    (R : BeadPath N P) (p : Fin P) (a : Fin A) : ℝ :=
  Real.exp (-0.5 * ∑ i, (c.coth i * ((R i p - shift a i) ^ 2 + (R i (p + 1) - shift a i) ^ 2)
    - 2 * c.csch i * (R i p - shift a i) * (R i (p + 1) - shift a i)))

/-- pimc.py:1087-1129 `build_o_matrix` for a model with `A` surfaces inside a `BoxData` with
`dataStates` surfaces: the loop of line 1113 runs over the surfaces of the BoxData, so a model with
fewer surfaces raises `IndexError` and of a model with more only the first ones are filled in. -/
noncomputable def buildO {A N P : ℕ} [NeZero P] (dataStates : ℕ) (c : Consts A N)
    (shift : Fin A → Fin N → ℝ) (R : BeadPath N P) :
    Except Err (Fin P → Matrix (Fin A) (Fin A) ℝ) :=
  if A < dataStates then .error .index
  else .ok fun p => Matrix.diagonal fun a =>
    if a.1 < dataStates then oRaw c shift R p a * c.prefactor a else 0

/-- `np.amax(omatrix, axis=(2, 3))` of one bead (pimc.py:1079-1080). -/
noncomputable def amax {A : ℕ} [NeZero A] (o : Matrix (Fin A) (Fin A) ℝ) : ℝ :=
  univ.sup' (univ_nonempty (α := Fin A × Fin A)) fun ab => o ab.1 ab.2

/-- pimc.py:1076-1084 `build_scaling_factors`. -/
noncomputable def scaling {A B P : ℕ} [NeZero A] [NeZero B] (o₁ : Fin P → Matrix (Fin A) (Fin A) ℝ)
    (o₂ : Fin P → Matrix (Fin B) (Fin B) ℝ) (p : Fin P) : ℝ :=
  max (amax (o₁ p)) (amax (o₂ p))

/-- pimc.py:1062-1066 `scale_o_matrices` for one model (also lines 1438, 1443). -/
noncomputable def scaleO {A P : ℕ} (s : Fin P → ℝ) (o : Fin P → Matrix (Fin A) (Fin A) ℝ) :
    Fin P → Matrix (Fin A) (Fin A) ℝ := fun p a b => o p a b / s p

/-- pimc.py:1069-1073 `un_scale_o_matrices` for one model. -/
noncomputable def unscaleO {A P : ℕ} (s : Fin P → ℝ) (o : Fin P → Matrix (Fin A) (Fin A) ℝ) :
    Fin P → Matrix (Fin A) (Fin A) ℝ := fun p a b => o p a b * s p

/-- pimc.py:1132-1136 `build_denominator`: elementwise product over the beads, then the trace. -/
noncomputable def denominator {A P : ℕ} (o : Fin P → Matrix (Fin A) (Fin A) ℝ) : ℝ :=
  Matrix.trace fun a b => ∏ p, o p a b

/-- pimc.py:1139-1162: the coupling matrix of bead `p` (of the folded model).  The einsum
`'acef, debc, abdf->afbc'`. -/
noncomputable def coupling {A N P : ℕ} (m : Vib A N) (R : BeadPath N P) (p : Fin P) :
    Matrix (Fin A) (Fin A) ℝ := fun b c =>
  (∑ d, ∑ e, R e p * (0.5 * m.quadratic d e b c) * R d p) + (∑ d, m.linear d b c * R d p)
    + m.energy b c

/-- pimc.py:1180-1188: the M matrix of one bead, `'abcd, abd, abed->abce'`. -/
noncomputable def mMatrix {A : ℕ} (tau : ℝ) (eig : (Fin A → ℝ) × Matrix (Fin A) (Fin A) ℝ) :
    Matrix (Fin A) (Fin A) ℝ := fun c e =>
  ∑ d, eig.2 c d * Real.exp (-tau * eig.1 d) * eig.2 e d

/-- pimc.py:1195-1208: the trace of the ordered product over the beads, starting from the
identity. -/
noncomputable def numerator {A P : ℕ} (m o : Fin P → Matrix (Fin A) (Fin A) ℝ) : ℝ :=
  Matrix.trace ((List.finRange P).foldl (fun acc p => acc * m p * o p) 1)

open Classical in
/-- pimc.py:1168-1173: the symmetry assertion and the diagonalisation of every bead. -/
noncomputable def diagonalize {A N P : ℕ} (eigh : Eigh) (m : Vib A N) (R : BeadPath N P) :
    Except Err (Fin P → (Fin A → ℝ) × Matrix (Fin A) (Fin A) ℝ) :=
  if ∀ p a b, Close ((coupling m R p).transpose a b) (coupling m R p a b) then .ok fun p => eigh A (coupling m R p)
  else .error .assertion

/-- What is stored for one sample. -/
structure Sample where
  rho : ℝ
  g : ℝ

/-- pimc.py:1341-1385 `block_compute` for one sample at the path `R`. -/
noncomputable def compute {A B N P : ℕ} [NeZero A] [NeZero B] [NeZero P] (eigh : Eigh) (tau : ℝ)
    (vib : Vib A N) (rho : Rho B N) (R : BeadPath N P) : Except Err Sample := do
  let oRho ← buildO A (rho.consts tau) rho.shift R
  let oVib ← buildO A (vib.consts tau) vib.shift R
  let s := scaling oRho oVib
  let eig ← diagonalize eigh vib.folded R
  .ok { rho := denominator (scaleO s oRho)
        g := numerator (fun p => mMatrix tau (eig p)) (scaleO s oVib) }

/-- What is stored for one sample of the plus/minus calculation. -/
structure SamplePM where
  rho : ℝ
  g : ℝ
  gPlus : ℝ
  gMinus : ℝ

/-- pimc.py:1388-1462 `block_compute_pm` for one sample.  The three numerators share the
diagonalisation and `data.tau` in the M matrix (line 1182); only the O matrices are made with
`tau_plus`, `tau_minus` (lines 259-266). -/
noncomputable def computePM {A B N P : ℕ} [NeZero A] [NeZero B] [NeZero P] (eigh : Eigh)
    (beta deltaBeta : ℝ) (vib : Vib A N) (rho : Rho B N) (R : BeadPath N P) : Except Err SamplePM := do
  let tau := beta / P
  let oRho ← buildO A (rho.consts tau) rho.shift R
  let oVib ← buildO A (vib.consts tau) vib.shift R
  let s := scaling oRho oVib
  let eig ← diagonalize eigh vib.folded R
  let oPlus ← buildO A (vib.consts ((beta + deltaBeta) / P)) vib.shift R
  let oMinus ← buildO A (vib.consts ((beta - deltaBeta) / P)) vib.shift R
  .ok { rho := denominator (scaleO s oRho)
        g := numerator (fun p => mMatrix tau (eig p)) (scaleO s oVib)
        gPlus := numerator (fun p => mMatrix tau (eig p)) (scaleO s oPlus)
        gMinus := numerator (fun p => mMatrix tau (eig p)) (scaleO s oMinus) }

end Pibronic.PIMC
