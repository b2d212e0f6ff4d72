import Verif.Py.Str
import Mathlib.Analysis.Normed.Algebra.MatrixExponential
import Mathlib.Data.Real.Sqrt
import Mathlib.LinearAlgebra.Matrix.Trace

set_option autoImplicit false

/-!
# Orthonormal matrices tuned by a parameter

Model of `/repo/pibronic/vibronic/orthonormal/create.py` and `sequences.py`: the stored sequences of
(distance, argument) pairs, the look-up of a pair for a tuning parameter, the skew symmetric matrix,
the orthonormal matrix, and the generation of the stored sequences.

Simplifications: floating point numbers are elements of an ordered field (the look-up) or real
numbers (the matrices), so `expm` is the matrix exponential; the stored
text of a sequence file is taken as the list of its rows; files of one row (which `np.loadtxt`
returns as a flat array) do not occur because `save_sequence` refuses fewer than fifty rows.
-/

namespace Pibronic.Orthonormal

open Pibronic.Py

section lookup

variable {K : Type} [Field K] [LinearOrder K]

/-- A pair of sequences.py:86 `Pair`. -/
structure Pair (K : Type) where
  x : K
  y : K
deriving DecidableEq

/-- numpy's `isclose(a, b)` with its default tolerances: `|a - b| <= 1e-8 + 1e-5 * |b|`. -/
def isclose (a b : K) : Prop := |a - b| ≤ 1 / 10 ^ 8 + 1 / 10 ^ 5 * |b|

instance (a b : K) : Decidable (isclose a b) := inferInstanceAs (Decidable (_ ≤ _))

/-- sequences.py:151-155: the body of the loop over the rest of the sequence.  `prev` is
`sequence[idx-1]`, which for the first entry is the last entry of the whole sequence. -/
def selectLoop (desired : K) (prev : K × K) : List (K × K) → Except Err (Pair K)
  | [] => .error .exception
  | s :: rest =>
    if isclose s.1 desired then .ok ⟨s.2, s.1⟩
    else if desired < s.1 then .ok ⟨prev.2, prev.1⟩
    else selectLoop desired s rest

/-- sequences.py:136-157 `select_pair`; the rows of a sequence are (distance, argument). -/
def selectPair (sequence : List (K × K)) (t : K) : Except Err (Pair K) :=
  if 0 ≤ t ∧ t ≤ 1 then
    match sequence.getLast? with
    | none => .error .index
    | some last =>
      let desired := last.1 * t
      if t = 0 then .ok ⟨0, 0⟩
      else if t = 1 then .ok ⟨last.2, last.1⟩
      else selectLoop desired last sequence
  else .error .assertion

end lookup

section matrices

open Matrix NormedSpace

/-- sequences.py:160-171 `build_SKSM_and_identity`, `np.tri(order, k=0).T`: ones on and above the
diagonal. -/
def upperTri (n : ℕ) : Matrix (Fin n) (Fin n) ℝ :=
  Matrix.of fun i j => if i ≤ j then 1 else 0

/-- sequences.py:168: the skew symmetric matrix. -/
def sksm (n : ℕ) : Matrix (Fin n) (Fin n) ℝ := upperTri n - (upperTri n)ᵀ

/-- sequences.py:160-171 `build_SKSM_and_identity`. -/
def buildSKSM (order : ℤ) : Except Err
    (Matrix (Fin order.toNat) (Fin order.toNat) ℝ × Matrix (Fin order.toNat) (Fin order.toNat) ℝ) :=
  if 0 < order then .ok (sksm order.toNat, 1) else .error .assertion

/-- The sequence files beside the module: the rows of `sequence_<order>.data`, `none` when there is
no such file (sequences.py:109-124). -/
abbrev Files := ℤ → Option (List (ℝ × ℝ))

/-- sequences.py:117-124 `load_sequence`. -/
def loadSequence (files : Files) (order : ℤ) : Except Err (List (ℝ × ℝ)) :=
  match files order with
  | none => .error .assertion
  | some s => .ok s

open Classical in
/-- create.py:14-37 `create_orthonormal_matrix_lambda_close_to_identity`. -/
noncomputable def create (files : Files) (order : ℤ) (t : ℝ) :
    Except Err (Matrix (Fin order.toNat) (Fin order.toNat) ℝ) :=
  if 0 ≤ t ∧ t ≤ 1 then do
    let (S, identity) ← buildSKSM order
    if t = 0 then .ok identity
    else do
      let sequence ← loadSequence files order
      let pair ← selectPair sequence t
      let mat := exp (pair.x • S)
      if ∀ a b, isclose ((mat * matᵀ) a b) ((1 : Matrix _ _ ℝ) a b) then .ok mat else .error .assertion
  else .error .assertion

/-- sequences.py:89-91, 207: the Frobenius norm of the difference between the matrix for the
argument `x` and the identity, `frobenius_norm(diff(x))`. -/
noncomputable def distance (n : ℕ) (x : ℝ) : ℝ :=
  Real.sqrt (∑ i, ∑ j, (exp (x • sksm n) - 1) i j ^ 2)

/-- numpy's `linspace(a, b, n)`: `a + i * (b - a) / (n - 1)`. -/
noncomputable def linspace (a b : ℝ) (n : ℕ) : List ℝ :=
  (List.range n).map fun i : ℕ => a + (i : ℝ) * ((b - a) / (n - 1))

end matrices

section generation

open Classical

/-- The state of the loop of `list_of_turning_points`. -/
structure Turn where
  descending : Bool
  previous : ℝ
  oldDistance : ℝ
  oldX : ℝ
  found : List (Pair ℝ)

/-- sequences.py:240-253: one step of the loop of `list_of_turning_points`.  `previous` is only
read once it has been set (`descending` is only true afterwards). -/
noncomputable def turnStep (dist : ℝ → ℝ) (s : Turn) (x : ℝ) : Turn :=
  let d := dist x
  if ¬ s.descending ∧ d < s.oldDistance then
    { descending := true, previous := s.oldDistance, oldDistance := d, oldX := x
      found := s.found ++ [⟨s.oldX, s.oldDistance⟩] }
  else if s.descending ∧ s.previous ≤ d then
    { descending := false, previous := s.previous, oldDistance := d, oldX := x
      found := s.found ++ [⟨x, d⟩] }
  else { s with oldDistance := d, oldX := x }

/-- sequences.py:226-255 `list_of_turning_points` over the sampled arguments `xs`. -/
noncomputable def turningPoints (dist : ℝ → ℝ) (xs : List ℝ) : List (Pair ℝ) :=
  (xs.foldl (turnStep dist) ⟨false, 0, 0, 0, []⟩).found

/-- sequences.py:218-220: the pairs after the first, `(p_list[idx].x, p_list[idx+1].x)` for
`idx = 1, 3, …`; a turning point without a partner is an `IndexError`. -/
def pairUp : List (Pair ℝ) → Except Err (List (ℝ × ℝ))
  | [] => .ok []
  | [_] => .error .index
  | p :: q :: rest => do .ok ((p.x, q.x) :: (← pairUp rest))

/-- sequences.py:213-223 `generate_and_save_x_pairs`. -/
def xPairs (p : List (Pair ℝ)) : Except Err (List (ℝ × ℝ)) :=
  match p with
  | [] => .error .index
  | p :: rest => do .ok ((0, p.x) :: (← pairUp rest))

/-- sequences.py:291-299: the largest argument whose distance is known not to exceed `best`: one
step before the first sampled argument whose distance does. -/
noncomputable def findBest (dist : ℝ → ℝ) (best step : ℝ) : List ℝ → Except Err ℝ
  | [] => .error .exception
  | x :: rest =>
    if best < dist x then
      if dist (x - step) ≤ best then .ok (x - step) else .error .assertion
    else findBest dist best step rest

/-- sequences.py:305-307: the rows whose argument lies in one of the intervals, interval by
interval. -/
noncomputable def prune (pairs : List (ℝ × ℝ)) (full : List (ℝ × ℝ)) : List (ℝ × ℝ) :=
  pairs.flatMap fun I => full.filter fun p => decide (I.1 ≤ p.2 ∧ p.2 ≤ I.2)

/-- sequences.py:127-133, 94-98 `save_sequence` refuses fewer than fifty rows; the rows written. -/
def saveSequence (s : List (ℝ × ℝ)) : Except Err (List (ℝ × ℝ)) :=
  if 50 ≤ s.length then .ok s else .error .assertion

/-- sequences.py:258-314 `generate_full_monotonic_sequence` for `order` ≥ 1: the rows of the file.
The distance function and the number of samples are parameters; the code uses `distance order`
and `n_bins = 10000`, and samples `[0, 100]` for the turning points (sequences.py:81-83). -/
noncomputable def generate (dist : ℝ → ℝ) (order bins : ℕ) : Except Err (List (ℝ × ℝ)) := do
  let p := turningPoints dist (linspace 0 100 bins)
  let pairs ← xPairs p
  let maxX := (p.getLast?.getD ⟨0, 0⟩).x
  let best := 2 * Real.sqrt order / 4
  let bestX ← findBest dist best ((maxX - 0) / (bins - 1)) (linspace 0 maxX bins)
  let full := (linspace 0 bestX bins).map fun x => (dist x, x)
  saveSequence (prune pairs full)

end generation

end Pibronic.Orthonormal
