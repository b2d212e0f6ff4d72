import Verif.Model.Orthonormal

set_option autoImplicit false

/-!
# The directory of sequence files and all its generators

Model of `/repo/pibronic/vibronic/orthonormal/sequences.py`: the files `sequence_<order>.data` and
`sequence_<order>.pairs` beside the module, the generators that write them (also those that prepare
data for plots) and the reader behind the tuned matrices.

Simplifications: as in `Model/Orthonormal`; a file is the list of its rows, a cell is a number or the
word `None` (which `"%s"` writes for `None`); printing is not modelled.
-/

namespace Pibronic.Sequences

open Pibronic.Py Pibronic.Orthonormal

/-- A row of a file: numbers, `none` for the word `None` (sequences.py:353, 380, 407). -/
abbrev Row := List (Option ℝ)

/-- The two kinds of files beside the module, sequences.py:76-77, 101-114 `path_to_x_pair_file` and
`path_to_sequence_file`: the file name is made from the order alone. -/
structure Dir where
  data : ℤ → Option (List Row)
  pairs : ℤ → Option (List (ℝ × ℝ))

/-- sequences.py:127-133 `save_sequence`: fewer than fifty rows are refused, otherwise the file of the
order is replaced. -/
def saveRows (order : ℤ) (rows : List Row) (dir : Dir) : Except Err Unit × Dir :=
  if 50 ≤ rows.length then
    (.ok (), { dir with data := fun o => if o = order then some rows else dir.data o })
  else (.error .assertion, dir)

/-- sequences.py:222: `np.savetxt` of the x pairs. -/
def savePairs (order : ℤ) (pairs : List (ℝ × ℝ)) (dir : Dir) : Dir :=
  { dir with pairs := fun o => if o = order then some pairs else dir.pairs o }

/-- A row of two columns. -/
def twoColumns (r : ℝ × ℝ) : Row := [some r.1, some r.2]

/-- sequences.py:174-192 `find_first_turn_around_point`: the last argument before the distance first
falls, with its distance; `old` is what the loop has seen last. -/
noncomputable def firstTurn (dist : ℝ → ℝ) : Option (ℝ × ℝ) → List ℝ → Except Err (ℝ × ℝ)
  | _, [] => .error .assertion
  | none, x :: xs => firstTurn dist (some (dist x, x)) xs
  | some old, x :: xs =>
    if dist x < old.1 then .ok old else firstTurn dist (some (dist x, x)) xs

/-- sequences.py:195-210 `generate_monotonic_sequence_to_first_turn_around`: the rows up to half the
argument of the first turn. -/
noncomputable def firstRows (dist : ℝ → ℝ) (bins : ℕ) : Except Err (List (ℝ × ℝ)) := do
  let (_, maxX) ← firstTurn dist none (linspace 0 100 bins)
  .ok ((linspace 0 (maxX / 2) bins).map fun x => (dist x, x))

/-- sequences.py:365-369: the list `turning_points`: for every sampled argument the word `None`,
preceded by the distance of the next turning point if that is at this argument. -/
noncomputable def turnColumn : List ℝ → List (Pair ℝ) → List (Option ℝ)
  | [], _ => []
  | _ :: xs, [] => none :: turnColumn xs []
  | x :: xs, p :: ps =>
    if isclose x p.x then some p.y :: none :: turnColumn xs ps
    else none :: turnColumn xs (p :: ps)

/-- sequences.py:374-378: the rows (distance, turning point, argument).  `turning_points[idx]` exists
for every row since the list is at least as long as the samples. -/
noncomputable def turnRows (dist : ℝ → ℝ) (bins : ℕ) : List Row :=
  let xs := linspace 0 100 bins
  let column := turnColumn xs (turningPoints dist xs)
  xs.mapIdx fun i x => [some (dist x), column.getD i none, some x]

/-- numpy's `norm(M, ord=1)`: the largest sum of the sizes of the entries of a column. -/
noncomputable def oneNorm {n : ℕ} (M : Matrix (Fin n) (Fin n) ℝ) : ℝ := ⨆ j, ∑ i, |M i j|

/-- numpy's `norm(M, ord=inf)`: the largest sum of the sizes of the entries of a row. -/
noncomputable def infNorm {n : ℕ} (M : Matrix (Fin n) (Fin n) ℝ) : ℝ := ⨆ i, ∑ j, |M i j|

/-- sequences.py:384-407 `generate_sequences_for_plotting`: the rows (1-norm, Frobenius norm, infinity
norm, argument). -/
noncomputable def normRows (n bins : ℕ) : List Row :=
  (linspace 0 100 bins).map fun x =>
    let diff := NormedSpace.exp (x • sksm n) - 1
    [some (oneNorm diff), some (distance n x), some (infNorm diff), some x]

/-- The generators of the module. -/
inductive Generator
  /-- `generate_full_monotonic_sequence` -/
  | full
  /-- `generate_monotonic_sequence_to_first_turn_around` -/
  | firstTurn
  /-- `generate_full_monotonic_sequence_for_plotting` -/
  | fullForPlotting
  /-- `generate_turning_point_sequence_for_plotting` -/
  | turnsForPlotting
  /-- `generate_sequences_for_plotting` -/
  | normsForPlotting
deriving DecidableEq

/-- The number of samples, sequences.py:81 `n_bins = int(1e4)`. -/
def nBins : ℕ := 10000

/-- The generators, sequences.py:195-210, 258-409, with `bins` samples (the code uses `nBins`).
`generate_full_monotonic_sequence` (258-314) writes the pairs (269) before it looks for the largest
argument, so the pairs are replaced even if the rest fails.  Line 325 of
`generate_full_monotonic_sequence_for_plotting` calls `generate_and_save_x_pairs` without its first
argument, a `TypeError`. -/
noncomputable def run (bins : ℕ) (g : Generator) (order : ℤ) (dir : Dir) : Except Err Unit × Dir :=
  match buildSKSM order with
  | .error e => (.error e, dir)
  | .ok _ =>
    let n := order.toNat
    match g with
    | .full =>
      match xPairs (turningPoints (distance n) (linspace 0 100 bins)) with
      | .error e => (.error e, dir)
      | .ok pairs =>
        let dir := savePairs order pairs dir
        match generate (distance n) n bins with
        | .error e => (.error e, dir)
        | .ok rows => saveRows order (rows.map twoColumns) dir
    | .firstTurn =>
      match firstRows (distance n) bins with
      | .error e => (.error e, dir)
      | .ok rows => saveRows order (rows.map twoColumns) dir
    | .fullForPlotting => (.error .type, dir)
    | .turnsForPlotting => saveRows order (turnRows (distance n) bins) dir
    | .normsForPlotting => saveRows order (normRows n bins) dir

/-- One row as numbers: `np.loadtxt` (sequences.py:123) raises `ValueError` at the word `None`. -/
def numbers : Row → Except Err (List ℝ)
  | [] => .ok []
  | none :: _ => .error .value
  | some x :: rest => do .ok (x :: (← numbers rest))

/-- sequences.py:151-155: of a row only `s[0]` and `s[1]` are used. -/
def firstTwo : List ℝ → Except Err (ℝ × ℝ)
  | a :: b :: _ => .ok (a, b)
  | _ => .error .index

/-- sequences.py:117-124 `load_sequence`: a missing file is an `AssertionError`, a cell which is no
number a `ValueError`. -/
noncomputable def loadRows (dir : Dir) (order : ℤ) : Except Err (List (List ℝ)) :=
  match dir.data order with
  | none => .error .assertion
  | some rows => rows.mapM numbers

open Classical in
/-- create.py:14-37 `create_orthonormal_matrix_lambda_close_to_identity`, reading the file of the
order.  (The rows are cut to their first two columns before the look-up; all generators write at least
two.) -/
noncomputable def create (dir : Dir) (order : ℤ) (t : ℝ) :
    Except Err (Matrix (Fin order.toNat) (Fin order.toNat) ℝ) :=
  if 0 ≤ t ∧ t ≤ 1 then do
    let (S, identity) ← buildSKSM order
    if t = 0 then .ok identity
    else do
      let rows ← loadRows dir order
      let rows ← rows.mapM firstTwo
      let pair ← selectPair rows t
      let mat := NormedSpace.exp (pair.x • S)
      if ∀ a b, isclose ((mat * mat.transpose) a b) ((1 : Matrix _ _ ℝ) a b) then .ok mat else .error .assertion
  else .error .assertion

end Pibronic.Sequences
