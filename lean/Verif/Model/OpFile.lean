import Verif.Model.ModelIO
import Verif.Model.Molecule

set_option autoImplicit false

/-!
Model of `pibronic/vibronic/model_op.py`: reading a model from an operator file of MCTDH, and of
`create_coupling_from_op_file` in `vibronic_model_io.py`.

Simplifications: the bytes of a file are a list of characters (the files are ASCII) and only `"\n"`
ends a line; numbers are exact elements of a field, `num` is `float` on texts;
`parse.compile` only accepts plain decimal numbers and the exact letters of the pattern
(the library also accepts signs, other bases and other capitalisation); numpy 1.13 or later, where
`x += y` with overlapping arrays reads all of `y` before it writes.
-/
namespace Pibronic.OpFile
open Py Buffer Workflow Molecule ModelIO

variable {K : Type}

/-! ### The text of a file -/

/-- helper.py:22-25 `readlines`: the text that remains after reading `n` lines. -/
def dropLines : Nat → Str → Str
  | 0, s => s
  | n + 1, s => dropLines n ((s.dropWhile (· ≠ '\n')).drop 1)

/-- model_op.py:23-37 and the same lines of the other functions: the text from the header `b`, without
`skip` lines, up to the header `e`.  Both headers are searched from the start of the file;
`mmap.read` of a negative number of bytes reads the rest of the file. -/
def region (buf b e : Str) (skip : Nat) : Except Err Str := do
  let i ← findString buf b
  let j ← findString buf e
  let rest := dropLines skip (buf.drop i)
  let t := buf.length - rest.length
  .ok (if t ≤ j then rest.take (j - t) else rest)

/-- `[line for line in text.splitlines() if "#" not in line and line is not ""]`; CPython has a single
empty text, so `is not ""` is `!= ""`. -/
def dataLines (text : Str) : List Str :=
  (splitlines text).filter fun l => !l.contains '#' && decide (l ≠ [])

/-- `f"{n:02}"` -/
def pad2 (n : Nat) : Str := if n < 10 then '0' :: natStr n else natStr n

/-- `array[...] = text`: numpy converts the text to a number. -/
def toNum (num : Str → Option K) (s : Str) : Except Err K :=
  match num s with
  | none => .error .value
  | some x => .ok x

/-- model_op.py:49-52, 86-89: one line with an energy or a frequency. -/
def valueLine (num : Str → Option K) (label line : Str) : Except Err K := do
  let w0 ← item (splitWs line) 0
  if w0 ≠ label then .error .assertion
  else match (splitWs line).getLast? with
    | none => .error .index
    | some l =>
      if l ≠ c!"ev" then .error .assertion
      else do
        let v ← item (splitWs line) 2
        toNum num v

/-- The lines of a section of energies or frequencies, `label a` is the expected name in line `a`. -/
def values (num : Str → Option K) (label : Nat → Str) (text : Str) : Except Err (List K) :=
  (dataLines (strip text)).zipIdx.mapM fun p => valueLine num (label p.2) p.1

/-- model_op.py:20-54 `extract_energies`: the diagonal of the matrix. -/
def energies (num : Str → Option K) (buf : Str) : Except Err (List K) := do
  let text ← region buf c!"Electronic Hamitonian" c!"Electronic transition moments" 3
  values num (fun a => c!"EH_s" ++ pad2 (a + 1) ++ c!"_s" ++ pad2 (a + 1)) text

/-- model_op.py:57-91 `extract_normal_mode_frequencies` -/
def frequencies (num : Str → Option K) (buf : Str) : Except Err (List K) := do
  let text ← region buf c!"Frequencies" c!"Zeropoint energy" 2
  values num (fun j => c!"w" ++ pad2 (j + 1)) text

/-- `s.replace(sub, "")`; `k` characters are still to be dropped. -/
def removeGo (sub : Str) : Str → Nat → Str
  | [], _ => []
  | _ :: s, k + 1 => removeGo sub s k
  | c :: s, 0 => if startsWith sub (c :: s) then removeGo sub s (sub.length - 1) else c :: removeGo sub s 0

/-- `stringData.strip().replace('=', '').replace(', ev', '')` and the words of the lines,
model_op.py:112-113. -/
def couplingLines (text : Str) : List (List Str) :=
  (dataLines (removeGo c!", ev" (removeGo c!"=" (strip text) 0) 0)).map splitWs

/-- `parse.compile(pattern).parse(word)`: the numbers that follow the given pieces of the pattern. -/
def labels : List Str → Str → Option (List Nat)
  | [], s => if s = [] then some [] else none
  | p :: ps, s =>
    match dropPrefix p s with
    | none => none
    | some r =>
      let ds := r.takeWhile fun c => (digitVal c).isSome
      if ds = [] then none
      else match digitsVal 0 ds, labels ps (r.dropWhile fun c => (digitVal c).isSome) with
        | some n, some ns => some (n :: ns)
        | _, _ => none

/-- The entry of an axis of length `n` that the label `l` refers to: `l - 1`, where `-1` is the last
one. -/
def axis (n l : Nat) : Except Err Nat :=
  if l = 0 then (if n = 0 then .error .index else .ok (n - 1))
  else if l ≤ n then .ok (l - 1) else .error .index

/-- An array of couplings: modes, surface, surface. -/
abbrev Arr (K : Type) := List Nat → Nat → Nat → K

/-- `array[idx + (a, b)] = x` -/
def Arr.set (g : Arr K) (idx : List Nat) (a b : Nat) (x : K) : Arr K :=
  fun i c d => if i = idx ∧ c = a ∧ d = b then x else g i c d

/-- model_op.py:117-120: one line of a section of couplings.  `pieces` is the pattern, `expand` turns
the mode labels into mode indices (labels). -/
def assign (num : Str → Option K) (N A : Nat) (pieces : List Str) (expand : List Nat → List Nat)
    (g : Arr K) (words : List Str) : Except Err (Arr K) := do
  let w0 ← item words 0
  match labels pieces w0 with
  | some (a1 :: a2 :: js) =>
    let v ← item words 1
    let idx ← (expand js).mapM (axis N)
    let a ← axis A a1
    let b ← axis A a2
    let x ← toNum num v
    .ok (g.set idx a b x)
  | _ => .error .type

/-- model_op.py:112-120 the lines of a section of couplings whose name begins with `pre`. -/
def assignAll (num : Str → Option K) (N A : Nat) (pre : Str) (pieces : List Str)
    (expand : List Nat → List Nat) (lines : List (List Str)) (g : Arr K) : Except Err (Arr K) :=
  lines.foldlM (fun g words => do
    let w0 ← item words 0
    if startsWith pre w0 then assign num N A pieces expand g words else .ok g) g

/-- model_op.py:94-122 `extract_linear_couplings` -/
def linear (num : Str → Option K) (N A : Nat) (buf : Str) (g : Arr K) : Except Err (Arr K) := do
  let text ← region buf c!"Linear Coupling Constants" c!"Diagonal Quadratic Coupling Constants" 2
  assignAll num N A [] [c!"C1_s", c!"_s", c!"_v"] id (couplingLines text) g

/-- model_op.py:125-157, 160-192, ...: a section that is left out when a header is missing. -/
def optional (num : Str → Option K) (N A : Nat) (buf b e : Str) (pieces : List Str)
    (expand : List Nat → List Nat) (g : Arr K) : Except Err (Arr K) :=
  match region buf b e 2 with
  | .error _ => .ok g
  | .ok text => assignAll num N A [] pieces expand (couplingLines text) g

/-- model_op.py:125-157 `extract_quadratic_couplings` -/
def quadratic (num : Str → Option K) (N A : Nat) (buf : Str) (g : Arr K) : Except Err (Arr K) :=
  optional num N A buf c!"Diagonal Quadratic Coupling Constants" c!"Cubic Coupling Constants"
    [c!"C2_s", c!"s", c!"_v", c!"v"] id g

/-- model_op.py:160-192 `extract_cubic_couplings` -/
def cubic (num : Str → Option K) (N A : Nat) (buf : Str) (g : Arr K) : Except Err (Arr K) :=
  optional num N A buf c!"Cubic Coupling Constants" c!"Quartic Coupling Constants"
    [c!"C3_s", c!"_s", c!"_v"] (fun js => js.flatMap fun j => [j, j, j]) g

/-- `(j1, j2, j2)`, model_op.py:225 -/
def expandB3 : List Nat → List Nat
  | [i, j] => [i, j, j]
  | l => l
/-- `(j1, j2, j2, j2)`, model_op.py:301 -/
def expandB4 : List Nat → List Nat
  | [i, j] => [i, j, j, j]
  | l => l
/-- `(j1, j1, j2, j2)`, model_op.py:306 -/
def expandA4 : List Nat → List Nat
  | [i, j] => [i, i, j, j]
  | l => l

/-- model_op.py:195-228 `extract_bicubic_couplings` -/
def bicubic (num : Str → Option K) (N A : Nat) (buf : Str) (g : Arr K) : Except Err (Arr K) :=
  optional num N A buf c!"Bi-Cubic Constants" c!"Bi-Quartic Constants"
    [c!"B3_s", c!"s", c!"_v", c!"v"] expandB3 g

/-- model_op.py:231-265 `extract_quartic_couplings` -/
def quartic (num : Str → Option K) (N A : Nat) (buf : Str) (g : Arr K) : Except Err (Arr K) :=
  optional num N A buf c!"Quartic Coupling Constants" c!"Bi-Cubic Constants"
    [c!"C4_s", c!"_s", c!"_v"] (fun js => js.flatMap fun j => [j, j, j, j]) g

/-- model_op.py:268-309 `extract_biquartic_couplings`: first the lines that begin with `B4`, then those
that begin with `A4`. -/
def biquartic (num : Str → Option K) (N A : Nat) (buf : Str) (g : Arr K) : Except Err (Arr K) :=
  match region buf c!"Bi-Quartic Constants" c!"end-parameter-section" 2 with
  | .error _ => .ok g
  | .ok text => do
    let g ← assignAll num N A c!"B4" [c!"B4_s", c!"s", c!"_v", c!"v"] expandB4 (couplingLines text) g
    assignAll num N A c!"A4" [c!"A4_s", c!"s", c!"_v", c!"v"] expandA4 (couplingLines text) g

/-! ### The arrays -/

variable [Field K]

/-- `np.tril(x, k=-1).T` for an array with two or more mode axes: `tril` keeps the entries whose last
index is below the last but one, `.T` reverses all axes. -/
def mirror (x : List Nat → K) : List Nat → K
  | i :: j :: is => if i < j then x (i :: j :: is).reverse else 0
  | _ => 0

/-- Replace the block of the surfaces `(a, b)`. -/
def Arr.setBlock (g : Arr K) (a b : Nat) (x : List Nat → K) : Arr K :=
  fun i c d => if c = a ∧ d = b then x i else g i c d

/-- model_op.py:378-384 the two updates of one array for a pair of surfaces. -/
def symStep (g : Arr K) (p : Nat × Nat) : Arr K :=
  let g := g.setBlock p.1 p.2 fun i => g i p.1 p.2 + mirror (fun i => g i p.1 p.2) i
  g.setBlock p.1 p.2 fun i => g i p.1 p.2 + g i p.2 p.1

/-- `it.product(States, States)` -/
def pairs (A : Nat) : List (Nat × Nat) :=
  (List.range A).flatMap fun a => (List.range A).map fun b => (a, b)

/-- `array[..., a, b] /= 2.` -/
def halve (a b : Nat) (g : Arr K) : Arr K := g.setBlock a b fun i => g i a b / 2

/-- model_op.py:374, 388: the linear couplings. -/
def fixLinear (A : Nat) (g : Arr K) : Arr K :=
  (List.range A).foldl (fun g a => halve a a g) fun i a b => g i a b + g i b a

/-- model_op.py:377-391: the couplings of higher order.  In the second loop the name `b` still has its
last value of the first loop, `A - 1`. -/
def fixHigher (A : Nat) (g : Arr K) : Arr K :=
  (List.range A).foldl (fun g a => halve a (A - 1) g) ((pairs A).foldl symStep g)

/-- All tuples of `r` modes. -/
def modeTuples (N : Nat) : Nat → List (List Nat)
  | 0 => [[]]
  | r + 1 => (List.range N).flatMap fun i => (modeTuples N r).map fun is => i :: is

/-- model_op.py:393-398 the check of the symmetry in the surfaces. -/
def SurfacesOk [AllClose K] (N A r : Nat) (g : Arr K) : Prop :=
  ∀ i ∈ modeTuples N r, ∀ a ∈ List.range A, ∀ b ∈ List.range A, Close (g i a b) (g i b a)

/-- model_op.py:400-405 the check of the symmetry in the modes, `swap` exchanges two axes. -/
def ModesOk [AllClose K] (N A r : Nat) (swap : List Nat → List Nat) (g : Arr K) : Prop :=
  ∀ i ∈ modeTuples N r, ∀ a ∈ List.range A, ∀ b ∈ List.range A, Close (g i a b) (g (swap i) a b)

/-- `transpose(1, 0, 2, 3)` -/
def swap2 : List Nat → List Nat
  | [i, j] => [j, i]
  | l => l
/-- `transpose(0, 2, 1, 3, 4)` -/
def swap3 : List Nat → List Nat
  | [i, j, k] => [i, k, j]
  | l => l
/-- `transpose(0, 1, 3, 2, 4, 5)` -/
def swap4 : List Nat → List Nat
  | [i, j, k, l] => [i, j, l, k]
  | l => l

/-- An array from its entries. -/
def ofIndex : (s : List Nat) → (List Nat → K) → Tensor K s
  | [], f => f []
  | _ :: s, f => fun i => ofIndex s fun is => f (i.1 :: is)

/-- An array of couplings with `r` mode axes as a function of the whole index. -/
def Arr.flat (r : Nat) (g : Arr K) : List Nat → K :=
  fun l => g (l.take r) (l.getD r 0) (l.getD (r + 1) 0)

/-- The arrays of a file after everything was read, before the checks. -/
structure Arrays (K : Type) where
  w : List K
  E : List K
  g1 : Arr K
  g2 : Arr K
  g3 : Arr K
  g4 : Arr K

variable [DecidableEq K]

/-- One array of the dictionary (model_op.py:408-416). -/
def Arrays.array (r : Arrays K) : Key → List Nat → K
  | .w => fun l => r.w.getD (l.getD 0 0) 0
  | .E => fun l => if l.getD 0 0 = l.getD 1 0 then r.E.getD (l.getD 0 0) 0 else 0
  | .G1 => r.g1.flat 1
  | .G2 => r.g2.flat 2
  | .G3 => r.g3.flat 3
  | .G4 => r.g4.flat 4

/-- model_op.py:418-419 a value is left out when all its entries are zero (also the numbers of modes and
of surfaces). -/
def keepNonzero (s : List Nat) (f : List Nat → K) : Option (NDArray K) :=
  if Tensor.nonzero s (ofIndex s f) then some ⟨s, ofIndex s f⟩ else none

/-- model_op.py:408-421: the dictionary that is returned. -/
def Arrays.toDict (r : Arrays K) : ModelIO.Dict K :=
  let N := r.w.length
  let A := r.E.length
  { N := if N = 0 then none else some N
    A := if A = 0 then none else some A
    arr := fun k => keepNonzero (shape .coupled A N k) (r.array k) }

open Classical in
/-- model_op.py:370-421: the arrays are completed and checked.  (The energies are a diagonal matrix, their
check always succeeds.) -/
noncomputable def finish [AllClose K] (r : Arrays K) : Except Err (ModelIO.Dict K) :=
  let N := r.w.length
  let A := r.E.length
  let g1 := fixLinear A r.g1
  let g2 := fixHigher A r.g2
  let g3 := fixHigher A r.g3
  let g4 := fixHigher A r.g4
  if SurfacesOk N A 1 g1 ∧ SurfacesOk N A 2 g2 ∧ SurfacesOk N A 3 g3 ∧ SurfacesOk N A 4 g4 ∧
      ModesOk N A 2 swap2 g2 ∧ ModesOk N A 3 swap3 g3 ∧ ModesOk N A 4 swap4 g4 then
    .ok (Arrays.toDict { r with g1 := g1, g2 := g2, g3 := g3, g4 := g4 })
  else .error .assertion

/-- model_op.py:337-368: everything that is read from the file. -/
def readArrays (num : Str → Option K) (buf : Str) : Except Err (Arrays K) := do
  let w ← frequencies num buf
  let E ← energies num buf
  let N := w.length
  let A := E.length
  let zero : Arr K := fun _ _ _ => 0
  let g1 ← linear num N A buf zero
  let g2 ← quadratic num N A buf zero
  let g3 ← cubic num N A buf zero
  let g4 ← quartic num N A buf zero
  let g3 ← bicubic num N A buf g3
  let g4 ← biquartic num N A buf g4
  .ok ⟨w, E, g1, g2, g3, g4⟩

/-- model_op.py:312-421 `read_model_op_file`: `file` is the contents, `none` when there is no such
file; an empty file cannot be mapped. -/
noncomputable def readOp [AllClose K] (num : Str → Option K) (file : Option Str) : Except Err (ModelIO.Dict K) :=
  match file with
  | none => .error .os
  | some [] => .error .value
  | some buf => do
    let r ← readArrays num buf
    finish r

/-- vibronic_model_io.py:437-444 `create_coupling_from_op_file` -/
noncomputable def createCoupling [AllClose K] (num : Str → Option K) (file : Option Str) (path : Str)
    (disk : ModelIO.Disk K) : Except Err Unit × ModelIO.Disk K :=
  match readOp num file with
  | .error e => (.error e, disk)
  | .ok d => ModelIO.save .coupled path d disk

end Pibronic.OpFile
