import Verif.Model.FileStructure
import Mathlib.Data.List.Dedup

set_option autoImplicit false

/-!
Model of the result objects of `pibronic/pimc/pimc.py` (`BoxResult`, `BoxResultPM`) and of the block
loops `block_compute` and `block_compute_pm`.

Simplifications: a stored number is `some v`, `np.nan` is `none`; `np.savez`/`np.load` store and
return the arrays unchanged (mangled files that `np.load` cannot read are not modelled: reading them
raises); only the first axis of the arrays (the samples) is modelled; what is computed for a block
is an arbitrary function of the block index and of the position inside the block.
-/
namespace Pibronic.Results
open Py FileName FileStructure

/-- A one-dimensional float array; `none` is NaN. -/
abbrev Arr (V : Type) := List (Option V)

/-- numpy's `dst[start : start + len] = src` for one-dimensional arrays: the slice is clipped to the
array, an array of one element is broadcast, any other length mismatch is a `ValueError`. -/
def assignSlice {α : Type} (dst : List α) (start len : Nat) (src : List α) :
    Except Err (List α) :=
  let lo := min start dst.length
  let hi := min (start + len) dst.length
  if src.length = hi - lo then .ok (dst.take lo ++ src ++ dst.drop hi)
  else match src with
    | [x] => .ok (dst.take lo ++ List.replicate (hi - lo) x ++ dst.drop hi)
    | _ => .error .broadcast

/-- An `.npz` result file: the entries the code reads or writes, each possibly absent. -/
structure ResultFile (V : Type) where
  hashVib : Option Str
  hashRho : Option Str
  /-- `number_of_samples` -/
  number : Option Nat
  /-- `s_rho` -/
  rho : Option (Arr V)
  /-- `s_g` -/
  g : Option (Arr V)
  /-- `s_gP` -/
  gP : Option (Arr V)
  /-- `s_gM` -/
  gM : Option (Arr V)

/-- Which class a result object belongs to. -/
inductive Cls where
  | plain  -- `BoxResult`
  | pm     -- `BoxResultPM`
  deriving DecidableEq, Repr

/-- A count is a Python `int` or a numpy integer/0-d array; `is 0` is true only for the `int` 0. -/
inductive Count where
  | int (n : Nat)
  | np (n : Nat)
  deriving DecidableEq, Repr

/-- the numeric value of a count -/
def Count.val : Count → Nat
  | .int n => n
  | .np n => n

/-- `count is 0` -/
def Count.isZeroLit : Count → Bool
  | .int 0 => true
  | _ => false

/-- pimc.py:741-798, 915-946: the attributes of a result object.  `partialName` is
`some (P, T)` when the object was built from a `BoxData`.  The two last arrays exist only for
`BoxResultPM` (for `BoxResult` the model leaves them empty). -/
structure Box (V : Type) where
  cls : Cls
  samples : Count
  partialName : Option (Nat × Nat)
  idJob : Option Nat
  pathRoot : Option Str
  hashVib : Option Str
  hashRho : Option Str
  scaledG : Arr V
  scaledRho : Arr V
  gofrPlus : Arr V
  gofrMinus : Arr V

variable {V : Type}

/-- pimc.py:772-775, 937-941 `initialize_arrays`. -/
def initializeArrays (b : Box V) : Box V :=
  let nan := List.replicate b.samples.val none
  { b with
    scaledG := nan, scaledRho := nan
    gofrPlus := if b.cls = .pm then nan else b.gofrPlus
    gofrMinus := if b.cls = .pm then nan else b.gofrMinus }

/-- What `__init__` reads from a `BoxData` (pimc.py:779-783). -/
structure DataInfo where
  beads : Nat
  /-- in hundredths of a kelvin -/
  temperature : Nat
  samples : Nat
  hashVib : Option Str
  hashRho : Option Str

/-- pimc.py:777-798 `__init__` with `data`, with `X`, or with neither. -/
def init (cls : Cls) (data : Option DataInfo) (X : Option Nat) : Box V :=
  let blank : Box V := ⟨cls, .int 0, none, none, none, none, none, [], [], [], []⟩
  initializeArrays <|
    match data, X with
    | some d, _ => { blank with
        samples := .int d.samples, partialName := some (d.beads, d.temperature)
        hashVib := d.hashVib, hashRho := d.hashRho }
    | none, some x => { blank with samples := .int x }
    | none, none => blank

/-- pimc.py:800-817 `compute_path_to_file`. Attributes that were never set raise
`AttributeError`. -/
def computePathToFile (b : Box V) : Except Err Str :=
  if b.samples.isZeroLit then .error .assertion
  else match b.partialName with
    | none => .error .attribute
    | some (P, T) =>
      let name := pimc (natStr P) (tempStr T) (natStr (b.idJob.getD 0))
      match b.pathRoot with
      | none => .error .attribute
      | some root => .ok (join root name)

/-- The disk: what each path holds. -/
abbrev Disk (V : Type) := Str → Option (ResultFile V)

/-- Replace the contents of one path. -/
def Disk.write (d : Disk V) (p : Str) (f : ResultFile V) : Disk V :=
  fun q => if q = p then some f else d q

/-- pimc.py:819-834, 948-966 `save_results` (its argument is not used). -/
def saveResults (d : Disk V) (b : Box V) : Except Err (Disk V) := do
  let path ← computePathToFile b
  match b.hashVib, b.hashRho with
  | some hv, some hr =>
    .ok (d.write path
      ⟨some hv, some hr, some b.samples.val, some b.scaledRho, some b.scaledG,
        if b.cls = .pm then some b.gofrPlus else none,
        if b.cls = .pm then some b.gofrMinus else none⟩)
  | _, _ => .error .assertion

/-- pimc.py:749, 757-770, 918-935: are all keys of the class's `key_list` present? -/
def keysPresent (cls : Cls) (f : ResultFile V) : Bool :=
  f.number.isSome && f.rho.isSome && f.g.isSome &&
    (cls == .plain || (f.gP.isSome && f.gM.isSome))

/-- pimc.py:836-851, 968-973 `load_results`.  `data["number_of_samples"]` is a new array object, so
`is not self.samples` is always true. -/
def loadResults (d : Disk V) (b : Box V) (path : Str) : Except Err (Box V) :=
  match d path with
  | none => .error .os
  | some f =>
    if keysPresent b.cls f = false then .error .assertion
    else if b.samples.isZeroLit then
      let b1 := initializeArrays { b with samples := .np (f.number.getD 0) }
      let b2 := { b1 with scaledG := f.g.getD [], scaledRho := f.rho.getD [] }
      .ok (if b.cls = .pm then { b2 with gofrPlus := f.gP.getD [], gofrMinus := f.gM.getD [] }
           else b2)
    else .error .assertion

/-- `np.any(arr == 0.0)` -/
def anyZero [Zero V] [DecidableEq V] (a : Arr V) : Bool := a.any fun x => x == some 0

/-- pimc.py:901-912, 1029-1040: the loop that copies the samples of the files. -/
def copyLoop [Zero V] [DecidableEq V] (d : Disk V) (desired : Nat) :
    List Str → Nat → Box V → Except Err (Box V)
  | [], _, b => .ok b
  | path :: rest, start, b =>
    if start ≥ desired then .ok b
    else match d path with
      | none => .error .os
      | some f =>
        let length := min (f.number.getD 0) desired
        let rho := (f.rho.getD []).take length
        if anyZero rho then .error .assertion
        else do
          let g ← assignSlice b.scaledG start length ((f.g.getD []).take length)
          let r ← assignSlice b.scaledRho start length rho
          let b := { b with scaledG := g, scaledRho := r }
          let b ← (if b.cls = .pm then do
              let p ← assignSlice b.gofrPlus start length ((f.gP.getD []).take length)
              let m ← assignSlice b.gofrMinus start length ((f.gM.getD []).take length)
              .ok { b with gofrPlus := p, gofrMinus := m }
            else .ok b)
          copyLoop d desired rest (start + length) b

/-- pimc.py:862-879, 986-1005: the first pass; the total of the sample numbers and the paths of the
unusable files. -/
def scanLoop (d : Disk V) (cls : Cls) : List Str → Except Err (Nat × List Str)
  | [] => .ok (0, [])
  | path :: rest =>
    match d path with
    | none => .error .os
    | some f => do
      let (n, bad) ← scanLoop d cls rest
      if keysPresent cls f then .ok (f.number.getD 0 + n, bad) else .ok (n, path :: bad)

/-- pimc.py:853-912, 975-1040 `load_multiple_results`.  The iteration order of a `set` is not
specified by Python: `setOrder` is applied to the list of the distinct remaining paths. -/
def loadMultiple [Zero V] [DecidableEq V] (setOrder : List Str → List Str) (d : Disk V) (b : Box V)
    (paths : List Str) (desired : Option Nat) : Except Err (Box V) := do
  if paths.length = 0 then .error .assertion
  else
    let (n, bad) ← scanLoop d b.cls paths
    let good := setOrder (paths.dedup.filter fun p => p ∉ bad)
    if good.length = 0 then .error .assertion
    else
      -- `number_of_samples is not 0` compares a numpy integer with an int: always true
      let want := desired.getD n
      let count : Count := match desired with
        | none => .np n
        | some k => if k ≤ n then .int k else .np n
      copyLoop d want good 0 (initializeArrays { b with samples := count })

/-! ### The block loops -/

/-- What the numerical code computes: value of each output at position `j` of block `i`. -/
structure BlockValues (V : Type) where
  rho : Nat → Nat → V
  g : Nat → Nat → V
  gP : Nat → Nat → V
  gM : Nat → Nat → V

/-- The values of one output in block `i`. -/
def blockRow (val : Nat → Nat → V) (B i : Nat) : Arr V := (List.range B).map fun j => some (val i j)

/-- pimc.py:1360-1384, 1410-1447: one block.  `X` is the number of samples.  Drawing `B` samples
needs `B` rows (or one row, which numpy broadcasts) of the per-sample tables (pimc.py:329-333,
624). -/
def blockStep (vals : BlockValues V) (X B i : Nat) (b : Box V) : Except Err (Box V) := do
  let start := i * B
  let rows := min ((i + 1) * B) X - min start X
  if rows ≠ B ∧ rows ≠ 1 then .error .broadcast
  else
    let r ← assignSlice b.scaledRho start B (blockRow vals.rho B i)
    let g ← assignSlice b.scaledG start B (blockRow vals.g B i)
    let b := { b with scaledRho := r, scaledG := g }
    if b.cls = .pm then do
      let p ← assignSlice b.gofrPlus start B (blockRow vals.gP B i)
      let m ← assignSlice b.gofrMinus start B (blockRow vals.gM B i)
      .ok { b with gofrPlus := p, gofrMinus := m }
    else .ok b

/-- `for block_index in range(0, data.blocks)`, from block `i` on, `k` blocks left. -/
def blockLoop (vals : BlockValues V) (X B : Nat) : Nat → Nat → Box V → Except Err (Box V)
  | _, 0, b => .ok b
  | i, k + 1, b => do blockLoop vals X B (i + 1) k (← blockStep vals X B i b)

/-- pimc.py:1341-1388, 1391-1462 `block_compute`, `block_compute_pm`: all blocks, then
`result.save_results(end)`; without a block the name `end` is unbound. -/
def blockCompute (vals : BlockValues V) (X B blocks : Nat) (d : Disk V) (b : Box V) :
    Except Err (Box V × Disk V) := do
  let b ← blockLoop vals X B 0 blocks b
  if blocks = 0 then .error .unbound
  else .ok (b, ← saveResults d b)

end Pibronic.Results
