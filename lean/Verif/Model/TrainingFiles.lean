import Verif.Model.Results

set_option autoImplicit false

/-!
Model of the files made for training (`pibronic/pimc/pimc.py`): the block loop that computes g(R) at
random points, the two files it saves, and the block loop that evaluates rho at points that were
read back.

Simplifications: those of `Model/Results`; the coordinates of a sample are one value of type `R`;
the value computed for a sample is a function of its coordinates that may raise (`Model/Training`
has the function itself); an entry of the array of coordinates that was never assigned is `none`
(`np.empty` leaves arbitrary numbers there).
-/
namespace Pibronic.TrainingFiles
open Py FileName FileStructure Results

/-- The name template that `result.partial_name` holds. -/
inductive Template where
  | pimc | input | gOutput
  deriving DecidableEq, Repr

/-- pimc.py:780, 1255, 1264 the name made from the template (file_name.py:36-46, 98-122). -/
def Template.name : Template → Str → Str → Str → Str
  | .pimc => FileName.pimc
  | .input => trainingDataInput
  | .gOutput => trainingDataGOutput

/-- The contents of an `.npz` file. -/
inductive Entry (V R : Type) where
  | results (f : ResultFile V)
  /-- pimc.py:1258-1261 `number_of_samples` and `g` -/
  | g (number : Nat) (g : Arr V)
  /-- pimc.py:1267-1270 `number_of_samples` and `input_R_values` -/
  | input (number : Nat) (rows : List (Option R))

/-- Files by path. -/
abbrev Disk (V R : Type) := Str → Option (Entry V R)

variable {V R : Type}

/-- Replace the contents of one path. -/
def Disk.write (d : Disk V R) (p : Str) (e : Entry V R) : Disk V R :=
  fun q => if q = p then some e else d q

/-- A result object together with the template in `partial_name` (`box.partialName` has the bead
number and the temperature bound in it). -/
structure TBox (V : Type) where
  box : Box V
  template : Template

/-- pimc.py:800-817 `compute_path_to_file` with the template the object holds now. -/
def pathOf (b : TBox V) : Except Err Str :=
  if b.box.samples.isZeroLit then .error .assertion
  else match b.box.partialName with
    | none => .error .attribute
    | some (P, T) =>
      let name := b.template.name (natStr P) (tempStr T) (natStr (b.box.idJob.getD 0))
      match b.box.pathRoot with
      | none => .error .attribute
      | some root => .ok (join root name)

/-- pimc.py:1250-1270 `save_gR_with_samples`: the object afterwards and the two writes, in order.
`P`, `T` are `data.beads` and `data.temperature`. -/
def saveOps (P T : Nat) (b : TBox V) (rows : List (Option R)) :
    Except Err (TBox V × List (Str × Entry V R)) := do
  let b1 : TBox V := ⟨{ b.box with partialName := some (P, T) }, .gOutput⟩
  let p1 ← pathOf b1
  let b2 : TBox V := ⟨b1.box, .input⟩
  let p2 ← pathOf b2
  .ok (b2, [(p1, .g b.box.samples.val b.box.scaledG), (p2, .input b.box.samples.val rows)])

/-- The disk after a list of writes. -/
def apply (d : Disk V R) (ops : List (Str × Entry V R)) : Disk V R :=
  ops.foldl (fun d o => d.write o.1 o.2) d

/-- pimc.py:819-834 `save_results` of an object whose template may have been replaced (the class
`BoxResult`). -/
def saveResults (d : Disk V R) (b : TBox V) : Except Err (Disk V R) := do
  let path ← pathOf b
  match b.box.hashVib, b.box.hashRho with
  | some hv, some hr =>
    .ok (d.write path (.results ⟨some hv, some hr, some b.box.samples.val, some b.box.scaledRho,
      some b.box.scaledG, none, none⟩))
  | _, _ => .error .assertion

/-- pimc.py:1318-1334, 602-611: one block.  `draw i j` are the coordinates `np.random.random` gives
for position `j` of block `i`.  `np.copyto` (line 607) needs all the rows of the block. -/
def gStep (draw : Nat → Nat → R) (value : R → Except Err V) (X B i : Nat)
    (s : Arr V × List (Option R)) : Except Err (Arr V × List (Option R)) := do
  let rows ← assignSlice s.2 (i * B) B (blockRow draw B i)
  if min ((i + 1) * B) X - min (i * B) X ≠ B then .error .broadcast
  else
    let vals ← (List.range B).mapM fun j => value (draw i j)
    let g ← assignSlice s.1 (i * B) B (vals.map some)
    .ok (g, rows)

/-- `for block_index in range(0, data.blocks)`, from block `i` on, `k` blocks left. -/
def gLoop (draw : Nat → Nat → R) (value : R → Except Err V) (X B : Nat) :
    Nat → Nat → Arr V × List (Option R) → Except Err (Arr V × List (Option R))
  | _, 0, s => .ok s
  | i, k + 1, s => do gLoop draw value X B (i + 1) k (← gStep draw value X B i s)

/-- pimc.py:1305-1338 `block_compute_gR_from_raw_samples`: all blocks, then the two writes. -/
def computeGR (draw : Nat → Nat → R) (value : R → Except Err V) (P T X B blocks : Nat)
    (b : TBox V) : Except Err (TBox V × List (Str × Entry V R)) := do
  let (g, rows) ← gLoop draw value X B 0 blocks (b.box.scaledG, List.replicate X none)
  saveOps P T ⟨{ b.box with scaledG := g }, b.template⟩ rows

/-- pimc.py:1288-1299: one block of rho at given points.  A block that finds a single row in the
array is filled with it by broadcasting (line 1293). -/
def rhoStep (value : Option R → V) (rows : List (Option R)) (B i : Nat) (rho : Arr V) :
    Except Err (Arr V) :=
  let block := (rows.drop (i * B)).take B
  let full : Except Err (List (Option R)) := if block.length = B then .ok block
    else match block with
      | [r] => .ok (List.replicate B r)
      | _ => .error .broadcast
  full.bind fun block => assignSlice rho (i * B) B (block.map fun r => some (value r))

/-- pimc.py:1273-1302 `block_compute_rhoR_from_input_samples`: from block `i` on, `k` blocks left. -/
def rhoLoop (value : Option R → V) (rows : List (Option R)) (B : Nat) :
    Nat → Nat → Arr V → Except Err (Arr V)
  | _, 0, rho => .ok rho
  | i, k + 1, rho => do rhoLoop value rows B (i + 1) k (← rhoStep value rows B i rho)

end Pibronic.TrainingFiles
