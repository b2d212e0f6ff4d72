import Verif.Model.OpFile

set_option autoImplicit false

/-!
Model of the readers of the older formats of vibronic models, `pibronic/vibronic/model_auto.py` and
`pibronic/vibronic/model_h.py`, and of their callers in `vibronic_model_io.py`.

Simplifications: what the library `fortranformat` and `float` make of a line or a text is a parameter;
numbers are exact; only `"\n"` ends a line; a `StopIteration` is the general exception.
-/
namespace Pibronic.OldFormats
open Py Buffer Workflow

variable {V : Type} {A : Nat}

/-- Results of the conversions of texts. -/
structure Convert (V : Type) (A : Nat) where
  /-- `ff.FortranRecordReader('(A26, i4)').read(line)` -/
  grid : Str → Except Err Unit
  /-- `ff.FortranRecordReader('(A36, i4)').read(line)` -/
  irreps : Str → Except Err Unit
  /-- `ff.FortranRecordReader('(A30, i4)').read(line)` -/
  modes : Str → Except Err Unit
  /-- `gradient_header.read(line)` -/
  gradient : Str → Except Err Unit
  /-- `coefficient_header.read(line)`, one number for each surface -/
  coef : Str → Except Err (Fin A → V)
  /-- `float(text)` -/
  float : Str → Except Err V

/-- model_auto.py:123 the lines that are kept: not blank and not a ruler; `rstrip` of each. -/
def autoLines (lines : List Str) : List Str :=
  (lines.filter fun l => decide (strip l ≠ []) && decide (¬ c!"--------" <:+: strip l)).map fun l =>
    (l.reverse.dropWhile isWs).reverse

/-- `next(f_iter)`: the line and the lines that remain -/
def next : List Str → Except Err (Str × List Str)
  | [] => .error .exception
  | l :: ls => .ok (l, ls)

/-- `for i in range(n): step`, from `i` on: the values and the lines that remain -/
def loop {β : Type} (step : Nat → List Str → Except Err (β × List Str)) :
    Nat → Nat → List Str → Except Err (List β × List Str)
  | _, 0, ls => .ok ([], ls)
  | i, n + 1, ls => do
    let (v, ls) ← step i ls
    let (vs, ls) ← loop step (i + 1) n ls
    .ok (v :: vs, ls)

/-- `text.partition("cm-1")[2].partition("eV")[0]` -/
def between (s : Str) : Str :=
  match find c!"cm-1" s with
  | none => []
  | some (_, r) => match find c!"eV" r with
    | none => r
    | some (a, _) => a

/-- one line with a coefficient for each surface -/
def row (c : Convert V A) (_ : Nat) (ls : List Str) : Except Err ((Fin A → V) × List Str) := do
  let (l, ls) ← next ls
  let v ← c.coef l
  .ok (v, ls)

/-- model_auto.py:41-44 `fill_in_excitation_energies`, also lines 173-174 -/
def energies (c : Convert V A) (ls : List Str) : Except Err (List (Fin A → V) × List Str) :=
  loop (row c) 0 A ls

/-- model_auto.py:47-53, 56-62 one block of `fill_in_linear_couplings` or
`fill_in_diagonal_quadratic_couplings` -/
def block (c : Convert V A) (_ : Nat) (ls : List Str) : Except Err (List (Fin A → V) × List Str) := do
  let (l, ls) ← next ls
  c.gradient l
  loop (row c) 0 A ls

/-- model_auto.py:69-71 one block of `fill_in_offdiagonal_quadratic_couplings` -/
def plainBlock (c : Convert V A) (_ : Nat) (ls : List Str) :
    Except Err (List (Fin A → V) × List Str) := do
  let (_, ls) ← next ls
  loop (row c) 0 A ls

/-- model_auto.py:162-163 one frequency -/
def frequency (c : Convert V A) (_ : Nat) (ls : List Str) : Except Err (V × List Str) := do
  let (l, ls) ← next ls
  let v ← c.float (between l)
  .ok (v, ls)

/-- model_auto.py:26-38 `read_header` -/
def readHeader (c : Convert V A) (ls : List Str) : Except Err (List Str) := do
  let (l, ls) ← next ls
  c.grid l
  let (l, ls) ← next ls
  c.irreps l
  let (l, ls) ← next ls
  c.modes l
  let (_, ls) ← next ls
  .ok ls

/-- The tuple `read_model_auto_file` returns; the arrays as functions of their indices. -/
structure Auto (V : Type) where
  nel : Nat
  nmode : Nat
  E : Nat → Nat → V
  w : Nat → V
  G1 : Nat → Nat → Nat → V
  G2 : Nat → Nat → Nat → Nat → V

/-- An array of zeros after `array[a, :] = rows[a]` for all `a`. -/
def rowsArray [Zero V] (rows : List (Fin A → V)) (a b : Nat) : V :=
  match rows[a]? with
  | none => 0
  | some r => if h : b < A then r ⟨b, h⟩ else 0

/-- model_auto.py:56-77: the array of quadratic terms before the last loop of
`fill_in_offdiagonal_quadratic_couplings` -/
def quadraticBefore [Zero V] (diag : List (List (Fin A → V))) (off : List (List (List (Fin A → V))))
    (i j a b : Nat) : V :=
  if i = j then rowsArray (diag.getD i []) a b
  else if j < i then rowsArray ((off.getD i []).getD j []) a b
  else 0

/-- model_auto.py:73-75 `quadratic_couplings[:, :, a, b] += np.tril(..., k=-1).T` -/
def quadraticAfter [Zero V] [Add V] (q : Nat → Nat → Nat → Nat → V) (i j a b : Nat) : V :=
  q i j a b + (if i < j then q j i a b else 0)

/-- model_auto.py:80-94 the two checks of symmetry; `close` is `np.allclose` of two numbers. -/
def confirmed (close : V → V → Bool) (nel nmode : Nat) (g1 : Nat → Nat → Nat → V)
    (g2 : Nat → Nat → Nat → Nat → V) : Bool :=
  ((List.range nel).all fun a => (List.range nel).all fun b =>
    ((List.range nmode).all fun i => close (g1 i a b) (g1 i b a)) &&
    ((List.range nmode).all fun i => (List.range nmode).all fun j => close (g2 i j a b) (g2 i j b a))) &&
  ((List.range nmode).all fun i => (List.range nmode).all fun j =>
    (List.range nel).all fun a => (List.range nel).all fun b => close (g2 i j a b) (g2 j i a b))

/-- model_auto.py:124-201, in `read_model_auto_file`, on the kept lines, for `A` surfaces and `nmode` modes. -/
def readAutoLines [Zero V] [Add V] (close : V → V → Bool) (c : Convert V A) (nmode : Nat)
    (ls : List Str) : Except Err (Auto V) := do
  let (_, ls) ← next ls
  let ls ← readHeader c ls
  let (_, ls) ← next ls
  let (_, ls) ← loop (fun _ => next) 0 nmode ls
  let (_, ls) ← next ls
  let (w, ls) ← loop (frequency c) 0 nmode ls
  let (_, ls) ← next ls
  let (_, ls) ← energies c ls
  let (e, ls) ← energies c ls
  let (_, ls) ← next ls
  let (g1, ls) ← loop (block c) 0 nmode ls
  let (_, ls) ← next ls
  let (diag, ls) ← loop (block c) 0 nmode ls
  let (_, ls) ← next ls
  let (off, _) ← loop (fun i => loop (plainBlock c) 0 i) 0 nmode ls
  let g1 : Nat → Nat → Nat → V := fun i => rowsArray (g1.getD i [])
  let g2 := quadraticAfter (quadraticBefore diag off)
  if confirmed close A nmode g1 g2 = true then .ok ⟨A, nmode, rowsArray e, fun i => w.getD i 0, g1, g2⟩
  else .error .assertion

/-- model_auto.py:97-201 `read_model_auto_file` (vibronic_model_io.py:459-461): two surfaces, twelve
modes; `none`: the file cannot be opened. -/
def readModelAutoFile [Zero V] [Add V] (close : V → V → Bool) (c : Convert V 2)
    (file : Option (List Str)) : Except Err (Auto V) :=
  match file with
  | none => .error .os
  | some lines => readAutoLines close c 12 (autoLines lines)

/-! ### Files `*.h` -/

/-- model_h.py:16-32 `get_number_of_electronic_states`: the number and the lines that remain.  At the end
of a file `readline` returns the empty text. -/
def numberOfStates (lines : List Str) : Except Err (Nat × List Str) :=
  let line := (lines.drop 1).headD []
  if c!"Number of electronic states" <:+: line then do
    let n ← pyInt (← item (splitWs line) 0)
    .ok (n, lines.drop 2)
  else .error .exception

/-- model_h.py:38-48, 51-62: the number in front of a label -/
def labelled (label line : Str) : Except Err Nat :=
  if label <:+: line then do pyInt (← item (splitWs line) 0) else .error .exception

/-- model_h.py:35-64 `get_number_of_normal_modes`: all modes, symmetric modes, the lines that remain -/
def numberOfModes (lines : List Str) : Except Err (Nat × Nat × List Str) := do
  let s ← labelled c!"Number of symmetric normal modes" (lines.headD [])
  let o ← labelled c!"Number of non-A1 normal modes" ((lines.drop 1).headD [])
  .ok (s + o, s, lines.drop 2)

/-- `array[lo:hi] = values` -/
def assignSlice (n : Nat) (values : List V) : Except Err (List V) :=
  if values.length = n then .ok values
  else match values with
    | [v] => .ok (List.replicate n v)
    | _ => .error .broadcast

/-- model_h.py:67-85 `extract_normal_mode_frequencies` of an array of `n` modes, `s` of them symmetric
(`s ≤ n`). -/
def hFrequencies (num : Str → Except Err V) (n s : Nat) (lines : List Str) : Except Err (List V) := do
  let a ← (splitWs ((lines.drop 2).headD [])).mapM num
  let a ← assignSlice s a
  let b ← (splitWs ((lines.drop 4).headD [])).mapM num
  let b ← assignSlice (n - s) b
  .ok (a ++ b)

/-- Which files there are. -/
abbrev Files := Str → Option (List Str)

/-- model_h.py:239-318 `read_model_h_file` (vibronic_model_io.py:419-421): line 263 calls
`get_number_of_electronic_states`, which needs two arguments, with one. -/
def readModelHFile (disk : Files) (path : Str) : Except Err (Auto V) :=
  match disk path with
  | none => .error .os
  | some _ => match disk (path.take (path.length - 2) ++ c!".in") with
    | none => .error .os
    | some _ => .error .type

/-- vibronic_model_io.py:429-435 `create_coupling_from_h_file`: the disk afterwards and the result;
`save` is the effect of `save_model_to_JSON`. -/
def createCouplingFromHFile {D : Type} (files : D → Files) (save : D → Str → Auto V → D × Except Err Unit)
    (pathVibModel : Str) (d : D) (path : Str) : D × Except Err Str :=
  match readModelHFile (files d) path with
  | .error e => (d, .error e)
  | .ok m => match save d pathVibModel m with
    | (d, .error e) => (d, .error e)
    | (d, .ok ()) => (d, .ok pathVibModel)

/-- vibronic_model_io.py:447-466 `create_coupling_from_op_hyperlink`: line 451 is `assert False`. -/
def createCouplingFromOpHyperlink {D : Type} (d : D) (_url : Str) : D × Except Err Str :=
  (d, .error .assertion)

end Pibronic.OldFormats
