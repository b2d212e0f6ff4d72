import Verif.Model.OldFormats
import Verif.Model.Molecule

set_option autoImplicit false

/-!
Model of the functions of `pibronic/vibronic/model_h.py` that read the parameters of a model from the
mapped bytes of a file `*.h`.

Simplifications: the bytes are a list of characters (the files are ASCII); `num` is the conversion of a
text to a number by numpy; a frequency is given by its text `str(w)`; the array that is filled is square
with as many rows as there are surfaces, and only its contents after a call that returns are described.
`states` is the number of surfaces in the module's global `States`, `none` when it was never bound: the
only assignment is line 264, behind the call in line 263 that raises.
-/
namespace Pibronic.HeffFile
open Py Buffer Workflow Molecule OldFormats

variable {V : Type}

/-- Python's `mmap.find(sub, start, stop)`; `none` is `-1`. -/
def mmFindIn (buf sub : Str) (start stop : Nat) : Option Nat :=
  findAt sub ((buf.take stop).drop start) start

/-- Python's `mmap.readline()` at a position -/
def lineAt (buf : Str) (pos : Nat) : Str := (keepLines (buf.drop pos)).headD []

/-- model_h.py:110, 144, 178, 225 `array[a, :] = line.split()` for `A` surfaces -/
def setRow (num : Str → Except Err V) (A : Nat) (line : Str) : Except Err (List V) := do
  let ws ← assignSlice A (splitWs line)
  ws.mapM num

/-- model_h.py:142-144, 176-178, 223-225 the next `n` lines, and the position behind them -/
def rowsAt (num : Str → Except Err V) (A : Nat) (buf : Str) :
    Nat → Nat → Except Err (List (List V) × Nat)
  | 0, pos => .ok ([], pos)
  | n + 1, pos => do
    let row ← setRow num A (lineAt buf pos)
    let (rows, stop) ← rowsAt num A buf n (pos + (lineAt buf pos).length)
    .ok (row :: rows, stop)

/-- model_h.py:128-144, 162-178, 207-225 the rows below the next line that shows the text `w` -/
def blockAt (num : Str → Except Err V) (states : Option Nat) (buf w : Str) (start stop : Nat) :
    Except Err (List (List V) × Nat) :=
  match mmFindIn buf w start stop with
  | none => .error .exception
  | some k =>
    match states with
    | none => .error .name
    | some A => rowsAt num A buf A (k + (lineAt buf k).length)

/-- model_h.py:92 -/
def titleReference : Str := c!"Reference Hamiltonian"

/-- model_h.py:94, 119 -/
def titleLinear : Str := c!"Gradients of heff along normal modes"

/-- model_h.py:121, 153 -/
def titleQuadratic : Str := c!"Diagonal second order corrections of heff"

/-- model_h.py:155, 187 -/
def titleOffdiag : Str := c!"Off-diagonal second order corrections heff"

/-- model_h.py:189 -/
def titleCubic : Str := c!"Diagonal Cubic corrections of heff"

/-- model_h.py:88-111 `extract_energies`.  `mmap.read` of a negative number of bytes reads everything. -/
def extractEnergies (num : Str → Except Err V) (states : Option Nat) (buf : Str) :
    Except Err (List (List V)) := do
  let start ← findString buf titleReference
  let stop ← findString buf titleLinear
  let pos := start + (lineAt buf start).length
  let data := if pos ≤ stop then (buf.drop pos).take (stop - pos) else buf.drop pos
  let lines := splitlines (strip data)
  match states with
  | none => .error .name
  | some A => (List.range A).mapM fun d => do
    let line ← item lines d
    setRow num A line

/-- model_h.py:117-145, 151-179: every search starts at the title -/
def extractBlocks (num : Str → Except Err V) (states : Option Nat) (title next buf : Str)
    (freqs : List Str) : Except Err (List (List (List V))) := do
  let start ← findString buf title
  let stop ← findString buf next
  freqs.mapM fun w => do
    let (rows, _) ← blockAt num states buf w start stop
    .ok rows

/-- model_h.py:114-145 `extract_linear_couplings`: the matrix of each mode -/
def extractLinear (num : Str → Except Err V) (states : Option Nat) (buf : Str) (freqs : List Str) :
    Except Err (List (List (List V))) :=
  extractBlocks num states titleLinear titleQuadratic buf freqs

/-- model_h.py:148-179 `extract_quadratic_couplings`: the matrix of each mode with itself -/
def extractQuadratic (num : Str → Except Err V) (states : Option Nat) (buf : Str) (freqs : List Str) :
    Except Err (List (List (List V))) :=
  extractBlocks num states titleQuadratic titleOffdiag buf freqs

/-- model_h.py:196-225 the inner loop: the matrices of one mode with the modes before it.  The place at
which the first frequency is found is not used. -/
def pairsWith (num : Str → Except Err V) (states : Option Nat) (buf : Str) (stop : Nat) (w1 : Str) :
    List Str → Nat → Except Err (List (List (List V)) × Nat)
  | [], pos => .ok ([], pos)
  | w2 :: ws, pos =>
    match mmFindIn buf w1 pos stop with
    | none => .error .exception
    | some _ => do
      let (rows, pos) ← blockAt num states buf w2 pos stop
      let (more, pos) ← pairsWith num states buf stop w1 ws pos
      .ok (rows :: more, pos)

/-- model_h.py:195-225 the outer loop; `before` are the modes before the next one. -/
def pairs (num : Str → Except Err V) (states : Option Nat) (buf : Str) (stop : Nat) :
    List Str → List Str → Nat → Except Err (List (List (List (List V))))
  | _, [], _ => .ok []
  | before, w1 :: ws, pos => do
    let (rows, pos) ← pairsWith num states buf stop w1 before pos
    let more ← pairs num states buf stop (before ++ [w1]) ws pos
    .ok (rows :: more)

/-- model_h.py:182-226 `extract_offdiag_quadratic_couplings`: for each mode the matrices with the modes
before it -/
def extractOffdiag (num : Str → Except Err V) (states : Option Nat) (buf : Str) (freqs : List Str) :
    Except Err (List (List (List (List V)))) := do
  let start ← findString buf titleOffdiag
  let stop ← findString buf titleCubic
  pairs num states buf stop [] freqs start

/-- model_h.py:229-236 `extract_cubic_couplings`, `extract_quartic_couplings`: the array afterwards -/
def extractHigher {α : Type} (array : α) : α := array

end Pibronic.HeffFile
