import Verif.Model.Inputs

set_option autoImplicit false

/-!
Model of the part of `pibronic/vibronic/electronic_structure.py` that reads the table of orbital
energies from the output of a Hartree-Fock calculation.

Simplifications: the bytes of a file are a list of characters; `splitlines` splits at newlines only
(the outputs have no form feeds or other separators); `float` is a parameter; printing is dropped.
-/
namespace Pibronic.Orbitals
open Py Buffer Workflow Molecule Inputs

/-- electronic_structure.py:474, 556 the text at which the table begins -/
def orbitalTitle : Str := c!"ORBITAL EIGENVALUES (ALPHA)"

/-- electronic_structure.py:475, 557 the text at which the table ends -/
def orbitalRule : Str := c!"+++++++++++++++++++++++++++++++++++++++++++"

/-- electronic_structure.py:470-489 and electronic_structure.py:549-573
`_extract_lines_for_estimating_NIP`, the same statements twice: the lines of the table.  An empty
file cannot be mapped (`ValueError`); `mmap.read` with a negative number reads up to the end of the
file. -/
def orbitalLines (buf : Str) : Except Err (List Str) :=
  match buf with
  | [] => .error .value
  | _ :: _ =>
    match findString buf orbitalTitle with
    | .error e => .error e
    | .ok start =>
      match findString buf orbitalRule with
      | .error e => .error e
      | .ok stop =>
        let pos := skipForward buf 4 start
        let data := if pos ≤ stop then (buf.drop pos).take (stop - pos) else buf.drop pos
        .ok (splitlines (strip data))

/-- electronic_structure.py:494, 582 `float(line.split(maxsplit=5)[3])` -/
def energyOf (parse : Str → Option ℚ) (line : Str) : Except Err ℚ :=
  match (splitWs line)[3]? with
  | none => .error .index
  | some w =>
    match parse w with
    | none => .error .value
    | some x => .ok x

/-- electronic_structure.py:494, 582 the array of the energies -/
def energiesOf (parse : Str → Option ℚ) (lines : List Str) : Except Err (List ℚ) :=
  lines.mapM (energyOf parse)

/-- electronic_structure.py:466-546 `_estimate_dropmo`: the keyword that drops orbitals.
`list_ev` is not bound before the `try` statement: when the energies cannot be read, printing them
raises `UnboundLocalError`. -/
def estimateDropmo (toInt : Str → Option ℤ) (parse : Str → Option ℚ) (buf : Str) (as : List Str) :
    Except Err Str :=
  match orbitalLines buf with
  | .error e => .error e
  | .ok lines =>
    match energiesOf parse lines with
    | .error _ => .error .unbound
    | .ok evs =>
      match confirm toInt (guessDropmo (.ok evs)) as with
      | .error e => .error e
      | .ok n => .ok (dropmoString n)

/-- electronic_structure.py:614-647 `_estimate_NIP` -/
def estimateNipOf (toInt : Str → Option ℤ) (parse : Str → Option ℚ) (dropmo buf : Str)
    (as : List Str) : Except Err Nat :=
  match orbitalLines buf with
  | .error e => .error e
  | .ok lines => estimateNip toInt dropmo (energiesOf parse lines) as

end Pibronic.Orbitals
