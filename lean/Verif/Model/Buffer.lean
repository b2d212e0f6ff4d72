import Verif.Py.Str
import Verif.Py.Chars
import Mathlib.Data.Rat.Defs
import Mathlib.Algebra.Order.Ring.Rat

set_option autoImplicit false

/-!
Model of the functions of `pibronic/vibronic/electronic_structure.py` (and the copies in
`pibronic/helper.py`) that search and edit the output files of the electronic structure programs
through `mmap`.

Simplifications: the bytes of a file are a list of characters (the files are ASCII); log messages
are dropped; the loops that never end at the end of a file are the outcome `hangs`.
-/
namespace Pibronic.Buffer
open Py

/-- How a call ends. -/
inductive Run (α : Type) where
  | done (a : α)
  | raised (e : Err)
  | hangs
  deriving DecidableEq, Repr

/-- Does `sub` stand at the beginning of `s`? -/
def startsWith (sub s : Str) : Bool := (dropPrefix sub s).isSome

/-- Python's `mmap.find`, on the text that remains from position `i` on. -/
def findAt (sub : Str) : Str → Nat → Option Nat
  | [], i => if startsWith sub [] then some i else none
  | c :: s, i => if startsWith sub (c :: s) then some i else findAt sub s (i + 1)

/-- Python's `mmap.find(sub, start)`; `none` is `-1`. -/
def mmFind (buf sub : Str) (start : Nat) : Option Nat := findAt sub (buf.drop start) start

/-- Python's `mmap.rfind`, over the positions below `k`. -/
def rfindBelow (buf sub : Str) (stop : Nat) : Nat → Option Nat
  | 0 => none
  | k + 1 =>
    if k + sub.length ≤ stop ∧ startsWith sub (buf.drop k) = true then some k
    else rfindBelow buf sub stop k

/-- Python's `mmap.rfind(sub, 0, stop)`; `none` is `-1`. -/
def mmRfind (buf sub : Str) (stop : Nat) : Option Nat := rfindBelow buf sub stop (stop + 1)

/-- electronic_structure.py:114-124, helper.py:28-39 `find_string_in_file` -/
def findString (buf target : Str) : Except Err Nat :=
  match mmFind buf target 0 with
  | none => .error .exception
  | some i => .ok i

/-- electronic_structure.py:127-137, helper.py:42-52 `rfind_string_in_file` -/
def rfindString (buf target : Str) : Except Err Nat :=
  match mmRfind buf target buf.length with
  | none => .error .exception
  | some i => .ok i

/-- electronic_structure.py:140-148 `skip_back_n_lines`, helper.py:55-65 `skip_back_lines` -/
def skipBack (buf : Str) : Nat → Nat → Nat
  | 0, start => start
  | n + 1, start =>
    match mmRfind buf c!"\n" start with
    | none => start
    | some t => skipBack buf n t

/-- electronic_structure.py:151-159 `skip_forward_n_lines`, helper.py:68-78 `skip_forward_lines` -/
def skipForward (buf : Str) : Nat → Nat → Nat
  | 0, start => start
  | n + 1, start =>
    match mmFind buf c!"\n" (start + 1) with
    | none => start
    | some t => skipForward buf n t

/-- electronic_structure.py:295-321 `verify_aces2_completed` and 1273-1296 `parse_vibron_output`,
with the text they look for.  An empty file cannot be mapped (`ValueError`).
Simplification: on failure `verify_aces2_completed` first looks for a problem in Slurm's output and
may raise from there; either way it raises. -/
def verifyCompleted (marker buf : Str) : Except Err Unit :=
  match buf with
  | [] => .error .value
  | _ :: _ =>
    match mmFind buf marker (skipBack buf 10 (buf.length - 1)) with
    | none => .error .exception
    | some _ => .ok ()

/-- electronic_structure.py:297 the text that marks a completed ACES2 run -/
def acesMarker : Str := c!"The ACES2 program has completed successfully in"

/-- electronic_structure.py:1280 the text that marks a completed vibron run -/
def vibronMarker : Str := c!"All done in main_vibron"

/-- electronic_structure.py:1096-1175 `_remove_extra_heff`: the new contents of the file.
`move` and `resize` keep the text from the start of the line on which the target first occurs. -/
def removeExtraHeff (target buf : Str) : Except Err Str :=
  match buf with
  | [] => .error .value
  | _ :: _ =>
    match findString buf target with
    | .error e => .error e
    | .ok i =>
      let start := match mmRfind buf c!"\n" i with
        | none => 0
        | some k => k + 1
      .ok (buf.drop start)

/-- electronic_structure.py:1096 the default target -/
def heffTarget : Str := c!"HEFF_IP2"

/-- `"{:,d}".format(n)` -/
def commaStr (n : Nat) : Str :=
  if n < 1000 then natStr n
  else commaStr (n / 1000) ++ ',' :: digit (n / 100 % 10) :: digit (n / 10 % 10) :: [digit (n % 10)]
termination_by n
decreasing_by omega

/-- `"{:>6,d}".format(n)` -/
def pad6 (n : Nat) : Str := List.replicate (6 - (commaStr n).length) ' ' ++ commaStr n

/-- electronic_structure.py:1187-1211 `_add_nip_to_file`: the contents of the file afterwards and
the result.  `mmap.write` writes nothing and raises `ValueError` when the text does not fit before
the end of the file; the length is only checked after the text was written into the (shared)
mapping. -/
def addNip (nip : Nat) (buf : Str) : Str × Except Err Unit :=
  match buf with
  | [] => (buf, .error .value)
  | _ :: _ =>
    match findString buf c!"xxx" with
    | .error e => (buf, .error e)
    | .ok i =>
      if buf.length < i + (pad6 nip).length then (buf, .error .value)
      else
        let buf' := buf.take i ++ pad6 nip ++ buf.drop (i + (pad6 nip).length)
        if (pad6 nip).length = 6 then (buf', .ok ()) else (buf', .error .assertion)

/-- The lines of a text, each with its newline (what repeated `readline` returns). -/
def keepLines : Str → List Str
  | [] => []
  | c :: s =>
    if c = '\n' then [c] :: keepLines s
    else match keepLines s with
      | [] => [[c]]
      | l :: ls => (c :: l) :: ls

/-- electronic_structure.py:970-977 the loop that reads lines up to a blank line or a line of dashes.
`line is "\n"` compares identities: CPython keeps a single object for each one-character text, so
this is equality.  At the end of the file `readline` returns empty lines for ever. -/
def readRows : List Str → Option (List Str)
  | [] => none
  | l :: ls =>
    if l = c!"\n" ∨ (mmFind l c!"--------" 0).isSome = true then some []
    else (readRows ls).map fun rs => l :: rs

/-- white space that `str.split()` splits at (the ASCII ones) -/
def isWs (c : Char) : Bool := c = ' ' || c = '\t' || c = '\n' || c = '\r'

/-- `s.split()` -/
def splitWs : Str → List Str
  | [] => []
  | c :: s =>
    if isWs c then splitWs s
    else match s, splitWs s with
      | [], _ => [[c]]
      | _ :: _, [] => [[c]]
      | d :: _, w :: ws => if isWs d then [c] :: w :: ws else (c :: w) :: ws

/-- electronic_structure.py:980 `x.split(maxsplit=5)[4]` as a number; `parse` is `float`. -/
def percentOf (parse : Str → Option ℚ) (line : Str) : Except Err ℚ :=
  match (splitWs line)[4]? with
  | none => .error .index
  | some t => match parse t with
    | none => .error .value
    | some q => .ok q

/-- electronic_structure.py:960 the header of the table of states -/
def ipHeader : Str := c!"Summary of ionization-potential eom-cc calculation"

/-- electronic_structure.py:945-992 `parse_ip_output`, `verify_percent_singles`: `True` when no state of the table has
a percentage at or below the cutoff. -/
def verifySingles (parse : Str → Option ℚ) (cutoff : ℚ) (buf : Str) : Run Bool :=
  match buf with
  | [] => .raised .value
  | _ :: _ =>
    match findString buf ipHeader with
    | .error e => .raised e
    | .ok i =>
      match readRows (keepLines (buf.drop (skipForward buf 5 i))) with
      | none => .hangs
      | some rows =>
        match rows.mapM (percentOf parse) with
        | .error e => .raised e
        | .ok ps => .done (ps.all fun q => !decide (q ≤ cutoff))

/-- electronic_structure.py:995-1018 `verify_ip_states`, the loop over the number of states: `check`
runs the calculation for a number of states and reads its output (`ip_calc`, `parse_ip_output`).
Returns the number of states that is kept.  Starting from zero states a failed check counts down
below zero; the model says `hangs` there. -/
def reduceStates (check : Nat → Run Bool) : Nat → Run Nat
  | 0 =>
    match check 0 with
    | .raised e => .raised e
    | .hangs => .hangs
    | .done true => .done 0
    | .done false => .hangs
  | n + 1 =>
    match check (n + 1) with
    | .raised e => .raised e
    | .hangs => .hangs
    | .done true => .done (n + 1)
    | .done false => if n = 0 then .raised .exception else reduceStates check n

end Pibronic.Buffer
