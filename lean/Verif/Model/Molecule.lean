import Verif.Model.Workflow

set_option autoImplicit false

/-!
Model of the inputs of the electronic structure workflow
(`pibronic/vibronic/electronic_structure.py`): the parameter file and the geometry (`ZmatClass`),
including the optimised geometry read from the output of the optimisation.

Simplifications: only `"\n"` ends a line; white space is blank, tab, newline and carriage return;
the `StopIteration` at the end of a parameter file is the general exception.
-/
namespace Pibronic.Molecule
open Py Buffer Workflow

/-! ### The parameter file -/

/-- A value in the dictionary of parameters. -/
inductive Val where
  | none
  | int (n : Nat)
  | text (s : Str)
  deriving DecidableEq, Repr

/-- A dictionary of parameters. -/
abbrev Dict := Str → Option Val

/-- `d[k] = v` -/
def Dict.set (d : Dict) (k : Str) (v : Val) : Dict := fun j => if j = k then some v else d j

/-- electronic_structure.py:1416-1426 `VibronExecutionClass.parameter_dictionary`, an attribute of
the class, shared by all objects of a process -/
def initialDict : Dict := fun k =>
  if k = c!"calculation" then some .none
  else if k = c!"theory" then some .none
  else if k = c!"basis" then some .none
  else if k = c!"DROPMO" then some (.text [])
  else if k = c!"NIP" then some .none
  else if k = c!"gridVibron" then some (.int 3)
  else if k = c!"ccConv" then some (.int 10)
  else if k = c!"scfConv" then some (.int 10)
  else if k = c!"estateTol" then some (.int 10)
  else none

/-- electronic_structure.py:1556-1568 the loop over the lines of the parameter file.  Returns the
dictionary as it is when the loop ends, and how it ends. -/
def readLines : Dict → List Str → Dict × Except Err Unit
  | d, [] => (d, .ok ())
  | d, line :: rest =>
    if xor (strip line != []) (startsWith c!"#" line) then
      match rest with
      | [] => (d, .error .exception)
      | data :: rest =>
        match d (strip line) with
        | none => (d, .error .value)
        | some _ => readLines (d.set (strip line) (.text (strip data))) rest
    else readLines d rest

/-- electronic_structure.py:83-101 the supported methods -/
def basisList : List Str := [c!"TZ2P", c!"DZP"]
def theoryList : List Str := [c!"MBPT(2)", c!"CCSD", c!"CCSD(T)"]
def calculationsList : List Str := [c!"IP"]

/-- `d[k] in names` -/
def isOneOf (d : Dict) (k : Str) (names : List Str) : Bool :=
  match d k with
  | some (.text s) => decide (s ∈ names)
  | _ => false

/-- electronic_structure.py:1543-1575 `parse_input_parameters` up to the state file: `file` is the
contents of the parameter file, `d` the dictionary of the class before the call. -/
def readParameters (d : Dict) (file : Option Str) : Dict × Except Err Unit :=
  match file with
  | none => (d, .error .os)
  | some text =>
    match readLines d (keepLines text) with
    | (d, .error e) => (d, .error e)
    | (d, .ok ()) =>
      if ¬ isOneOf d c!"basis" basisList = true then (d, .error .assertion)
      else if ¬ isOneOf d c!"theory" theoryList = true then (d, .error .assertion)
      else if ¬ isOneOf d c!"calculation" calculationsList = true then (d, .error .assertion)
      else (d, .ok ())

/-! ### The geometry -/

/-- electronic_structure.py:1299-1314 `ZmatClass` -/
inductive Zmat where
  | internal (relations : Str) (coord : List (Str × Str))
  | cartesian (text : Str)
  deriving DecidableEq, Repr

/-- `d[k] = v` for a dictionary in insertion order -/
def upsert (d : List (Str × Str)) (k v : Str) : List (Str × Str) :=
  match d with
  | [] => [(k, v)]
  | (k', v') :: d => if k' = k then (k', v) :: d else (k', v') :: upsert d k v

/-- `d.update(new)` -/
def update (d new : List (Str × Str)) : List (Str × Str) :=
  new.foldl (fun d p => upsert d p.1 p.2) d

/-- `text.splitlines()` -/
def splitlines (s : Str) : List Str := (keepLines s).map fun l => l.filter (· ≠ '\n')

/-- `map(str.strip, line.split('='))` used as a key and a value: `ValueError` unless there are two -/
def keyValue (line : Str) : Except Err (Str × Str) :=
  match split c!"=" line with
  | [k, v] => .ok (strip k, strip v)
  | _ => .error .value

/-- `dict([map(str.strip, x.split('=')) for x in lines])` -/
def coordDict (lines : List Str) : Except Err (List (Str × Str)) :=
  match lines.mapM keyValue with
  | .error e => .error e
  | .ok ps => .ok (update [] ps)

/-- electronic_structure.py:1316-1346 `ZmatClass.__init__`, with the contents of the file -/
def newZmat (file : Option Str) : Except Err Zmat :=
  match file with
  | none => .error .os
  | some text =>
    let data := text ++ c!"\n"
    if '=' ∈ data then
      let b := split c!"\n\n" data
      match item b 0 with
      | .error e => .error e
      | .ok b0 =>
        match item b 1 with
        | .error e => .error e
        | .ok b1 =>
          match coordDict (splitlines b1) with
          | .error e => .error e
          | .ok coord => .ok (.internal (b0 ++ c!"\n") coord)
    else .ok (.cartesian (data ++ c!"\n"))

/-- electronic_structure.py:1348-1370 `ZmatClass.get` -/
def Zmat.get (z : Zmat) (optZmat : Bool) : Str :=
  match z with
  | .internal relations coord =>
    let complete := relations ++ c!"\n"
    let complete := if optZmat then complete else complete.filter (· ≠ '*')
    complete ++ (coord.flatMap fun p => p.1 ++ c!"=" ++ p.2 ++ c!"\n") ++ c!"\n"
  | .cartesian text => text

/-- `[line for line in text.split("\n") if line != '']` -/
def nonEmptyLines (text : Str) : List Str := (split c!"\n" text).filter (· ≠ [])

/-- `"\n".join(lines)` -/
def joinLines : List Str → Str
  | [] => []
  | [l] => l
  | l :: ls => l ++ '\n' :: joinLines ls

/-- The new geometry: a dictionary for internal coordinates, a text for cartesian ones. -/
inductive Geometry where
  | coord (d : List (Str × Str))
  | text (s : Str)
  deriving DecidableEq, Repr

/-- electronic_structure.py:1385-1400 the loop that overwrites the last lines: `l[i+diff] = new[i]` -/
def overwrite (old new : List Str) (diff : Nat) : List Str :=
  (List.range new.length).foldl (fun l i => l.set (i + diff) (new.getD i [])) old

/-- electronic_structure.py:1372-1402 `ZmatClass.set`.  The kind of geometry given matches the kind of
the object at the only call; the model raises a `TypeError` otherwise. -/
def Zmat.set (z : Zmat) (g : Geometry) : Except Err Zmat :=
  match z, g with
  | .internal relations coord, .coord new => .ok (.internal relations (update coord new))
  | .cartesian text, .text new =>
    let gnew := nonEmptyLines new
    let gold := nonEmptyLines text
    if gold.length = gnew.length then .ok (.cartesian (joinLines gnew ++ c!"\n\n"))
    else if gnew.length < gold.length then
      .ok (.cartesian (joinLines (overwrite gold gnew (gold.length - gnew.length)) ++ c!"\n\n"))
    else .error .exception
  | _, _ => .error .type

/-! ### The optimised geometry -/

/-- electronic_structure.py:761-766, 794-799: read lines up to a blank line.  At the end of the file
`readline` returns empty lines for ever. -/
def readBlock : List Str → Option (List Str)
  | [] => none
  | l :: ls =>
    if l = c!"\n" ∨ l = c!"Frequencies of the updated Hessian at convergence" then some []
    else (readBlock ls).map fun rs => l :: rs

/-- electronic_structure.py:748, 781 the headers of the optimised geometry -/
def internalHeader : Str := c!"Summary of optimized internal coordinates"
def cartesianHeader : Str := c!"Summary of optimized Cartesian coordinates (Ang)"

/-- electronic_structure.py:749-766: the lines after the header and the two lines thrown away -/
def geometryLines (header buf : Str) : Run (List Str) :=
  match buf with
  | [] => .raised .value
  | _ :: _ =>
    match findString buf header with
    | .error e => .raised e
    | .ok i =>
      match readBlock ((keepLines (buf.drop i)).drop 2) with
      | none => .hangs
      | some ls => .done ls

/-- electronic_structure.py:803-811 the text made of the words of the lines -/
def wordsText (lines : List Str) : Str :=
  (lines.flatMap fun l => ((splitWs l).flatMap fun w => w ++ c!" ") ++ c!"\n") ++ c!"\n"

/-- electronic_structure.py:735-817 `parse_opt_output`: the new geometry object -/
def parseOpt (z : Zmat) (buf : Str) : Run Zmat :=
  match z with
  | .internal _ _ =>
    match geometryLines internalHeader buf with
    | .raised e => .raised e
    | .hangs => .hangs
    | .done ls =>
      match coordDict ls with
      | .error e => .raised e
      | .ok d => match z.set (.coord d) with
        | .error e => .raised e
        | .ok z => .done z
  | .cartesian _ =>
    match geometryLines cartesianHeader buf with
    | .raised e => .raised e
    | .hangs => .hangs
    | .done ls => match z.set (.text (wordsText ls)) with
      | .error e => .raised e
      | .ok z => .done z

end Pibronic.Molecule
