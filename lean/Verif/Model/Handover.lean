import Verif.Model.Buffer
import Verif.Model.FileStructure

set_option autoImplicit false

/-!
The step between the coupling calculation and the vibronic calculation: the outputs of the one are
copied, cleaned and completed and so become the inputs of the other (electronic_structure.py).
-/
namespace Pibronic.Handover
open Py Buffer FileStructure

/-- The files on the disk and their contents. -/
abbrev Files := Str → Option Str

/-- Replace the contents of one file. -/
def Files.put (d : Files) (p t : Str) : Files := fun q => if q = p then some t else d q

/-- A part of the program: the states of the disk that can be seen while it runs (and that remain when it is
interrupted there), the state at its end and the outcome. -/
structure Step where
  seen : List Files
  last : Files
  result : Except Err Unit

/-- One part after another; an exception ends the program. -/
def Step.andThen (s : Step) (f : Files → Step) : Step :=
  match s.result with
  | .error _ => s
  | .ok () => ⟨s.seen ++ (f s.last).seen, (f s.last).last, (f s.last).result⟩

/-- electronic_structure.py:225-229, helper.py:85-89 `verify_file_exists` -/
def verifyFileExists (d : Files) (p : Str) : Except Err Unit :=
  match d p with
  | some _ => .ok ()
  | none => .error .os

/-- electronic_structure.py:1178-1184 `_copy_output_file`.  `shutil.copyfile` empties the destination and
then writes the contents from the beginning; source and destination are never the same file here. -/
def copyOutput (root source destination : Str) (d : Files) : Step :=
  match verifyFileExists d (join root source) with
  | .error e => ⟨[d], d, .error e⟩
  | .ok () =>
    let t := (d (join root source)).getD []
    ⟨d :: (List.range (t.length + 1)).map fun k => d.put (join root destination) (t.take k),
      d.put (join root destination) t, .ok ()⟩

/-- electronic_structure.py:1096-1175 `_remove_extra_heff` on a file: `move` copies the end of the file over
its beginning, character by character, then `resize` cuts the file. -/
def removeExtra (root name : Str) (d : Files) : Step :=
  match d (join root name) with
  | none => ⟨[d], d, .error .os⟩
  | some buf =>
    match removeExtraHeff heffTarget buf with
    | .error e => ⟨[d], d, .error e⟩
    | .ok out =>
      ⟨(List.range (out.length + 1)).map fun k => d.put (join root name) (out.take k ++ buf.drop k),
        d.put (join root name) out, .ok ()⟩

/-- electronic_structure.py:1187-1211 `_add_nip_to_file` on a file: the text is written over the placeholder
character by character. -/
def addNipTo (root name : Str) (nip : Nat) (d : Files) : Step :=
  match d (join root name) with
  | none => ⟨[d], d, .error .os⟩
  | some buf =>
    let out := (addNip nip buf).1
    ⟨(List.range (out.length + 1)).map fun k => d.put (join root name) (out.take k ++ buf.drop k),
      d.put (join root name) out, (addNip nip buf).2⟩

/-- electronic_structure.py:69-82 the names of the outputs of the coupling calculation -/
def pntheffOut (name : Str) : Str := name ++ c!"_prepvib.pntheff"
/-- electronic_structure.py:69-82 -/
def couplingOut (name : Str) : Str := name ++ c!"_prepvib.vibronic_coupling"
/-- electronic_structure.py:69-82 -/
def vibronOut (name : Str) : Str := name ++ c!"_prepvib.vibron_input"
/-- electronic_structure.py:53-67 the names of the inputs of the vibronic calculation -/
def couplingIn : Str := c!"cp.auto"
/-- electronic_structure.py:53-67 -/
def vibronIn (name : Str) : Str := name ++ c!"_vibron.in"

/-- electronic_structure.py:1214-1234 `parse_prepVibron_output` -/
def parsePrepVibron (root name : Str) (nip : Nat) (d : Files) : Step :=
  ((((copyOutput root (pntheffOut name) c!"PNTHEFF" d).andThen
    (removeExtra root c!"PNTHEFF")).andThen
    (copyOutput root (couplingOut name) couplingIn)).andThen
    (removeExtra root couplingIn)).andThen fun d =>
    (copyOutput root (vibronOut name) (vibronIn name) d).andThen
    (addNipTo root (vibronIn name) nip)

end Pibronic.Handover
