import Verif.Spec.Buffer

set_option autoImplicit false

/-! Specification of the input files of the electronic structure workflow: what a parameter file and
a geometry file look like, independent of the model. -/
namespace Pibronic.Molecule
open Py Buffer

/-- White space within a line. -/
def Blank (s : Str) : Prop := ∀ c ∈ s, c = ' ' ∨ c = '\t' ∨ c = '\r'

/-- White space. -/
def Space (c : Char) : Prop := c = ' ' ∨ c = '\t' ∨ c = '\n' ∨ c = '\r'

/-- A text of one line without white space at either end. -/
def Trimmed (s : Str) : Prop :=
  '\n' ∉ s ∧ (∀ c, s.head? = some c → ¬ Space c) ∧ (∀ c, s.getLast? = some c → ¬ Space c)

/-- One item of a parameter file: a comment, a blank line, or a header and the value on the next
line, both with blanks around them. -/
inductive Item where
  | comment (s : Str)
  | blank (s : Str)
  | entry (a header b c value d : Str)

/-- The lines of an item. -/
def Item.lines : Item → List Str
  | .comment s => ['#' :: s]
  | .blank s => [s]
  | .entry a h b c v d => [a ++ h ++ b, c ++ v ++ d]

/-- The item is what it says. -/
def Item.Clean : Item → Prop
  | .comment s => '\n' ∉ s
  | .blank s => Blank s
  | .entry a h b c v d => Blank a ∧ Blank b ∧ Blank c ∧ Blank d ∧ Trimmed h ∧ Trimmed v ∧ h ≠ [] ∧
      h.head? ≠ some '#'

/-- The text of a parameter file. -/
def fileText (items : List Item) : Str := terminated (items.flatMap Item.lines)

/-- The value a file gives for a header: the last one. -/
def given (items : List Item) (k : Str) : Option Str :=
  items.reverse.findSome? fun
    | .entry _ h _ _ v _ => if h = k then some v else none
    | _ => none

/-- The names of the parameters. -/
def parameterNames : List Str :=
  [c!"calculation", c!"theory", c!"basis", c!"DROPMO", c!"NIP", c!"gridVibron", c!"ccConv",
   c!"scfConv", c!"estateTol"]

/-- One line `name = value` of a geometry file, with blanks. -/
structure Row where
  a : Str
  name : Str
  b : Str
  c : Str
  value : Str
  d : Str

def Row.line (r : Row) : Str := r.a ++ r.name ++ r.b ++ c!"=" ++ (r.c ++ r.value ++ r.d)

/-- The line without blanks. -/
def Row.plain (r : Row) : Str := r.name ++ c!"=" ++ r.value

def Row.pair (r : Row) : Str × Str := (r.name, r.value)

def Row.Clean (r : Row) : Prop :=
  Blank r.a ∧ Blank r.b ∧ Blank r.c ∧ Blank r.d ∧ Trimmed r.name ∧ Trimmed r.value ∧
    '=' ∉ r.name ∧ '=' ∉ r.value

/-- The text of a geometry file in internal coordinates: the relations, a blank line, the
coordinates; then the last newline may be missing, or the file ends, or a blank line follows and
anything after it. -/
def InternalFile (relations : List Str) (rows : List Row) (text : Str) : Prop :=
  text ++ ['\n'] = terminated relations ++ '\n' :: terminated (rows.map Row.line) ∨
    ∃ extra, text = terminated relations ++ '\n' :: terminated (rows.map Row.line) ++ extra ∧
      (extra = [] ∨ extra.head? = some '\n')

end Pibronic.Molecule
