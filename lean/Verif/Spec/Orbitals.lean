import Verif.Spec.Buffer

set_option autoImplicit false

/-! Specification of the output file that holds a table of orbital energies. -/
namespace Pibronic.Orbitals
open Py Buffer

/-- An output file: some text, the title of the table with the rest of its line, three more lines
of heading, the rows, the rule (a line of plus signs), and more text. -/
structure OutputFile where
  before : Str
  titleRest : Str
  heading : Fin 3 → Str
  rows : List Str
  indent : Str
  after : Str

/-- The text of the file from the title up to the rows. -/
def OutputFile.top (f : OutputFile) : Str :=
  c!"ORBITAL EIGENVALUES (ALPHA)" ++ terminated [f.titleRest, f.heading 0, f.heading 1, f.heading 2]

/-- The text of the file up to the rule. -/
def OutputFile.upToRule (f : OutputFile) : Str :=
  f.before ++ f.top ++ terminated f.rows ++ f.indent

/-- The text of the file. -/
def OutputFile.text (f : OutputFile) : Str :=
  f.upToRule ++ c!"+++++++++++++++++++++++++++++++++++++++++++" ++ f.after

/-- A line with something other than blanks on it. -/
def HasInk (l : Str) : Prop := ∃ c ∈ l, c ≠ ' ' ∧ c ≠ '\t' ∧ c ≠ '\r' ∧ c ≠ '\n'

/-- The title and the rule do not occur earlier, the lines are lines, and the table neither begins
nor ends with a blank line. -/
structure OutputFile.Proper (f : OutputFile) : Prop where
  title_first : ¬ c!"ORBITAL EIGENVALUES (ALPHA)" <:+: f.before
  rule_first : ¬ c!"+++++++++++++++++++++++++++++++++++++++++++" <:+: f.upToRule
  title_line : '\n' ∉ f.titleRest
  heading_lines : ∀ i, '\n' ∉ f.heading i
  row_lines : ∀ r ∈ f.rows, '\n' ∉ r
  first_row : ∀ r, f.rows.head? = some r → HasInk r
  last_row : ∀ r, f.rows.getLast? = some r → HasInk r
  blank_indent : ∀ c ∈ f.indent, c = ' ' ∨ c = '\t'

end Pibronic.Orbitals
