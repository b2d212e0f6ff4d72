import Verif.Spec.Buffer
import Verif.Spec.ModelIO

set_option autoImplicit false

/-!
Specification of operator files: the layout of the files and the model that a file describes,
independent of the functions that read it.
-/
namespace Pibronic.Spec.OpFile
open Py Buffer

/-- A number with at least two digits. -/
def twoDigits (n : Nat) : Str := if n < 10 then '0' :: natStr n else natStr n

/-- `n` blanks. -/
def blanks (n : Nat) : Str := List.replicate n ' '

/-- The blanks in a line: how many there are beyond the one that is always there before the equals
sign, after it and before the comma, and at the end of the line. -/
structure Blanks where
  name : Nat
  eq : Nat
  value : Nat
  tail : Nat

/-- A line `name = value , ev`. -/
def line (name value : Str) (s : Blanks) : Str :=
  name ++ blanks (s.name + 1) ++ c!"=" ++ blanks (s.eq + 1) ++ value ++ blanks (s.value + 1) ++ c!", ev" ++
    blanks s.tail

/-- The text of a number and the blanks around it. -/
structure Value where
  text : Str
  sp : Blanks

/-- A coupling between the surfaces `a` and `b`, counted from 0, of the mode `i` or of the modes `i`
and `j`. -/
structure Coupling where
  a : Nat
  b : Nat
  i : Nat
  j : Nat
  value : Value

/-- `C1_s01_s02_v03` -/
def single (pre : Str) (c : Coupling) : Str :=
  line (pre ++ c!"_s" ++ twoDigits (c.a + 1) ++ c!"_s" ++ twoDigits (c.b + 1) ++ c!"_v" ++ twoDigits (c.i + 1))
    c.value.text c.value.sp

/-- `C2_s01s02_v03v04` -/
def double (pre : Str) (c : Coupling) : Str :=
  line (pre ++ c!"_s" ++ twoDigits (c.a + 1) ++ c!"s" ++ twoDigits (c.b + 1) ++ c!"_v" ++ twoDigits (c.i + 1) ++
    c!"v" ++ twoDigits (c.j + 1)) c.value.text c.value.sp

/-- A section: the line with the header and the lines that follow it. -/
structure Section where
  mark : Str
  header : Str
  rest : Str
  body : List Str

/-- The lines of a section. -/
def Section.lines (s : Section) : List Str := (s.mark ++ s.header ++ s.rest) :: s.body

/-- What an operator file contains.  `biquartic` has the terms `q_i q_j³` (`B4`, `false`) and
`q_i² q_j²` (`A4`, `true`). -/
structure Op where
  before : List Str
  frequencies : List Value
  zeroPoint : Str
  energies : List Value
  moments : List Str
  linear : List Coupling
  diagonal : List Coupling
  offDiagonal : List Coupling
  cubic : List Coupling
  quartic : List Coupling
  bicubic : List Coupling
  biquartic : List (Bool × Coupling)
  after : Str

/-- The sections of a file, in their order. -/
def Op.sections (f : Op) : List Section :=
  [{ mark := c!"#        ", header := c!"Frequencies", rest := c!" "
     body := [c!"# ------------------------ ", []] ++
      f.frequencies.zipIdx.map (fun p => line (c!"w" ++ twoDigits (p.2 + 1)) p.1.text p.1.sp) ++ [[]] },
   { mark := c!"#        ", header := c!"Zeropoint energy", rest := f.zeroPoint, body := [[]] },
   { mark := c!"#   ", header := c!"Electronic Hamitonian", rest := c!" "
     body := [c!"#   Vertical energies - Zeropoint ", c!"# ------------------------------- ", []] ++
      f.energies.zipIdx.map (fun p => line (c!"EH_s" ++ twoDigits (p.2 + 1) ++ c!"_s" ++ twoDigits (p.2 + 1))
        p.1.text p.1.sp) ++ [[]] },
   { mark := c!"#     ", header := c!"Electronic transition moments", rest := c!" ", body := f.moments },
   { mark := c!"#  ", header := c!"Linear Coupling Constants", rest := c!" "
     body := [c!"# -------------------------- ", []] ++ f.linear.map (single c!"C1") ++ [[]] },
   { mark := c!"#  ", header := c!"Diagonal Quadratic Coupling Constants", rest := c!" "
     body := [c!"# -------------------------------------- ", []] ++ f.diagonal.map (double c!"C2") ++
      [[], c!"# Off_diagonal Quadratic Coupling Constants ", c!"# ----------------------------------------- ", []] ++
      f.offDiagonal.map (double c!"C2") ++ [[]] },
   { mark := c!"#  ", header := c!"Cubic Coupling Constants", rest := c!" "
     body := [c!"# -------------------------- ", []] ++ f.cubic.map (single c!"C3") ++ [[]] },
   { mark := c!"#  ", header := c!"Quartic Coupling Constants", rest := c!" "
     body := [c!"# -------------------------- ", []] ++ f.quartic.map (single c!"C4") ++ [[]] },
   { mark := c!"#  ", header := c!"Bi-Cubic Constants", rest := c!" "
     body := [c!"# -------------------------- ", []] ++ f.bicubic.map (double c!"B3") ++ [[]] },
   { mark := c!"#  ", header := c!"Bi-Quartic Constants", rest := c!" "
     body := [c!"# -------------------------- ", []] ++
      f.biquartic.map (fun p => double (if p.1 then c!"A4" else c!"B4") p.2) ++ [[]] },
   { mark := [], header := c!"end-parameter-section", rest := [], body := [] }]

/-- The text of a file. -/
def Op.text (f : Op) : Str := terminated (f.before ++ f.sections.flatMap Section.lines) ++ f.after

/-- The headers of the sections. -/
def headers : List Str :=
  [c!"Frequencies", c!"Zeropoint energy", c!"Electronic Hamitonian", c!"Electronic transition moments",
   c!"Linear Coupling Constants", c!"Diagonal Quadratic Coupling Constants", c!"Cubic Coupling Constants",
   c!"Quartic Coupling Constants", c!"Bi-Cubic Constants", c!"Bi-Quartic Constants", c!"end-parameter-section"]

/-- The characters of a number. -/
def numeral : Str := c!"0123456789+-.eE"

/-- The text of a number that `num` understands. -/
def IsNumber {K : Type} (num : Str → Option K) (s : Str) : Prop :=
  s ≠ [] ∧ (∀ c ∈ s, c ∈ numeral) ∧ num s ≠ none

/-- All values of a file. -/
def Op.values (f : Op) : List Value :=
  f.frequencies ++ f.energies ++
    (f.linear ++ f.diagonal ++ f.offDiagonal ++ f.cubic ++ f.quartic ++ f.bicubic ++ f.biquartic.map (·.2)).map
      (·.value)

/-- The terms of the potential that a file lists: the parameter, the modes, the surfaces and the text of
the value. -/
def Op.terms (f : Op) : List (ModelIO.Key × List Nat × Nat × Nat × Str) :=
  f.linear.map (fun c => (.G1, [c.i], c.a, c.b, c.value.text)) ++
  (f.diagonal ++ f.offDiagonal).map (fun c => (.G2, [c.i, c.j], c.a, c.b, c.value.text)) ++
  f.cubic.map (fun c => (.G3, [c.i, c.i, c.i], c.a, c.b, c.value.text)) ++
  f.bicubic.map (fun c => (.G3, [c.i, c.j, c.j], c.a, c.b, c.value.text)) ++
  f.quartic.map (fun c => (.G4, [c.i, c.i, c.i, c.i], c.a, c.b, c.value.text)) ++
  f.biquartic.map (fun p =>
    (.G4, if p.1 then [p.2.i, p.2.i, p.2.j, p.2.j] else [p.2.i, p.2.j, p.2.j, p.2.j], p.2.a, p.2.b, p.2.value.text))

/-- A file that lists each coupling once, in the upper triangle of the surfaces and, for quadratic
couplings, in the lower triangle of the modes; everything is within the numbers of modes and
surfaces, which are those of the frequencies and energies; the free text does not look like a header;
there is at least one mode and one surface. -/
structure Op.Ok {K : Type} (num : Str → Option K) (f : Op) : Prop where
  free : ∀ l ∈ f.before ++ f.moments, '\n' ∉ l ∧ ∀ h ∈ headers, ¬ h <:+: l
  zeroPoint : ∀ c ∈ f.zeroPoint, c = ' ' ∨ c ∈ numeral
  numbers : ∀ v ∈ f.values, IsNumber num v.text
  modes : f.frequencies ≠ []
  surfaces : f.energies ≠ []
  inside : ∀ t ∈ f.terms, (∀ i ∈ t.2.1, i < f.frequencies.length) ∧ t.2.2.1 ≤ t.2.2.2.1 ∧
    t.2.2.2.1 < f.energies.length
  lower : ∀ c ∈ f.diagonal ++ f.offDiagonal, c.j ≤ c.i
  once : (f.terms.map fun t => (t.1, t.2.1, t.2.2.1, t.2.2.2.1)).Nodup

/-- The file lists a coupling with the text `s` for the position `idx`, `a`, `b`: at this position or,
because couplings are listed once, at the one with exchanged surfaces; the two modes of a quadratic
coupling may be exchanged as well. -/
def Op.Lists (f : Op) (k : ModelIO.Key) (idx : List Nat) (a b : Nat) (s : Str) : Prop :=
  ∃ idx' a' b', (k, idx', a', b', s) ∈ f.terms ∧ (idx' = idx ∨ k = .G2 ∧ idx' = idx.reverse) ∧
    (a' = a ∧ b' = b ∨ a' = b ∧ b' = a)

/-- The dictionary `d` is the model in the file, except that the couplings `k` of the surfaces `a`, `b`
are multiplied by `scale k a b`. -/
structure Op.ReadAs {K : Type} [Field K] (num : Str → Option K) (f : Op) (scale : ModelIO.Key → Nat → Nat → K)
    (d : ModelIO.Dict K) : Prop where
  modes : d.N = some f.frequencies.length
  surfaces : d.A = some f.energies.length
  frequency : ∀ i v x, f.frequencies[i]? = some v → num v.text = some x → Spec.ModelIO.entry d .w [i] = x
  energy : ∀ a v x, f.energies[a]? = some v → num v.text = some x → Spec.ModelIO.entry d .E [a, a] = x
  noMixing : ∀ a b, a ≠ b → Spec.ModelIO.entry d .E [a, b] = 0
  listed : ∀ k idx a b s x, f.Lists k idx a b s → num s = some x →
    Spec.ModelIO.entry d k (idx ++ [a, b]) = scale k a b * x
  rest : ∀ k idx a b, k ≠ .w → k ≠ .E → idx.length = Spec.ModelIO.order k → (∀ s, ¬ f.Lists k idx a b s) →
    Spec.ModelIO.entry d k (idx ++ [a, b]) = 0

/-- The dictionary `d` is the model in the file. -/
def Op.Faithful {K : Type} [Field K] (num : Str → Option K) (f : Op) (d : ModelIO.Dict K) : Prop :=
  f.ReadAs num (fun _ _ _ => 1) d

/-- Two numbers are equal to numpy's precision. -/
def Near {K : Type} [Field K] [LinearOrder K] (x y : K) : Prop := |x - y| ≤ 1 / 10 ^ 8 + 1 / 10 ^ 5 * |y|

/-- A name made of the given pieces, each followed by at least one digit, and nothing else: with the
pieces `C1_s`, `_s` and `_v` for instance `C1_s01_s02_v03`. -/
def Named : List Str → Str → Prop
  | [], name => name = []
  | piece :: pieces, name => ∃ digits rest, name = piece ++ digits ++ rest ∧ digits ≠ [] ∧
      (∀ c ∈ digits, c ∈ c!"0123456789") ∧ Named pieces rest

end Pibronic.Spec.OpFile
