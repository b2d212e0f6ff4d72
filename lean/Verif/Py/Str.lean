
set_option autoImplicit false
/-!
The Python built-ins on strings that the modelled code uses.  Strings are `List Char`.

These definitions model CPython's documented behaviour; they are part of the trusted base.
-/
namespace Pibronic.Py

/-- Python strings -/
abbrev Str := List Char

/-- Exceptions the modelled code can raise. -/
inductive Err where
  | assertion | value | key | index | type | attribute | os | name | broadcast | exception | unbound
  | zeroDivision
  deriving DecidableEq, Repr

/-- Does `s` begin with `p`?  If so, the rest (used by `find`). -/
def dropPrefix : Str → Str → Option Str
  | [], s => some s
  | _ :: _, [] => none
  | c :: p, d :: s => if c = d then dropPrefix p s else none

/-- First occurrence of `sep` in `s`: the text before it and after it (`str.find`/`str.split`). -/
def find (sep : Str) : Str → Option (Str × Str)
  | [] => (dropPrefix sep []).map fun r => ([], r)
  | c :: s =>
    match dropPrefix sep (c :: s) with
    | some r => some ([], r)
    | none => (find sep s).map fun pr => (c :: pr.1, pr.2)

theorem dropPrefix_eq {p s r : Str} (h : dropPrefix p s = some r) : s = p ++ r := by
  induction p generalizing s with
  | nil => simp only [dropPrefix, Option.some.injEq] at h; simp [h]
  | cons c p ih =>
    cases s with
    | nil => simp [dropPrefix] at h
    | cons d s =>
      simp only [dropPrefix] at h
      split at h
      · next hcd => rw [ih h, hcd]; rfl
      · cases h

theorem find_eq {sep s a b : Str} (h : find sep s = some (a, b)) : s = a ++ sep ++ b := by
  induction s generalizing a with
  | nil =>
    simp only [find, Option.map_eq_some_iff, Prod.mk.injEq] at h
    obtain ⟨r, hr, rfl, rfl⟩ := h
    simpa using dropPrefix_eq hr
  | cons c s ih =>
    simp only [find] at h
    split at h
    · next r hr =>
      simp only [Option.some.injEq, Prod.mk.injEq] at h
      obtain ⟨rfl, rfl⟩ := h
      simpa using dropPrefix_eq hr
    · simp only [Option.map_eq_some_iff, Prod.mk.injEq] at h
      obtain ⟨pr, hpr, rfl, rfl⟩ := h
      have := ih hpr
      simp [this]

/-- `s.split(sep)` for a non-empty separator (for an empty one Python raises; the model returns
`[s]`, and is never used that way). -/
def split (sep : Str) (s : Str) : List Str :=
  match sep with
  | [] => [s]
  | c :: cs =>
    match _h : find (c :: cs) s with
    | none => [s]
    | some (a, b) => a :: split (c :: cs) b
termination_by s.length
decreasing_by
  have := find_eq _h
  simp [this]; omega

/-- `l[i]` for a list and a non-negative index: `IndexError` when out of range. -/
def item {α : Type} (l : List α) (i : Nat) : Except Err α :=
  match l[i]? with
  | some x => .ok x
  | none => .error .index

/-- `s.replace(old, new)` for a one-character `old`. -/
def replaceChar (old : Char) (new : Char) (s : Str) : Str := s.map fun c => if c = old then new else c

/-- the decimal digit `d < 10` -/
def digit (d : Nat) : Char := Char.ofNat (48 + d)

/-- `"{:d}".format(n)` / `str(n)` for a non-negative int. -/
def natStr (n : Nat) : Str :=
  if n < 10 then [digit n] else natStr (n / 10) ++ [digit (n % 10)]
termination_by n
decreasing_by omega

/-- value of a digit character -/
def digitVal (c : Char) : Option Nat :=
  if 48 ≤ c.toNat ∧ c.toNat ≤ 57 then some (c.toNat - 48) else none

/-- value of a string of digits, continuing with accumulator `acc` -/
def digitsVal : Nat → Str → Option Nat
  | acc, [] => some acc
  | acc, c :: s => match digitVal c with
    | some d => digitsVal (acc * 10 + d) s
    | none => none

/-- white space (ASCII) -/
def isSpace (c : Char) : Bool :=
  c == ' ' || c == '\n' || c == '\t' || c == '\r' || c == '\x0b' || c == '\x0c'

/-- `s.strip()` (ASCII) -/
def stripWs (s : Str) : Str := ((s.dropWhile isSpace).reverse.dropWhile isSpace).reverse

/-- The value of digits with single underscores between them, continuing with accumulator `acc`;
`gap`: the next character has to be a digit (at the beginning and after an underscore). -/
def scanDigits : Bool → Nat → Str → Option Nat
  | gap, acc, [] => if gap then none else some acc
  | gap, acc, c :: s =>
    if c = '_' then (if gap then none else scanDigits true acc s)
    else match digitVal c with
      | some d => scanDigits false (acc * 10 + d) s
      | none => none

/-- The value of a text of digits with single underscores between them. -/
def unsignedVal (s : Str) : Option Nat := scanDigits true 0 s

/-- `int(s)`: white space around, a sign, digits with single underscores between them.
Simplification: digits and white space outside ASCII are errors in the model. -/
def pyIntSigned (s : Str) : Except Err Int :=
  match stripWs s with
  | [] => .error .value
  | c :: t =>
    if c = '-' then
      match unsignedVal t with
      | some n => .ok (-(n : Int))
      | none => .error .value
    else
      match unsignedVal (if c = '+' then t else c :: t) with
      | some n => .ok n
      | none => .error .value

/-- `int(s)` where the program only meets numbers that are not negative.  Simplification: a negative
number is an error in the model. -/
def pyInt (s : Str) : Except Err Nat :=
  match pyIntSigned s with
  | .ok (.ofNat n) => .ok n
  | .ok (.negSucc _) => .error .value
  | .error e => .error e

/-- `"{:.2f}".format(T)`.  A temperature `t` is a number of hundredths of a kelvin: what `"{T:.2f}"`
shows of the float.  Simplification: the float is identified with its value rounded to two
decimals. -/
def tempStr (t : Nat) : Str := natStr (t / 100) ++ '.' :: digit (t / 10 % 10) :: [digit (t % 10)]

/-- `float(s)` for texts of the form digits, dot, two digits; anything else is an error in the
model (Python accepts more; the modelled code only meets texts written by `tempStr`). -/
def pyFloat2 (s : Str) : Except Err Nat :=
  match find ['.'] s with
  | some (a, [c, d]) => do
    let n ← pyInt a
    match digitVal c, digitVal d with
    | some x, some y => .ok (n * 100 + x * 10 + y)
    | _, _ => .error .value
  | _ => .error .value

/-- `glob`-style matching of a path with `*` as the only magic character; `*` does not cross a
directory separator (simplification: `?` and `[..]` do not occur in the patterns the code builds;
`glob`'s rule about leading dots is irrelevant as no pattern component begins with `*`). -/
def globMatch : Str → Str → Bool
  | [], [] => true
  | [], _ :: _ => false
  | c :: p, s =>
    if c = '*' then
      globMatch p s || (match s with
        | [] => false
        | d :: s' => d != '/' && globMatch (c :: p) s')
    else match s with
      | [] => false
      | d :: s' => c == d && globMatch p s'
termination_by p s => p.length + s.length

/-! ### `str.format` with named fields -/

/-- A formatting argument. -/
inductive Arg where
  | int (n : Nat)
  | float (t : Nat)
  | str (s : Str)
  | none
  deriving DecidableEq, Repr

/-- `format(value, spec)` for the three specifications used: `d`, `.2f`, `s`; `None` only has the empty one. -/
def formatArg : Arg → Str → Except Err Str
  | .int n, ['d'] => .ok (natStr n)
  | .int n, ['.', '2', 'f'] => .ok (tempStr (100 * n))
  | .float t, ['.', '2', 'f'] => .ok (tempStr t)
  | .str s, ['s'] => .ok s
  | .str s, [] => .ok s
  | .none, [] => .ok ['N', 'o', 'n', 'e']
  | .none, _ => .error .type
  | _, _ => .error .value

/-- Split `name:spec}rest` at the closing brace. -/
def takeField : Str → Option (Str × Str)
  | [] => none
  | c :: s => if c = '}' then some ([], s) else (takeField s).map fun r => (c :: r.1, r.2)

theorem takeField_length {s a b : Str} (h : takeField s = some (a, b)) : b.length < s.length := by
  induction s generalizing a with
  | nil => simp [takeField] at h
  | cons c s ih =>
    simp only [takeField] at h
    split at h
    · simp only [Option.some.injEq, Prod.mk.injEq] at h; simp [h.2]
    · simp only [Option.map_eq_some_iff, Prod.mk.injEq] at h
      obtain ⟨r, hr, -, rfl⟩ := h
      have := ih hr
      simp; omega

/-- `template.format(**args)`: `{{`, `}}` are escapes, `{name:spec}` is replaced. -/
def format (args : Str → Option Arg) (s : Str) : Except Err Str :=
  match s with
  | [] => .ok []
  | '{' :: '{' :: s => do .ok ('{' :: (← format args s))
  | '}' :: '}' :: s => do .ok ('}' :: (← format args s))
  | '}' :: _ => .error .value
  | '{' :: s =>
    match _h : takeField s with
    | none => .error .value
    | some (field, rest) => do
      let (name, spec) := match find [':'] field with
        | some (n, sp) => (n, sp)
        | none => (field, [])
      match args name with
      | none => .error .key
      | some a => do
        let t ← formatArg a spec
        .ok (t ++ (← format args rest))
  | c :: s => do .ok (c :: (← format args s))
termination_by s.length
decreasing_by
  all_goals simp_wf
  all_goals try omega
  have := takeField_length _h
  omega

end Pibronic.Py
