import Verif.Py.Str
import Verif.Py.Chars

set_option autoImplicit false
/-!
Python's `json` module, as far as the modelled code uses it: `json.dumps` with compact separators
and the default `ensure_ascii=True`, and `json.loads`.

These definitions model CPython's documented behaviour (`json/encoder.py`, `json/decoder.py`,
`json/scanner.py`); they are part of the trusted base.
-/
namespace Pibronic.Py

/-- A Python value built from what `json` can represent.  A float is identified with its `repr`
(the text `json.dumps` writes for it; `float(repr(x)) == x` in Python), `float c!"NaN"`,
`float c!"Infinity"` and `float c!"-Infinity"` included.  A dictionary is the list of its items in
insertion order.  Simplification: dictionary keys are strings. -/
inductive Json where
  | null
  | bool (b : Bool)
  | int (z : Int)
  | float (tok : Str)
  | str (s : Str)
  | list (l : List Json)
  | dict (l : List (Str × Json))

/-! ### `json.dumps` -/

/-- the hexadecimal digit `d < 16`, lower case -/
def hexDigit (d : Nat) : Char := if d < 10 then Char.ofNat (48 + d) else Char.ofNat (87 + d)

/-- `'\\u{0:04x}'.format(n)` for `n < 65536` -/
def uEscape (n : Nat) : Str :=
  ['\\', 'u', hexDigit (n / 4096 % 16), hexDigit (n / 256 % 16), hexDigit (n / 16 % 16),
    hexDigit (n % 16)]

/-- How one character of a string is written (`py_encode_basestring_ascii`): characters outside
the printable ASCII range as `\uXXXX`, beyond the basic plane as a surrogate pair. -/
def encChar (c : Char) : Str :=
  if c = '"' then ['\\', '"']
  else if c = '\\' then ['\\', '\\']
  else if c.toNat = 10 then ['\\', 'n']
  else if c.toNat = 13 then ['\\', 'r']
  else if c.toNat = 9 then ['\\', 't']
  else if c.toNat = 12 then ['\\', 'f']
  else if c.toNat = 8 then ['\\', 'b']
  else if 32 ≤ c.toNat ∧ c.toNat ≤ 126 then [c]
  else if c.toNat < 65536 then uEscape c.toNat
  else uEscape (55296 + (c.toNat - 65536) / 1024) ++ uEscape (56320 + (c.toNat - 65536) % 1024)

/-- the body of a string -/
def encChars (s : Str) : Str := s.flatMap encChar

/-- a string with its quotation marks -/
def encStr (s : Str) : Str := '"' :: (encChars s ++ ['"'])

/-- `int.__repr__` -/
def intStr : Int → Str
  | .ofNat n => natStr n
  | .negSucc n => '-' :: natStr (n + 1)

mutual
/-- `json.dumps(v, separators=(sep, ":"))` -/
def dumps (sep : Char) : Json → Str
  | .null => c!"null"
  | .bool true => c!"true"
  | .bool false => c!"false"
  | .int z => intStr z
  | .float t => t
  | .str s => encStr s
  | .list [] => c!"[]"
  | .list (v :: l) => '[' :: (dumps sep v ++ dumpsItems sep l)
  | .dict [] => c!"{}"
  | .dict ((k, v) :: l) => '{' :: (encStr k ++ ':' :: (dumps sep v ++ dumpsPairs sep l))
/-- the items after the first one, and the closing bracket -/
def dumpsItems (sep : Char) : List Json → Str
  | [] => c!"]"
  | v :: l => sep :: (dumps sep v ++ dumpsItems sep l)
/-- the items after the first one, and the closing brace -/
def dumpsPairs (sep : Char) : List (Str × Json) → Str
  | [] => c!"}"
  | (k, v) :: l => sep :: (encStr k ++ ':' :: (dumps sep v ++ dumpsPairs sep l))
end

/-! ### `json.loads` -/

/-- white space between tokens: `[ \t\n\r]*` -/
def skipWs : Str → Str
  | [] => []
  | c :: s => if c = ' ' ∨ c = '\t' ∨ c = '\n' ∨ c = '\r' then skipWs s else c :: s

/-- value of a hexadecimal digit of either case -/
def hexVal (c : Char) : Option Nat :=
  if 48 ≤ c.toNat ∧ c.toNat ≤ 57 then some (c.toNat - 48)
  else if 97 ≤ c.toNat ∧ c.toNat ≤ 102 then some (c.toNat - 87)
  else if 65 ≤ c.toNat ∧ c.toNat ≤ 70 then some (c.toNat - 55)
  else none

/-- four hexadecimal digits -/
def hex4 (a b c d : Char) : Option Nat :=
  match hexVal a, hexVal b, hexVal c, hexVal d with
  | some w, some x, some y, some z => some (((w * 16 + x) * 16 + y) * 16 + z)
  | _, _, _, _ => none

/-- the one-character escapes (`BACKSLASH` in `json/decoder.py`) -/
def unescape (c : Char) : Option Char :=
  if c = '"' then some '"'
  else if c = '\\' then some '\\'
  else if c = '/' then some '/'
  else if c = 'b' then some (Char.ofNat 8)
  else if c = 'f' then some (Char.ofNat 12)
  else if c = 'n' then some (Char.ofNat 10)
  else if c = 'r' then some (Char.ofNat 13)
  else if c = 't' then some (Char.ofNat 9)
  else none

/-- The body of a string and its closing quotation mark (`scanstring`, strict): the decoded string
and the text after it.  Every failure is a `JSONDecodeError`, a `ValueError`.  Simplification: an
escape that denotes an unpaired surrogate is an error (Python yields a string that is not valid
Unicode; `json.dumps` never writes one for a valid string). -/
def scanStr : Str → Except Err (Str × Str)
  | [] => .error .value
  | '"' :: r => .ok ([], r)
  | '\\' :: 'u' :: a :: b :: c :: d :: r =>
    match hex4 a b c d with
    | none => .error .value
    | some n =>
      if 55296 ≤ n ∧ n ≤ 56319 then
        match r with
        | '\\' :: 'u' :: a' :: b' :: c' :: d' :: r' =>
          match hex4 a' b' c' d' with
          | none => .error .value
          | some m =>
            if 56320 ≤ m ∧ m ≤ 57343 then do
              let (s, rest) ← scanStr r'
              .ok (Char.ofNat (65536 + (n - 55296) * 1024 + (m - 56320)) :: s, rest)
            else .error .value
        | _ => .error .value
      else if 56320 ≤ n ∧ n ≤ 57343 then .error .value
      else do
        let (s, rest) ← scanStr r
        .ok (Char.ofNat n :: s, rest)
  | '\\' :: e :: r =>
    match unescape e with
    | none => .error .value
    | some c => do
      let (s, rest) ← scanStr r
      .ok (c :: s, rest)
  | c :: r =>
    if c.toNat < 32 then .error .value
    else if c = '\\' then .error .value
    else do
      let (s, rest) ← scanStr r
      .ok (c :: s, rest)
termination_by s => s.length

/-- is it one of `0`..`9`? -/
def isDig (c : Char) : Bool := (digitVal c).isSome

/-- `-?` -/
def splitMinus : Str → Str × Str
  | '-' :: r => (['-'], r)
  | s => ([], s)

/-- `[-+]?` -/
def splitSign : Str → Str × Str
  | '-' :: r => (['-'], r)
  | '+' :: r => (['+'], r)
  | s => ([], s)

/-- `(-?(?:0|[1-9]\d*))`: sign and integer part -/
def scanInt (s : Str) : Option (Str × Str × Str) :=
  match (splitMinus s).2 with
  | '0' :: r' => some ((splitMinus s).1, ['0'], r')
  | r =>
    match r.takeWhile isDig with
    | [] => none
    | ds => some ((splitMinus s).1, ds, r.dropWhile isDig)

/-- `(\.\d+)?` -/
def scanFrac (r : Str) : Str × Str :=
  match r with
  | '.' :: r' => match r'.takeWhile isDig with
    | [] => ([], r)
    | ds => ('.' :: ds, r'.dropWhile isDig)
  | _ => ([], r)

/-- `([eE][-+]?\d+)?` -/
def scanExp (r : Str) : Str × Str :=
  match r with
  | e :: r' =>
    if e = 'e' ∨ e = 'E' then
      match (splitSign r').2.takeWhile isDig with
      | [] => ([], r)
      | ds => (e :: ((splitSign r').1 ++ ds), (splitSign r').2.dropWhile isDig)
    else ([], r)
  | [] => ([], r)

/-- `_match_number`: an int when there is neither a fraction nor an exponent, a float otherwise. -/
def scanNumber (s : Str) : Except Err (Json × Str) :=
  match scanInt s with
  | none => .error .value
  | some (sign, ds, r) =>
    let fr := scanFrac r
    let ex := scanExp fr.2
    if fr.1 = [] ∧ ex.1 = [] then
      match digitsVal 0 ds with
      | some n => .ok (.int (if sign = ['-'] then -(n : Int) else n), ex.2)
      | none => .error .value
    else .ok (.float (sign ++ ds ++ fr.1 ++ ex.1), ex.2)

/-- `d[k] = v` on the list of items of a dictionary: a new key goes last, an old one keeps its
place. -/
def dictSet (k : Str) (v : Json) : List (Str × Json) → List (Str × Json)
  | [] => [(k, v)]
  | (k', v') :: l => if k' = k then (k', v) :: l else (k', v') :: dictSet k v l

/-- `dict(pairs)` -/
def dictOf (ps : List (Str × Json)) : List (Str × Json) :=
  ps.foldl (fun d p => dictSet p.1 p.2 d) []

/-- the tokens that are neither strings, objects nor arrays -/
def scanAtom (s : Str) : Except Err (Json × Str) :=
  match dropPrefix c!"null" s with
  | some r => .ok (.null, r)
  | none => match dropPrefix c!"true" s with
  | some r => .ok (.bool true, r)
  | none => match dropPrefix c!"false" s with
  | some r => .ok (.bool false, r)
  | none => match dropPrefix c!"NaN" s with
  | some r => .ok (.float c!"NaN", r)
  | none => match dropPrefix c!"Infinity" s with
  | some r => .ok (.float c!"Infinity", r)
  | none => match dropPrefix c!"-Infinity" s with
  | some r => .ok (.float c!"-Infinity", r)
  | none => scanNumber s

mutual
/-- `scan_once`.  The first argument bounds the number of nested calls; `loads` gives more than
there are characters, and every call consumes one. -/
def scanValue : Nat → Str → Except Err (Json × Str)
  | 0, _ => .error .value
  | n + 1, s =>
    match s with
    | '"' :: r => do
      let (t, rest) ← scanStr r
      .ok (.str t, rest)
    | '[' :: r =>
      match skipWs r with
      | ']' :: r' => .ok (.list [], r')
      | r' => do
        let (l, rest) ← scanItems n r'
        .ok (.list l, rest)
    | '{' :: r =>
      match skipWs r with
      | '}' :: r' => .ok (.dict [], r')
      | r' => do
        let (l, rest) ← scanPairs n r'
        .ok (.dict (dictOf l), rest)
    | _ => scanAtom s
/-- the items of an array (`JSONArray`) -/
def scanItems : Nat → Str → Except Err (List Json × Str)
  | 0, _ => .error .value
  | n + 1, s => do
    let (v, r) ← scanValue n s
    match skipWs r with
    | ']' :: r' => .ok ([v], r')
    | ',' :: r' => do
      let (l, rest) ← scanItems n (skipWs r')
      .ok (v :: l, rest)
    | _ => .error .value
/-- the items of an object (`JSONObject`) -/
def scanPairs : Nat → Str → Except Err (List (Str × Json) × Str)
  | 0, _ => .error .value
  | n + 1, s =>
    match s with
    | '"' :: r => do
      let (k, r1) ← scanStr r
      match skipWs r1 with
      | ':' :: r2 => do
        let (v, r3) ← scanValue n (skipWs r2)
        match skipWs r3 with
        | '}' :: r' => .ok ([(k, v)], r')
        | ',' :: r' => do
          let (l, rest) ← scanPairs n (skipWs r')
          .ok ((k, v) :: l, rest)
        | _ => .error .value
      | _ => .error .value
    | _ => .error .value
end

/-- `json.loads(text)`: one value with nothing but white space around it. -/
def loads (text : Str) : Except Err Json := do
  let (v, rest) ← scanValue (text.length + 1) (skipWs text)
  match skipWs rest with
  | [] => .ok v
  | _ => .error .value

/-- `d[k]` -/
def dictGet (k : Str) : List (Str × Json) → Except Err Json
  | [] => .error .key
  | (k', v) :: l => if k' = k then .ok v else dictGet k l

/-- `k in d` -/
def dictHas (k : Str) (d : List (Str × Json)) : Bool := d.any fun p => p.1 == k

end Pibronic.Py
