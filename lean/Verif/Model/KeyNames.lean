import Verif.Model.ModelIO

set_option autoImplicit false

/-!
Model of the two conversions of dictionary keys in `pibronic/vibronic/vibronic_model_keys.py`.  The
dictionaries are changed in place: a conversion is the dictionary it leaves, and the exception if it
raises one.  Dictionaries are lists of items in their order, with distinct keys.
-/
namespace Pibronic.KeyNames
open Py

/-- vibronic_model_keys.py:9-27: the members of the enumeration (the short names are aliases). -/
inductive Member where
  | N | A | E | w | G1 | G2 | G3 | G4
  deriving DecidableEq, Repr

/-- All members. -/
def Member.all : List Member := [.N, .A, .E, .w, .G1, .G2, .G3, .G4]

/-- vibronic_model_keys.py:9-18 `member.value` -/
def Member.value : Member → Str
  | .N => c!"number of modes"
  | .A => c!"number of surfaces"
  | .E => c!"energies"
  | .w => c!"frequencies"
  | .G1 => c!"linear couplings"
  | .G2 => c!"quadratic couplings"
  | .G3 => c!"cubic couplings"
  | .G4 => c!"quartic couplings"

/-- A key of a dictionary: a text or a member of the enumeration. -/
inductive PKey where
  | text (s : Str)
  | member (m : Member)
  deriving DecidableEq, Repr

variable {V : Type}

/-- A dictionary in the order of its items. -/
abbrev PDict (V : Type) : Type := List (PKey × V)

/-- `d[key] = value`: the place of an existing key is kept, a new key comes last. -/
def put (key : PKey) (value : V) : PDict V → PDict V
  | [] => [(key, value)]
  | (k, v) :: rest => if k = key then (k, value) :: rest else (k, v) :: put key value rest

/-- `del d[key]` of an existing key -/
def del (key : PKey) : PDict V → PDict V
  | [] => []
  | (k, v) :: rest => if k = key then rest else (k, v) :: del key rest

/-- `cls(key)`: a member is its own value, any other text is a `ValueError`. -/
def lookupMember : PKey → Except Err Member
  | .member m => .ok m
  | .text s =>
    match Member.all.find? fun m => m.value == s with
    | some m => .ok m
    | none => .error .value

/-- The versions of Python differ in `text in cls`. -/
inductive Version where
  /-- up to 3.7: `False` -/
  | old
  /-- 3.8 to 3.11: `TypeError` -/
  | strict
  /-- from 3.12: whether the text is the value of a member -/
  | recent
  deriving DecidableEq, Repr

/-- `key in cls` -/
def isMember (ver : Version) : PKey → Except Err Bool
  | .member _ => .ok true
  | .text s =>
    match ver with
    | .old => .ok false
    | .strict => .error .type
    | .recent => .ok (Member.all.any fun m => m.value == s)

/-- `key.value` -/
def valueOf : PKey → Except Err Str
  | .member m => .ok m.value
  | .text _ => .error .attribute

/-- vibronic_model_keys.py:37-43 `change_dictionary_keys_from_strings_to_enum_members`: the loop over
the items that the dictionary had at the start. -/
def toMembersLoop : PDict V → PDict V → PDict V × Option Err
  | [], d => (d, none)
  | (key, value) :: items, d =>
    match lookupMember key with
    | .error e => (d, some e)
    | .ok m => toMembersLoop items (del key (put (.member m) value d))

@[inherit_doc toMembersLoop]
def toMembers (d : PDict V) : PDict V × Option Err := toMembersLoop d d

/-- vibronic_model_keys.py:28-35 `change_dictionary_keys_from_enum_members_to_strings` -/
def toStringsLoop (ver : Version) : PDict V → PDict V → PDict V × Option Err
  | [], d => (d, none)
  | (key, value) :: items, d =>
    match isMember ver key with
    | .error e => (d, some e)
    | .ok false => toStringsLoop ver items d
    | .ok true =>
      match valueOf key with
      | .error e => (d, some e)
      | .ok s => toStringsLoop ver items (del key (put (.text s) value d))

@[inherit_doc toStringsLoop]
def toStrings (ver : Version) (d : PDict V) : PDict V × Option Err := toStringsLoop ver d d

/-- vibronic_model_keys.py:45-49 `key_list` -/
def keyList : List Member := [.E, .G1, .G2, .G3, .G4]

end Pibronic.KeyNames
