import Verif.Py.Json
import Verif.Lemmas.Str
import Mathlib.Tactic.IntervalCases

set_option autoImplicit false

/-! `json.loads (json.dumps v) = v`. -/
namespace Pibronic.Py

/-! ### the values for which the text determines the value -/

/-- integer part of a number: `0`, or digits that do not begin with `0` -/
def IntPart (s : Str) : Prop :=
  s = ['0'] ∨ ∃ c ds, s = c :: ds ∧ c ≠ '0' ∧ ∀ x ∈ s, isDig x = true

/-- the texts `float.__repr__` produces: an integer part with a fraction or an exponent or both, and
the three special values as `json` writes them -/
def FloatTok (t : Str) : Prop :=
  t = c!"NaN" ∨ t = c!"Infinity" ∨ t = c!"-Infinity" ∨
  ∃ sign ip fp ep, t = sign ++ ip ++ fp ++ ep ∧ (sign = [] ∨ sign = ['-']) ∧ IntPart ip ∧
    (fp = [] ∨ ∃ ds, ds ≠ [] ∧ (∀ x ∈ ds, isDig x = true) ∧ fp = '.' :: ds) ∧
    (ep = [] ∨ ∃ sg ds, (sg = ['-'] ∨ sg = ['+']) ∧ ds ≠ [] ∧ (∀ x ∈ ds, isDig x = true) ∧
      ep = 'e' :: (sg ++ ds)) ∧
    (fp ≠ [] ∨ ep ≠ [])

mutual
/-- a value Python can hold: floats are `repr` texts and no dictionary has a key twice -/
def Json.Valid : Json → Prop
  | .null => True
  | .bool _ => True
  | .int _ => True
  | .float t => FloatTok t
  | .str _ => True
  | .list l => validItems l
  | .dict l => (l.map Prod.fst).Nodup ∧ validPairs l
def validItems : List Json → Prop
  | [] => True
  | v :: l => v.Valid ∧ validItems l
def validPairs : List (Str × Json) → Prop
  | [] => True
  | (_, v) :: l => v.Valid ∧ validPairs l
end

/-! ### strings -/

theorem hexVal_hexDigit {d : Nat} (h : d < 16) : hexVal (hexDigit d) = some d := by
  have : ∀ d : Fin 16, hexVal (hexDigit d) = some d.1 := by decide
  exact this ⟨d, h⟩

theorem hex4_digits (n : Nat) (h : n < 65536) :
    hex4 (hexDigit (n / 4096 % 16)) (hexDigit (n / 256 % 16)) (hexDigit (n / 16 % 16))
      (hexDigit (n % 16)) = some n := by
  simp only [hex4, hexVal_hexDigit (Nat.mod_lt _ (by norm_num : 16 > 0)), Option.some.injEq]
  omega

theorem char_ofNat_toNat (c : Char) : Char.ofNat c.toNat = c := Char.ofNat_toNat c

theorem char_valid (c : Char) : c.toNat < 55296 ∨ (57343 < c.toNat ∧ c.toNat < 1114112) := c.valid

theorem scanStr_u (n : Nat) (t : Str) (h : n < 65536) (hs : ¬ (55296 ≤ n ∧ n ≤ 57343)) :
    scanStr (uEscape n ++ t) = (scanStr t).map fun p => (Char.ofNat n :: p.1, p.2) := by
  simp only [uEscape, List.cons_append, List.nil_append]
  rw [scanStr, hex4_digits n h]
  dsimp only
  rw [if_neg (by omega), if_neg (by omega)]
  cases scanStr t <;> rfl

theorem scanStr_uu (n m : Nat) (t : Str) (h : 55296 ≤ n ∧ n ≤ 56319) (hm : 56320 ≤ m ∧ m ≤ 57343) :
    scanStr (uEscape n ++ (uEscape m ++ t)) = (scanStr t).map fun p =>
      (Char.ofNat (65536 + (n - 55296) * 1024 + (m - 56320)) :: p.1, p.2) := by
  simp only [uEscape, List.cons_append, List.nil_append]
  rw [scanStr, hex4_digits n (by omega)]
  dsimp only
  rw [if_pos h]
  simp only [hex4_digits m (show m < 65536 by omega)]
  rw [if_pos hm]
  cases scanStr t <;> rfl

theorem scanStr_escape (e c : Char) (t : Str) (he : unescape e = some c) (hu : e ≠ 'u') :
    scanStr ('\\' :: e :: t) = (scanStr t).map fun p => (c :: p.1, p.2) := by
  rw [scanStr, he]
  · dsimp only
    cases scanStr t <;> rfl
  · intro a b c' d r h; simp_all

theorem scanStr_plain (c : Char) (t : Str) (h1 : c ≠ '"') (h2 : c ≠ '\\') (h3 : ¬ c.toNat < 32) :
    scanStr (c :: t) = (scanStr t).map fun p => (c :: p.1, p.2) := by
  rw [scanStr]
  · rw [if_neg h3, if_neg h2]
    cases scanStr t <;> rfl
  all_goals simp_all

theorem scanStr_encChar (c : Char) (t : Str) :
    scanStr (encChar c ++ t) = (scanStr t).map fun p => (c :: p.1, p.2) := by
  have hc := char_ofNat_toNat c
  unfold encChar
  split
  · next h => subst h; exact scanStr_escape _ _ t (by decide) (by decide)
  split
  · next h => subst h; exact scanStr_escape _ _ t (by decide) (by decide)
  split
  · next h => rw [h] at hc; rw [← hc]; exact scanStr_escape _ _ t (by decide) (by decide)
  split
  · next h => rw [h] at hc; rw [← hc]; exact scanStr_escape _ _ t (by decide) (by decide)
  split
  · next h => rw [h] at hc; rw [← hc]; exact scanStr_escape _ _ t (by decide) (by decide)
  split
  · next h => rw [h] at hc; rw [← hc]; exact scanStr_escape _ _ t (by decide) (by decide)
  split
  · next h => rw [h] at hc; rw [← hc]; exact scanStr_escape _ _ t (by decide) (by decide)
  split
  · next h1 h2 _ _ _ _ _ h => exact scanStr_plain c t h1 h2 (by omega)
  have hv := char_valid c
  split
  · next h => rw [scanStr_u _ _ h (by omega), hc]
  · next h =>
    rw [List.append_assoc, scanStr_uu _ _ _ (by omega) (by omega)]
    have : 65536 + (55296 + (c.toNat - 65536) / 1024 - 55296) * 1024 +
        (56320 + (c.toNat - 65536) % 1024 - 56320) = c.toNat := by omega
    rw [this, hc]

/-- A string is read back from the text written for it. -/
theorem scanStr_encChars (s rest : Str) : scanStr (encChars s ++ '"' :: rest) = .ok (s, rest) := by
  induction s with
  | nil => simp only [encChars, List.flatMap_nil, List.nil_append]; rw [scanStr]
  | cons c s ih =>
    simp only [encChars, List.flatMap_cons, List.append_assoc] at ih ⊢
    rw [scanStr_encChar, ih]; rfl

/-! ### numbers -/

/-- the text after a number does not continue it -/
def Stop (rest : Str) : Prop :=
  ∀ c ∈ rest.head?, isDig c = false ∧ c ≠ '.' ∧ c ≠ 'e' ∧ c ≠ 'E'

theorem takeWhile_dig {ds rest : Str} (hd : ∀ x ∈ ds, isDig x = true)
    (hr : ∀ c ∈ rest.head?, isDig c = false) :
    (ds ++ rest).takeWhile isDig = ds ∧ (ds ++ rest).dropWhile isDig = rest := by
  induction ds with
  | nil =>
    cases rest with
    | nil => simp
    | cons c r => simp [hr c (by simp)]
  | cons d ds ih =>
    have h1 := hd d (by simp)
    have h2 := ih (fun x hx => hd x (by simp [hx]))
    simp [h1, h2]

theorem isDig_of_isDigit {c : Char} (h : IsDigit c) : isDig c = true := by
  unfold IsDigit at h; unfold isDig
  cases hd : digitVal c with
  | none => exact absurd hd h
  | some v => rfl

theorem natStr_head (n : Nat) (hn : 0 < n) : ∃ c ds, natStr n = c :: ds ∧ c ≠ '0' := by
  induction n using Nat.strongRecOn with
  | _ n ih =>
    rw [natStr]
    split
    · next h => exact ⟨_, _, rfl, by
        have : ∀ d : Fin 10, 0 < d.1 → digit d ≠ '0' := by decide
        exact this ⟨n, h⟩ hn⟩
    · next h =>
      obtain ⟨c, ds, h1, h2⟩ := ih (n / 10) (by omega) (by omega)
      exact ⟨c, ds ++ [digit (n % 10)], by rw [h1]; rfl, h2⟩

theorem natStr_intPart (n : Nat) : IntPart (natStr n) := by
  rcases Nat.eq_zero_or_pos n with rfl | h
  · left; rw [natStr]; decide
  · obtain ⟨c, ds, h1, h2⟩ := natStr_head n h
    exact .inr ⟨c, ds, h1, h2, fun x hx => isDig_of_isDigit (natStr_isDigit n x hx)⟩

theorem IntPart.cons {s : Str} (h : IntPart s) : ∃ c ds, s = c :: ds ∧ isDig c = true := by
  rcases h with rfl | ⟨c, ds, rfl, _, h⟩
  · exact ⟨_, _, rfl, by decide⟩
  · exact ⟨c, ds, rfl, h c (by simp)⟩

theorem isDig_ne {c d : Char} (h : isDig c = true) (hd : isDig d = false) : c ≠ d := by
  rintro rfl; rw [h] at hd; cases hd

theorem scanInt_eq {sign ip rest : Str} (hs : sign = [] ∨ sign = ['-']) (hi : IntPart ip)
    (hr : ∀ c ∈ rest.head?, isDig c = false) :
    scanInt (sign ++ ip ++ rest) = some (sign, ip, rest) := by
  have key : ∀ sg : Str, (match ip ++ rest with
      | '0' :: r' => some (sg, ['0'], r')
      | r => match r.takeWhile isDig with
        | [] => none
        | ds => some (sg, ds, r.dropWhile isDig)) = some (sg, ip, rest) := by
    intro sg
    rcases hi with rfl | ⟨c, ds, rfl, hc, hd⟩
    · rfl
    · have h := takeWhile_dig hd hr
      split
      · next h0 => simp only [List.cons_append, List.cons.injEq] at h0; exact absurd h0.1 hc
      · rw [h.1, h.2]
  have hm : splitMinus (sign ++ ip ++ rest) = (sign, ip ++ rest) := by
    rcases hs with rfl | rfl
    · obtain ⟨c, ds, h1, h2⟩ := hi.cons
      have hne : c ≠ '-' := isDig_ne h2 (by decide)
      rw [h1]
      simp only [List.nil_append, List.cons_append]
      rw [splitMinus]
      intro r h0
      simp only [List.cons.injEq] at h0
      exact hne h0.1
    · rfl
  unfold scanInt
  rw [hm]
  exact key sign

theorem scanFrac_nil {r : Str} (h : ∀ c ∈ r.head?, c ≠ '.') : scanFrac r = ([], r) := by
  unfold scanFrac
  split
  · simp at h
  · rfl

theorem scanFrac_eq {ds r : Str} (h0 : ds ≠ []) (hd : ∀ x ∈ ds, isDig x = true)
    (hr : ∀ c ∈ r.head?, isDig c = false) : scanFrac ('.' :: (ds ++ r)) = ('.' :: ds, r) := by
  unfold scanFrac
  simp only
  rw [(takeWhile_dig hd hr).1, (takeWhile_dig hd hr).2]
  cases ds with
  | nil => exact absurd rfl h0
  | cons d ds => rfl

theorem scanExp_nil {r : Str} (h : ∀ c ∈ r.head?, c ≠ 'e' ∧ c ≠ 'E') : scanExp r = ([], r) := by
  unfold scanExp
  cases r with
  | nil => rfl
  | cons c r => simp only [List.head?_cons, Option.mem_some_iff, forall_eq'] at h; simp [h.1, h.2]

theorem scanExp_eq {sg ds r : Str} (hs : sg = ['-'] ∨ sg = ['+']) (h0 : ds ≠ [])
    (hd : ∀ x ∈ ds, isDig x = true) (hr : ∀ c ∈ r.head?, isDig c = false) :
    scanExp ('e' :: (sg ++ ds ++ r)) = ('e' :: (sg ++ ds), r) := by
  unfold scanExp
  simp only
  rw [if_pos (by simp)]
  rcases hs with rfl | rfl <;> simp only [List.cons_append, List.nil_append, splitSign] <;>
    rw [(takeWhile_dig hd hr).1, (takeWhile_dig hd hr).2] <;>
    (cases ds with
      | nil => exact absurd rfl h0
      | cons d ds => rfl)

theorem scanNumber_int (z : Int) (rest : Str) (hr : Stop rest) :
    scanNumber (intStr z ++ rest) = .ok (.int z, rest) := by
  have hf : scanFrac rest = ([], rest) := scanFrac_nil fun c hc => (hr c hc).2.1
  have he : scanExp rest = ([], rest) := scanExp_nil fun c hc => (hr c hc).2.2
  have hd : ∀ c ∈ rest.head?, isDig c = false := fun c hc => (hr c hc).1
  cases z with
  | ofNat n =>
    have := scanInt_eq (.inl rfl) (natStr_intPart n) hd
    simp only [List.nil_append] at this
    simp only [intStr, scanNumber, this, hf, he, digitsVal_natStr]
    simp
  | negSucc n =>
    have := scanInt_eq (.inr rfl) (natStr_intPart (n + 1)) hd
    simp only [List.cons_append, List.nil_append] at this
    simp only [intStr, scanNumber, List.cons_append, this, hf, he, digitsVal_natStr]
    simp [Int.negSucc_eq]

theorem scanNumber_float {sign ip fp ep rest : Str} (hs : sign = [] ∨ sign = ['-'])
    (hi : IntPart ip)
    (hf : fp = [] ∨ ∃ ds, ds ≠ [] ∧ (∀ x ∈ ds, isDig x = true) ∧ fp = '.' :: ds)
    (he : ep = [] ∨ ∃ sg ds, (sg = ['-'] ∨ sg = ['+']) ∧ ds ≠ [] ∧ (∀ x ∈ ds, isDig x = true) ∧
      ep = 'e' :: (sg ++ ds))
    (hne : fp ≠ [] ∨ ep ≠ []) (hr : Stop rest) :
    scanNumber (sign ++ ip ++ fp ++ ep ++ rest) = .ok (.float (sign ++ ip ++ fp ++ ep), rest) := by
  have hd : ∀ c ∈ rest.head?, isDig c = false := fun c hc => (hr c hc).1
  have hE : scanExp (ep ++ rest) = (ep, rest) := by
    rcases he with rfl | ⟨sg, ds, h1, h2, h3, rfl⟩
    · exact scanExp_nil fun c hc => (hr c hc).2.2
    · exact scanExp_eq h1 h2 h3 hd
  have hEd : ∀ c ∈ (ep ++ rest).head?, isDig c = false ∧ c ≠ '.' := by
    rcases he with rfl | ⟨sg, ds, h1, h2, h3, rfl⟩
    · exact fun c hc => ⟨(hr c hc).1, (hr c hc).2.1⟩
    · intro c hc
      simp only [List.cons_append, List.head?_cons, Option.mem_some_iff] at hc
      subst hc; exact ⟨by decide, by decide⟩
  have hF : scanFrac (fp ++ (ep ++ rest)) = (fp, ep ++ rest) := by
    rcases hf with rfl | ⟨ds, h1, h2, rfl⟩
    · exact scanFrac_nil fun c hc => (hEd c hc).2
    · exact scanFrac_eq h1 h2 fun c hc => (hEd c hc).1
  have hFd : ∀ c ∈ (fp ++ (ep ++ rest)).head?, isDig c = false := by
    rcases hf with rfl | ⟨ds, h1, h2, rfl⟩
    · exact fun c hc => (hEd c hc).1
    · intro c hc
      simp only [List.cons_append, List.head?_cons, Option.mem_some_iff] at hc
      subst hc; decide
  have hI := scanInt_eq hs hi hFd
  have hassoc : sign ++ ip ++ fp ++ ep ++ rest = sign ++ ip ++ (fp ++ (ep ++ rest)) := by
    simp [List.append_assoc]
  rw [hassoc, scanNumber, hI]
  dsimp only
  rw [hF]
  dsimp only
  rw [hE]
  dsimp only
  rw [if_neg (by intro h; rcases hne with h' | h' <;> simp_all)]

/-! ### values -/

theorem dropPrefix_none_of_head {p c : Char} {ps s : Str} (h : p ≠ c) :
    dropPrefix (p :: ps) (c :: s) = none := by simp [dropPrefix, h]

/-- On a text that begins with a digit, only a number can be read. -/
theorem scanAtom_digit {c : Char} {s : Str} (h : isDig c = true) :
    scanAtom (c :: s) = scanNumber (c :: s) := by
  unfold scanAtom
  rw [dropPrefix_none_of_head (isDig_ne h (by decide)).symm,
    dropPrefix_none_of_head (isDig_ne h (by decide)).symm,
    dropPrefix_none_of_head (isDig_ne h (by decide)).symm,
    dropPrefix_none_of_head (isDig_ne h (by decide)).symm,
    dropPrefix_none_of_head (isDig_ne h (by decide)).symm,
    dropPrefix_none_of_head (isDig_ne h (by decide)).symm]

theorem scanAtom_minus {c : Char} {s : Str} (h : isDig c = true) :
    scanAtom ('-' :: c :: s) = scanNumber ('-' :: c :: s) := by
  have : ('I' : Char) ≠ c := (isDig_ne h (by decide)).symm
  simp [scanAtom, dropPrefix, this]

theorem scanAtom_signed {sign ip r : Str} (hs : sign = [] ∨ sign = ['-']) (hi : IntPart ip) :
    scanAtom (sign ++ ip ++ r) = scanNumber (sign ++ ip ++ r) := by
  obtain ⟨c, ds, rfl, hc⟩ := hi.cons
  rcases hs with rfl | rfl
  · exact scanAtom_digit hc
  · exact scanAtom_minus hc

theorem intStr_eq (z : Int) : ∃ sign ip, intStr z = sign ++ ip ∧ (sign = [] ∨ sign = ['-']) ∧
    IntPart ip := by
  cases z with
  | ofNat n => exact ⟨[], _, rfl, .inl rfl, natStr_intPart n⟩
  | negSucc n => exact ⟨['-'], _, rfl, .inr rfl, natStr_intPart (n + 1)⟩

theorem signed_head {sign ip r : Str} (hs : sign = [] ∨ sign = ['-']) (hi : IntPart ip) :
    ∃ c t, sign ++ ip ++ r = c :: t ∧ (isDig c = true ∨ c = '-') := by
  obtain ⟨c, ds, rfl, hc⟩ := hi.cons
  rcases hs with rfl | rfl
  · exact ⟨c, ds ++ r, rfl, .inl hc⟩
  · exact ⟨'-', c :: (ds ++ r), rfl, .inr rfl⟩

theorem scanValue_atom {n : Nat} {c : Char} {s : Str} (h1 : c ≠ '"') (h2 : c ≠ '[') (h3 : c ≠ '{') :
    scanValue (n + 1) (c :: s) = scanAtom (c :: s) := by
  rw [scanValue]
  all_goals simp_all

/-- characters with which no value, or only white space, can begin -/
def Begins (s : Str) : Prop :=
  ∃ c t, s = c :: t ∧ c ≠ ' ' ∧ c ≠ '\t' ∧ c ≠ '\n' ∧ c ≠ '\r' ∧ c ≠ ']' ∧ c ≠ '}'

theorem skipWs_of_begins {s : Str} (h : Begins s) (t : Str) : skipWs (s ++ t) = s ++ t := by
  obtain ⟨c, r, rfl, h1, h2, h3, h4, _⟩ := h
  simp [skipWs, h1, h2, h3, h4]

theorem begins_signed {sign ip r : Str} (hs : sign = [] ∨ sign = ['-']) (hi : IntPart ip) :
    Begins (sign ++ ip ++ r) := by
  obtain ⟨c, t, h, hc⟩ := signed_head (r := r) hs hi
  refine ⟨c, t, h, ?_⟩
  rcases hc with hc | rfl
  · exact ⟨isDig_ne hc (by decide), isDig_ne hc (by decide), isDig_ne hc (by decide),
      isDig_ne hc (by decide), isDig_ne hc (by decide), isDig_ne hc (by decide)⟩
  · decide

theorem begins_dumps (sep : Char) (v : Json) (h : v.Valid) : Begins (dumps sep v) := by
  cases v with
  | null => rw [dumps]; exact ⟨_, _, rfl, by decide⟩
  | bool b => cases b <;> rw [dumps] <;> exact ⟨_, _, rfl, by decide⟩
  | int z =>
    rw [dumps]
    obtain ⟨sign, ip, h1, h2, h3⟩ := intStr_eq z
    rw [h1]
    simpa using begins_signed (r := []) h2 h3
  | float t =>
    rw [dumps]
    simp only [Json.Valid] at h
    rcases h with rfl | rfl | rfl | ⟨sign, ip, fp, ep, rfl, h2, h3, _⟩
    · exact ⟨_, _, rfl, by decide⟩
    · exact ⟨_, _, rfl, by decide⟩
    · exact ⟨_, _, rfl, by decide⟩
    · rw [List.append_assoc (sign ++ ip)]; exact begins_signed h2 h3
  | str s => rw [dumps]; exact ⟨_, _, rfl, by decide⟩
  | list l => cases l <;> rw [dumps] <;> exact ⟨_, _, rfl, by decide⟩
  | dict l => rcases l with _ | ⟨⟨k, v⟩, l⟩ <;> rw [dumps] <;> exact ⟨_, _, rfl, by decide⟩

/-- what `scanItems` does after an item -/
def afterItem (n : Nat) (r : Str) : Except Err (List Json × Str) :=
  match skipWs r with
  | ']' :: r' => .ok ([], r')
  | ',' :: r' => scanItems n (skipWs r')
  | _ => .error .value

/-- what `scanPairs` does after an item -/
def afterPair (n : Nat) (r : Str) : Except Err (List (Str × Json) × Str) :=
  match skipWs r with
  | '}' :: r' => .ok ([], r')
  | ',' :: r' => scanPairs n (skipWs r')
  | _ => .error .value

theorem scanItems_ok {n : Nat} {s r rest : Str} {v : Json} {l : List Json}
    (h1 : scanValue n s = .ok (v, r)) (h2 : afterItem n r = .ok (l, rest)) :
    scanItems (n + 1) s = .ok (v :: l, rest) := by
  rw [scanItems, h1]
  simp only [bind, Except.bind]
  unfold afterItem at h2
  split at h2
  · next h => rw [h]; simp_all
  · next h => rw [h]; simp only [h2]
  · cases h2

theorem scanPairs_ok {n : Nat} {s r rest k : Str} {v : Json} {l : List (Str × Json)}
    (h1 : scanValue n s = .ok (v, r)) (hs : skipWs s = s) (h2 : afterPair n r = .ok (l, rest)) :
    scanPairs (n + 1) (encStr k ++ ':' :: s) = .ok ((k, v) :: l, rest) := by
  simp only [encStr, List.cons_append, List.append_assoc, List.nil_append]
  rw [scanPairs, scanStr_encChars]
  simp only [bind, Except.bind]
  rw [show skipWs (':' :: s) = ':' :: s by simp [skipWs]]
  simp only [hs, h1]
  unfold afterPair at h2
  split at h2
  · next h => rw [h]; simp_all
  · next h => rw [h]; simp only [h2]
  · cases h2

theorem dictSet_append {k : Str} {v : Json} {d : List (Str × Json)} (h : k ∉ d.map Prod.fst) :
    dictSet k v d = d ++ [(k, v)] := by
  induction d with
  | nil => rfl
  | cons p d ih =>
    obtain ⟨k', v'⟩ := p
    simp only [List.map_cons, List.mem_cons, not_or] at h
    simp only [dictSet, if_neg (Ne.symm h.1), ih h.2, List.cons_append]

theorem dictOf_nodup {l : List (Str × Json)} (h : (l.map Prod.fst).Nodup) : dictOf l = l := by
  have : ∀ (l d : List (Str × Json)), ((d ++ l).map Prod.fst).Nodup →
      l.foldl (fun d p => dictSet p.1 p.2 d) d = d ++ l := by
    intro l
    induction l with
    | nil => intro d _; simp
    | cons p l ih =>
      intro d hd
      have hp : p.1 ∉ d.map Prod.fst := by
        intro hm
        simp only [List.map_append, List.map_cons] at hd
        exact (List.nodup_append.mp hd).2.2 p.1 hm p.1 (by simp) rfl
      rw [List.foldl_cons, dictSet_append hp, ih]
      · simp
      · simpa using hd
  simpa [dictOf] using this l [] (by simpa using h)

theorem stop_items (sep : Char) (hsep : isDig sep = false ∧ sep ≠ '.' ∧ sep ≠ 'e' ∧ sep ≠ 'E')
    (l : List Json) (r : Str) : Stop (dumpsItems sep l ++ r) := by
  intro c hc
  cases l with
  | nil => rw [dumpsItems] at hc; simp at hc; subst hc; decide
  | cons v l => rw [dumpsItems] at hc; simp at hc; subst hc; exact hsep

theorem stop_pairs (sep : Char) (hsep : isDig sep = false ∧ sep ≠ '.' ∧ sep ≠ 'e' ∧ sep ≠ 'E')
    (l : List (Str × Json)) (r : Str) : Stop (dumpsPairs sep l ++ r) := by
  intro c hc
  rcases l with _ | ⟨⟨k, v⟩, l⟩
  · rw [dumpsPairs] at hc; simp at hc; subst hc; decide
  · rw [dumpsPairs] at hc; simp at hc; subst hc; exact hsep

theorem dumps_length_pos (sep : Char) (v : Json) (h : v.Valid) : 0 < (dumps sep v).length := by
  obtain ⟨c, t, h, _⟩ := begins_dumps sep v h
  rw [h]; simp

mutual
/-- A value is read back from the text written for it, whatever follows. -/
theorem scanValue_dumps (v : Json) (hv : v.Valid) (n : Nat) (rest : Str)
    (hn : (dumps ',' v).length ≤ n) (hr : Stop rest) :
    scanValue n (dumps ',' v ++ rest) = .ok (v, rest) := by
  have hpos := dumps_length_pos ',' v hv
  obtain ⟨n, rfl⟩ : ∃ m, n = m + 1 := ⟨n - 1, by omega⟩
  match v, hv with
  | .null, _ =>
    rw [dumps]; exact scanValue_atom (by decide) (by decide) (by decide)
  | .bool true, _ => rw [dumps]; exact scanValue_atom (by decide) (by decide) (by decide)
  | .bool false, _ => rw [dumps]; exact scanValue_atom (by decide) (by decide) (by decide)
  | .int z, _ =>
    rw [dumps]
    obtain ⟨sign, ip, h1, h2, h3⟩ := intStr_eq z
    obtain ⟨c, t, h4, h5⟩ := signed_head (r := rest) h2 h3
    have := scanNumber_int z rest hr
    rw [h1] at this ⊢
    rw [← scanAtom_signed h2 h3] at this
    rw [h4] at this ⊢
    rw [scanValue_atom, this]
    all_goals
      rcases h5 with h5 | rfl
      · exact isDig_ne h5 (by decide)
      · decide
  | .float t, hv =>
    rw [dumps]
    simp only [Json.Valid] at hv
    rcases hv with rfl | rfl | rfl | ⟨sign, ip, fp, ep, rfl, h2, h3, h4, h5, h6⟩
    · exact scanValue_atom (by decide) (by decide) (by decide)
    · exact scanValue_atom (by decide) (by decide) (by decide)
    · exact scanValue_atom (by decide) (by decide) (by decide)
    · have := scanNumber_float h2 h3 h4 h5 h6 hr
      have hassoc : sign ++ ip ++ fp ++ ep ++ rest = sign ++ ip ++ (fp ++ (ep ++ rest)) := by
        simp [List.append_assoc]
      rw [hassoc] at this ⊢
      rw [← scanAtom_signed h2 h3] at this
      obtain ⟨c, t, h7, h8⟩ := signed_head (r := fp ++ (ep ++ rest)) h2 h3
      rw [h7] at this ⊢
      rw [scanValue_atom, this]
      all_goals
        rcases h8 with h8 | rfl
        · exact isDig_ne h8 (by decide)
        · decide
  | .str s, _ =>
    rw [dumps, encStr, scanValue.eq_def]
    simp only [List.cons_append, List.append_assoc, List.nil_append]
    rw [scanStr_encChars]; rfl
  | .list [], _ =>
    rw [dumps, scanValue.eq_def]
    simp [skipWs]
  | .list (v :: l), hv =>
    simp only [Json.Valid, validItems] at hv
    rw [dumps] at hn ⊢
    simp only [List.length_cons, List.length_append] at hn
    have hb := begins_dumps ',' v hv.1
    have hl : 0 < (dumpsItems ',' l).length := by cases l <;> rw [dumpsItems] <;> simp
    have hpv := dumps_length_pos ',' v hv.1
    obtain ⟨m, rfl⟩ : ∃ m, n = m + 1 := ⟨n - 1, by omega⟩
    have h1 := scanValue_dumps v hv.1 m (dumpsItems ',' l ++ rest) (by omega)
      (stop_items ',' (by decide) l rest)
    have h2 := afterItem_dumps l hv.2 m rest (by omega)
    have h3 := scanItems_ok h1 h2
    rw [scanValue.eq_def]
    simp only [List.cons_append, List.append_assoc]
    rw [skipWs_of_begins hb]
    split
    · next h =>
      obtain ⟨c, t, h', _, _, _, _, h'', _⟩ := hb
      rw [h'] at h
      simp only [List.cons_append, List.cons.injEq] at h
      exact absurd h.1 h''
    · rw [h3]; rfl
  | .dict [], _ =>
    rw [dumps, scanValue.eq_def]
    simp [skipWs]
  | .dict ((k, v) :: l), hv =>
    simp only [Json.Valid, validPairs] at hv
    rw [dumps] at hn ⊢
    simp only [List.length_cons, List.length_append] at hn
    have hb := begins_dumps ',' v hv.2.1
    have hl : 0 < (dumpsPairs ',' l).length := by
      rcases l with _ | ⟨⟨k, v⟩, l⟩ <;> rw [dumpsPairs] <;> simp
    obtain ⟨m, rfl⟩ : ∃ m, n = m + 1 := ⟨n - 1, by omega⟩
    have h1 := scanValue_dumps v hv.2.1 m (dumpsPairs ',' l ++ rest) (by omega)
      (stop_pairs ',' (by decide) l rest)
    have h2 := afterPair_dumps l hv.2.2 m rest (by omega)
    have h3 := scanPairs_ok (k := k) h1 (skipWs_of_begins hb _) h2
    rw [scanValue.eq_def]
    simp only [List.cons_append, List.append_assoc]
    rw [show skipWs (encStr k ++ ':' :: (dumps ',' v ++ (dumpsPairs ',' l ++ rest))) =
      encStr k ++ ':' :: (dumps ',' v ++ (dumpsPairs ',' l ++ rest)) by simp [encStr, skipWs]]
    split
    · next h => simp [encStr] at h
    · rw [h3]
      simp only [bind, Except.bind]
      rw [dictOf_nodup hv.1]
theorem afterItem_dumps (l : List Json) (hl : validItems l) (n : Nat) (rest : Str)
    (hn : (dumpsItems ',' l).length ≤ n) :
    afterItem n (dumpsItems ',' l ++ rest) = .ok (l, rest) := by
  match l, hl with
  | [], _ => rw [dumpsItems]; simp [afterItem, skipWs]
  | v :: l, hl =>
    simp only [validItems] at hl
    rw [dumpsItems] at hn ⊢
    simp only [List.length_cons, List.length_append] at hn
    obtain ⟨m, rfl⟩ : ∃ m, n = m + 1 := ⟨n - 1, by omega⟩
    have hl0 : 0 < (dumpsItems ',' l).length := by cases l <;> rw [dumpsItems] <;> simp
    have h1 := scanValue_dumps v hl.1 m (dumpsItems ',' l ++ rest) (by omega)
      (stop_items ',' (by decide) l rest)
    have hpv := dumps_length_pos ',' v hl.1
    have h2 := afterItem_dumps l hl.2 m rest (by omega)
    have h3 := scanItems_ok h1 h2
    unfold afterItem
    rw [show skipWs ((',' :: (dumps ',' v ++ dumpsItems ',' l)) ++ rest) =
      ',' :: (dumps ',' v ++ (dumpsItems ',' l ++ rest)) by simp [skipWs]]
    simp only
    rw [skipWs_of_begins (begins_dumps ',' v hl.1), h3]
theorem afterPair_dumps (l : List (Str × Json)) (hl : validPairs l) (n : Nat) (rest : Str)
    (hn : (dumpsPairs ',' l).length ≤ n) :
    afterPair n (dumpsPairs ',' l ++ rest) = .ok (l, rest) := by
  match l, hl with
  | [], _ => rw [dumpsPairs]; simp [afterPair, skipWs]
  | (k, v) :: l, hl =>
    simp only [validPairs] at hl
    rw [dumpsPairs] at hn ⊢
    simp only [List.length_cons, List.length_append] at hn
    obtain ⟨m, rfl⟩ : ∃ m, n = m + 1 := ⟨n - 1, by omega⟩
    have h1 := scanValue_dumps v hl.1 m (dumpsPairs ',' l ++ rest) (by omega)
      (stop_pairs ',' (by decide) l rest)
    have h2 := afterPair_dumps l hl.2 m rest (by omega)
    have h3 := scanPairs_ok (k := k) h1 (skipWs_of_begins (begins_dumps ',' v hl.1) _) h2
    unfold afterPair
    rw [show skipWs ((',' :: (encStr k ++ ':' :: (dumps ',' v ++ dumpsPairs ',' l))) ++ rest) =
      ',' :: (encStr k ++ ':' :: (dumps ',' v ++ (dumpsPairs ',' l ++ rest))) by simp [skipWs]]
    simp only
    rw [show skipWs (encStr k ++ ':' :: (dumps ',' v ++ (dumpsPairs ',' l ++ rest))) =
      encStr k ++ ':' :: (dumps ',' v ++ (dumpsPairs ',' l ++ rest)) by simp [encStr, skipWs], h3]
end

/-- `json.loads(json.dumps(v, separators=(",", ":"))) == v` -/
theorem loads_dumps (v : Json) (hv : v.Valid) : loads (dumps ',' v) = .ok v := by
  have hb := begins_dumps ',' v hv
  have h := scanValue_dumps v hv ((dumps ',' v).length + 1) [] (by omega) (by simp [Stop])
  have hs := skipWs_of_begins hb []
  simp only [List.append_nil] at h hs
  rw [loads, hs, h]
  rfl

end Pibronic.Py
