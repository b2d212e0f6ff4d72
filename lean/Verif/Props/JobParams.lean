import Verif.Model.JobParams
import Verif.Lemmas.Json
import Verif.Lemmas.FileStructure

set_option autoImplicit false

/-! The parameters given to a job are the ones it runs with. -/
namespace Pibronic.Props.JobParams
open Py Pibronic.FileStructure Pibronic.JobParams Spec.FileStructure

/-! ### specification -/

mutual
/-- every string inside a value, dictionary keys included -/
def strings : Json → List Str
  | .null => []
  | .bool _ => []
  | .int _ => []
  | .float _ => []
  | .str s => [s]
  | .list l => stringsItems l
  | .dict l => stringsPairs l
def stringsItems : List Json → List Str
  | [] => []
  | v :: l => strings v ++ stringsItems l
def stringsPairs : List (Str × Json) → List Str
  | [] => []
  | (k, v) :: l => k :: (strings v ++ stringsPairs l)
end

mutual
/-- the value with every string changed by `f` -/
def mapStrings (f : Str → Str) : Json → Json
  | .null => .null
  | .bool b => .bool b
  | .int z => .int z
  | .float t => .float t
  | .str s => .str (f s)
  | .list l => .list (mapItems f l)
  | .dict l => .dict (mapPairs f l)
def mapItems (f : Str → Str) : List Json → List Json
  | [] => []
  | v :: l => mapStrings f v :: mapItems f l
def mapPairs (f : Str → Str) : List (Str × Json) → List (Str × Json)
  | [] => []
  | (k, v) :: l => (f k, mapStrings f v) :: mapPairs f l
end

/-- no string of the dictionary contains `c` -/
def Free (c : Char) (params : List (Str × Json)) : Prop := ∀ s ∈ stringsPairs params, c ∉ s

/-- the dictionary maps `k` to `v` -/
def Maps (params : List (Str × Json)) (k : Str) (v : Json) : Prop := (k, v) ∈ params

/-- the dictionary has no entry for `k` -/
def Lacks (params : List (Str × Json)) (k : Str) : Prop := ∀ v, (k, v) ∉ params

/-- `";"` becomes `","` -/
def comma (s : Str) : Str := s.map fun c => if c = ';' then ',' else c

/-! ### helper lemmas -/

theorem dictGet_of_mem {params : List (Str × Json)} {k : Str} {v : Json}
    (hn : (params.map Prod.fst).Nodup) (h : (k, v) ∈ params) : dictGet k params = .ok v := by
  induction params with
  | nil => simp at h
  | cons p l ih =>
    obtain ⟨k', v'⟩ := p
    simp only [List.map_cons, List.nodup_cons] at hn
    simp only [dictGet]
    rcases List.mem_cons.mp h with h | h
    · simp only [Prod.mk.injEq] at h
      rw [if_pos h.1.symm, h.2]
    · rw [if_neg, ih hn.2 h]
      rintro rfl
      exact hn.1 (List.mem_map.mpr ⟨_, h, rfl⟩)

theorem dictGet_lacks {params : List (Str × Json)} {k : Str} (h : Lacks params k) :
    dictGet k params = .error .key := by
  induction params with
  | nil => rfl
  | cons p l ih =>
    obtain ⟨k', v'⟩ := p
    simp only [dictGet]
    rw [if_neg, ih fun v hv => h v (List.mem_cons_of_mem _ hv)]
    rintro rfl
    exact h v' (by simp)

theorem dictHas_of_mem {params : List (Str × Json)} {k : Str} {v : Json} (h : (k, v) ∈ params) :
    dictHas k params = true := by
  simp only [dictHas, List.any_eq_true, beq_iff_eq]
  exact ⟨_, h, rfl⟩

theorem dictHas_lacks {params : List (Str × Json)} {k : Str} (h : Lacks params k) :
    dictHas k params = false := by
  simp only [dictHas, List.any_eq_false, beq_iff_eq]
  rintro ⟨k', v⟩ hp rfl
  exact h v hp

/-- the characters that can occur in the text of a string besides its printable ones -/
def escapeChars : List Char := '\\' :: '"' :: 'n' :: 'r' :: 't' :: 'f' :: 'b' :: 'u' ::
  (List.range 16).map hexDigit

theorem mem_uEscape {x : Char} {n : Nat} (hx : x ∉ escapeChars) : x ∉ uEscape n := by
  have hh : ∀ d, x ≠ hexDigit (d % 16) := by
    intro d h
    apply hx
    simp only [escapeChars, List.mem_cons, List.mem_map, List.mem_range]
    iterate 8 right
    exact ⟨d % 16, Nat.mod_lt _ (by norm_num), h.symm⟩
  have h1 : x ≠ '\\' := by rintro rfl; exact hx (by simp [escapeChars])
  have h2 : x ≠ 'u' := by rintro rfl; exact hx (by simp [escapeChars])
  simp [uEscape, h1, h2, hh]

theorem mem_encChar {x c : Char} (hx : x ∉ escapeChars) (hp : 32 ≤ x.toNat ∧ x.toNat ≤ 126) :
    x ∈ encChar c ↔ x = c := by
  have hne : ∀ y ∈ escapeChars, x ≠ y := fun y hy h => hx (h ▸ hy)
  have h1 : x ≠ '\\' := hne _ (by simp [escapeChars])
  have h2 : x ≠ '"' := hne _ (by simp [escapeChars])
  have h3 : x ≠ 'n' := hne _ (by simp [escapeChars])
  have h4 : x ≠ 'r' := hne _ (by simp [escapeChars])
  have h5 : x ≠ 't' := hne _ (by simp [escapeChars])
  have h6 : x ≠ 'f' := hne _ (by simp [escapeChars])
  have h7 : x ≠ 'b' := hne _ (by simp [escapeChars])
  have hn : ∀ n : Nat, c.toNat = n → ¬ (32 ≤ n ∧ n ≤ 126) → x ≠ c := by
    rintro n rfl h rfl; exact h hp
  unfold encChar
  split
  · next h => subst h; simp [h1, h2]
  split
  · next h => subst h; simp [h1]
  split
  · next h => simp [h1, h3, hn _ h (by omega)]
  split
  · next h => simp [h1, h4, hn _ h (by omega)]
  split
  · next h => simp [h1, h5, hn _ h (by omega)]
  split
  · next h => simp [h1, h6, hn _ h (by omega)]
  split
  · next h => simp [h1, h7, hn _ h (by omega)]
  split
  · simp
  · next h =>
    have : x ≠ c := hn _ rfl h
    split
    · simp [mem_uEscape hx, this]
    · simp [mem_uEscape hx, this]

theorem mem_encStr {x : Char} {s : Str} (hx : x ∉ escapeChars)
    (hp : 32 ≤ x.toNat ∧ x.toNat ≤ 126) : x ∈ encStr s ↔ x ∈ s := by
  have h2 : x ≠ '"' := by rintro rfl; exact hx (by simp [escapeChars])
  simp only [encStr, encChars, List.mem_cons, h2, List.mem_append, List.mem_flatMap,
    mem_encChar hx hp, List.not_mem_nil, or_false, false_or]
  exact ⟨fun ⟨c, h, e⟩ => e ▸ h, fun h => ⟨x, h, rfl⟩⟩

theorem not_mem_intPart {x : Char} {s : Str} (h : IntPart s) (hx : isDig x = false) : x ∉ s := by
  rcases h with rfl | ⟨c, ds, rfl, _, h⟩
  · simp only [List.mem_singleton]; rintro rfl; revert hx; decide
  · intro hm; rw [h x hm] at hx; cases hx

theorem not_mem_intStr {x : Char} {z : Int} (hx : isDig x = false) (hm : x ≠ '-') :
    x ∉ intStr z := by
  obtain ⟨sign, ip, h, hs, hi⟩ := intStr_eq z
  rw [h, List.mem_append, not_or]
  refine ⟨?_, not_mem_intPart hi hx⟩
  rcases hs with rfl | rfl <;> simp [hm]

theorem not_mem_floatTok {x : Char} {t : Str} (h : FloatTok t) (hx : x = ';' ∨ x = ',') :
    x ∉ t := by
  have hd : isDig x = false := by rcases hx with rfl | rfl <;> decide
  rcases h with rfl | rfl | rfl | ⟨sign, ip, fp, ep, rfl, hs, hi, hf, he, _⟩
  · rcases hx with rfl | rfl <;> decide
  · rcases hx with rfl | rfl <;> decide
  · rcases hx with rfl | rfl <;> decide
  · have nd : ∀ ds : Str, (∀ y ∈ ds, isDig y = true) → x ∉ ds := by
      intro ds h hm; rw [h x hm] at hd; cases hd
    simp only [List.mem_append, not_or]
    refine ⟨⟨⟨?_, not_mem_intPart hi hd⟩, ?_⟩, ?_⟩
    · rcases hs with rfl | rfl <;> rcases hx with rfl | rfl <;> decide
    · rcases hf with rfl | ⟨ds, _, h, rfl⟩
      · simp
      · simp only [List.mem_cons, not_or]
        exact ⟨by rcases hx with rfl | rfl <;> decide, nd ds h⟩
    · rcases he with rfl | ⟨sg, ds, h1, _, h, rfl⟩
      · simp
      · simp only [List.mem_cons, List.mem_append, not_or]
        refine ⟨by rcases hx with rfl | rfl <;> decide, ?_, nd ds h⟩
        rcases h1 with rfl | rfl <;> rcases hx with rfl | rfl <;> decide

theorem escape_sep {x : Char} (hx : x = ';' ∨ x = ',') :
    x ∉ escapeChars ∧ 32 ≤ x.toNat ∧ x.toNat ≤ 126 := by
  rcases hx with rfl | rfl <;> decide

mutual
theorem mem_dumps (v : Json) (hv : v.Valid) :
    ',' ∈ dumps ';' v ↔ ∃ s ∈ strings v, ',' ∈ s := by
  have hstr : ∀ s : Str, ',' ∈ encStr s ↔ ',' ∈ s := fun s =>
    mem_encStr (escape_sep (.inr rfl)).1 (escape_sep (.inr rfl)).2
  match v, hv with
  | .null, _ => rw [dumps, strings]; simp
  | .bool true, _ => rw [dumps, strings]; simp
  | .bool false, _ => rw [dumps, strings]; simp
  | .int z, _ =>
    rw [dumps, strings]
    simp [not_mem_intStr (x := ',') (z := z) (by decide) (by decide)]
  | .float t, hv =>
    simp only [Json.Valid] at hv
    rw [dumps, strings]
    simp [not_mem_floatTok hv (.inr rfl)]
  | .str s, _ => rw [dumps, strings]; simp [hstr]
  | .list [], _ => rw [dumps, strings, stringsItems]; simp
  | .list (v :: l), hv =>
    simp only [Json.Valid, validItems] at hv
    rw [dumps, strings, stringsItems]
    simp only [List.mem_cons, List.mem_append, mem_dumps v hv.1, mem_dumpsItems l hv.2,
      show (',' : Char) ≠ '[' by decide, false_or]
    constructor
    · rintro (⟨s, h, h'⟩ | ⟨s, h, h'⟩)
      exacts [⟨s, .inl h, h'⟩, ⟨s, .inr h, h'⟩]
    · rintro ⟨s, h | h, h'⟩
      exacts [.inl ⟨s, h, h'⟩, .inr ⟨s, h, h'⟩]
  | .dict [], _ => rw [dumps, strings, stringsPairs]; simp
  | .dict ((k, v) :: l), hv =>
    simp only [Json.Valid, validPairs] at hv
    rw [dumps, strings, stringsPairs]
    simp only [List.mem_cons, List.mem_append, mem_dumps v hv.2.1, mem_dumpsPairs l hv.2.2, hstr,
      show (',' : Char) ≠ '{' by decide, show (',' : Char) ≠ ':' by decide, false_or]
    constructor
    · rintro (h | ⟨s, h, h'⟩ | ⟨s, h, h'⟩)
      exacts [⟨k, .inl rfl, h⟩, ⟨s, .inr (.inl h), h'⟩, ⟨s, .inr (.inr h), h'⟩]
    · rintro ⟨s, rfl | h | h, h'⟩
      exacts [.inl h', .inr (.inl ⟨s, h, h'⟩), .inr (.inr ⟨s, h, h'⟩)]
theorem mem_dumpsItems (l : List Json) (hl : validItems l) :
    ',' ∈ dumpsItems ';' l ↔ ∃ s ∈ stringsItems l, ',' ∈ s := by
  match l, hl with
  | [], _ => rw [dumpsItems, stringsItems]; simp
  | v :: l, hl =>
    simp only [validItems] at hl
    rw [dumpsItems, stringsItems]
    simp only [List.mem_cons, List.mem_append, mem_dumps v hl.1, mem_dumpsItems l hl.2,
      show (',' : Char) ≠ ';' by decide, false_or]
    constructor
    · rintro (⟨s, h, h'⟩ | ⟨s, h, h'⟩)
      exacts [⟨s, .inl h, h'⟩, ⟨s, .inr h, h'⟩]
    · rintro ⟨s, h | h, h'⟩
      exacts [.inl ⟨s, h, h'⟩, .inr ⟨s, h, h'⟩]
theorem mem_dumpsPairs (l : List (Str × Json)) (hl : validPairs l) :
    ',' ∈ dumpsPairs ';' l ↔ ∃ s ∈ stringsPairs l, ',' ∈ s := by
  have hstr : ∀ s : Str, ',' ∈ encStr s ↔ ',' ∈ s := fun s =>
    mem_encStr (escape_sep (.inr rfl)).1 (escape_sep (.inr rfl)).2
  match l, hl with
  | [], _ => rw [dumpsPairs, stringsPairs]; simp
  | (k, v) :: l, hl =>
    simp only [validPairs] at hl
    rw [dumpsPairs, stringsPairs]
    simp only [List.mem_cons, List.mem_append, mem_dumps v hl.1, mem_dumpsPairs l hl.2, hstr,
      show (',' : Char) ≠ ';' by decide, show (',' : Char) ≠ ':' by decide, false_or]
    constructor
    · rintro (h | ⟨s, h, h'⟩ | ⟨s, h, h'⟩)
      exacts [⟨k, .inl rfl, h⟩, ⟨s, .inr (.inl h), h'⟩, ⟨s, .inr (.inr h), h'⟩]
    · rintro ⟨s, rfl | h | h, h'⟩
      exacts [.inl h', .inr (.inl ⟨s, h, h'⟩), .inr (.inr ⟨s, h, h'⟩)]
end

theorem comma_of_free {s : Str} (h : ';' ∉ s) : comma s = s := by
  unfold comma
  conv_rhs => rw [← List.map_id s]
  apply List.map_congr_left
  intro c hc
  have : c ≠ ';' := fun e => h (e ▸ hc)
  simp [this]

theorem comma_append (a b : Str) : comma (a ++ b) = comma a ++ comma b := by simp [comma]
theorem comma_cons (c : Char) (b : Str) :
    comma (c :: b) = (if c = ';' then ',' else c) :: comma b := rfl

theorem comma_encStr (s : Str) : comma (encStr s) = encStr (comma s) := by
  have hc : ∀ c, comma (encChar c) = encChar (if c = ';' then ',' else c) := by
    intro c
    split
    · next h => subst h; decide
    · next h =>
      exact comma_of_free fun hm =>
        h ((mem_encChar (escape_sep (.inl rfl)).1 (escape_sep (.inl rfl)).2).mp hm).symm
  have : comma (encChars s) = encChars (comma s) := by
    induction s with
    | nil => rfl
    | cons c s ih =>
      simp only [encChars, List.flatMap_cons, comma_cons, comma_append] at ih ⊢
      rw [ih, hc]
  simp only [encStr, comma_cons, comma_append, this]
  rfl

mutual
/-- Replacing the semicolons of the text is writing commas, and commas inside the strings. -/
theorem comma_dumps (v : Json) (hv : v.Valid) :
    comma (dumps ';' v) = dumps ',' (mapStrings comma v) := by
  match v, hv with
  | .null, _ => simp only [dumps, mapStrings]; decide
  | .bool true, _ => simp only [dumps, mapStrings]; decide
  | .bool false, _ => simp only [dumps, mapStrings]; decide
  | .int z, _ =>
    simp only [dumps, mapStrings]
    exact comma_of_free (not_mem_intStr (by decide) (by decide))
  | .float t, hv =>
    simp only [Json.Valid] at hv
    simp only [dumps, mapStrings]
    exact comma_of_free (not_mem_floatTok hv (.inl rfl))
  | .str s, _ => simp only [dumps, mapStrings]; exact comma_encStr s
  | .list [], _ => simp only [dumps, mapStrings, mapItems]; decide
  | .list (v :: l), hv =>
    simp only [Json.Valid, validItems] at hv
    simp only [dumps, mapStrings, mapItems, comma_cons, comma_append, comma_dumps v hv.1,
      comma_dumpsItems l hv.2]
    rfl
  | .dict [], _ => simp only [dumps, mapStrings, mapPairs]; decide
  | .dict ((k, v) :: l), hv =>
    simp only [Json.Valid, validPairs] at hv
    simp only [dumps, mapStrings, mapPairs, comma_cons, comma_append, comma_dumps v hv.2.1,
      comma_dumpsPairs l hv.2.2, comma_encStr]
    rfl
theorem comma_dumpsItems (l : List Json) (hl : validItems l) :
    comma (dumpsItems ';' l) = dumpsItems ',' (mapItems comma l) := by
  match l, hl with
  | [], _ => simp only [dumpsItems, mapItems]; decide
  | v :: l, hl =>
    simp only [validItems] at hl
    simp only [dumpsItems, mapItems, comma_cons, comma_append, comma_dumps v hl.1,
      comma_dumpsItems l hl.2]
    rfl
theorem comma_dumpsPairs (l : List (Str × Json)) (hl : validPairs l) :
    comma (dumpsPairs ';' l) = dumpsPairs ',' (mapPairs comma l) := by
  match l, hl with
  | [], _ => simp only [dumpsPairs, mapPairs]; decide
  | (k, v) :: l, hl =>
    simp only [validPairs] at hl
    simp only [dumpsPairs, mapPairs, comma_cons, comma_append, comma_dumps v hl.1,
      comma_dumpsPairs l hl.2, comma_encStr]
    rfl
end

mutual
theorem mapStrings_id (f : Str → Str) (v : Json) (h : ∀ s ∈ strings v, f s = s) :
    mapStrings f v = v := by
  match v with
  | .null => rfl
  | .bool _ => rfl
  | .int _ => rfl
  | .float _ => rfl
  | .str s => simp only [mapStrings]; rw [h s (by simp [strings])]
  | .list l => simp only [mapStrings]; rw [mapItems_id f l (by simpa [strings] using h)]
  | .dict l => simp only [mapStrings]; rw [mapPairs_id f l (by simpa [strings] using h)]
theorem mapItems_id (f : Str → Str) (l : List Json) (h : ∀ s ∈ stringsItems l, f s = s) :
    mapItems f l = l := by
  match l with
  | [] => rfl
  | v :: l =>
    simp only [stringsItems, List.mem_append] at h
    simp only [mapItems]
    rw [mapStrings_id f v fun s hs => h s (.inl hs), mapItems_id f l fun s hs => h s (.inr hs)]
theorem mapPairs_id (f : Str → Str) (l : List (Str × Json)) (h : ∀ s ∈ stringsPairs l, f s = s) :
    mapPairs f l = l := by
  match l with
  | [] => rfl
  | (k, v) :: l =>
    simp only [stringsPairs, List.mem_cons, List.mem_append] at h
    simp only [mapPairs]
    rw [h k (.inl rfl), mapStrings_id f v fun s hs => h s (.inr (.inl hs)),
      mapPairs_id f l fun s hs => h s (.inr (.inr hs))]
end

mutual
theorem strings_mapStrings (f : Str → Str) (v : Json) :
    strings (mapStrings f v) = (strings v).map f := by
  match v with
  | .null => rfl
  | .bool _ => rfl
  | .int _ => rfl
  | .float _ => rfl
  | .str s => rfl
  | .list l => simp only [mapStrings, strings]; exact strings_mapItems f l
  | .dict l => simp only [mapStrings, strings]; exact strings_mapPairs f l
theorem strings_mapItems (f : Str → Str) (l : List Json) :
    stringsItems (mapItems f l) = (stringsItems l).map f := by
  match l with
  | [] => rfl
  | v :: l =>
    simp only [mapItems, stringsItems, List.map_append]
    rw [strings_mapStrings f v, strings_mapItems f l]
theorem strings_mapPairs (f : Str → Str) (l : List (Str × Json)) :
    stringsPairs (mapPairs f l) = (stringsPairs l).map f := by
  match l with
  | [] => rfl
  | (k, v) :: l =>
    simp only [mapPairs, stringsPairs, List.map_append, List.map_cons]
    rw [strings_mapStrings f v, strings_mapPairs f l]
end

theorem semicolon_comma (s : Str) : ';' ∉ comma s := by
  simp only [comma, List.mem_map, not_exists, not_and]
  intro c _
  split <;> simp_all

theorem generate_ok {s : FS} {hash : Str → Str} {k : Disk} {vib rho : Str} (h : s.hashVib = none)
    (hv : k.files s.pathVibModel = some vib) (hr : k.files s.pathRhoModel = some rho) :
    s.generateModelHashes hash k false
      = .ok { s with hashVib := some (hash vib), hashRho := some (hash rho) } := by
  simp [FS.generateModelHashes, h, hashOfFile, hv, hr, bind, Except.bind]

theorem validPairs_iff (l : List (Str × Json)) : validPairs l ↔ ∀ p ∈ l, p.2.Valid := by
  induction l with
  | nil => simp [validPairs]
  | cons p l ih => obtain ⟨k, v⟩ := p; simp only [validPairs, ih, List.forall_mem_cons]

theorem mem_stringsPairs (l : List (Str × Json)) (s : Str) :
    s ∈ stringsPairs l ↔ ∃ p ∈ l, s = p.1 ∨ s ∈ strings p.2 := by
  induction l with
  | nil => simp [stringsPairs]
  | cons p l ih =>
    obtain ⟨k, v⟩ := p
    simp only [stringsPairs, List.mem_cons, List.mem_append, ih]
    constructor
    · rintro (h | h | ⟨p, hp, h⟩)
      exacts [⟨_, .inl rfl, .inl h⟩, ⟨_, .inl rfl, .inr h⟩, ⟨p, .inr hp, h⟩]
    · rintro ⟨p, rfl | hp, h⟩
      · exact h.elim .inl fun h => .inr (.inl h)
      · exact .inr (.inr ⟨p, hp, h⟩)

theorem dictSet_keys (k : Str) (v : Json) (d : List (Str × Json)) (k' : Str) :
    k' ∈ (dictSet k v d).map Prod.fst ↔ k' = k ∨ k' ∈ d.map Prod.fst := by
  induction d with
  | nil => simp [dictSet]
  | cons p d ih =>
    obtain ⟨k₁, v₁⟩ := p
    simp only [dictSet]
    split
    · next h => subst h; simp
    · simp only [List.map_cons, List.mem_cons, ih]; tauto

theorem dictSet_nodup (k : Str) (v : Json) {d : List (Str × Json)} (h : (d.map Prod.fst).Nodup) :
    ((dictSet k v d).map Prod.fst).Nodup := by
  induction d with
  | nil => simp [dictSet]
  | cons p d ih =>
    obtain ⟨k₁, v₁⟩ := p
    simp only [List.map_cons, List.nodup_cons] at h
    simp only [dictSet]
    split
    · simpa using h
    · next hne =>
      simp only [List.map_cons, List.nodup_cons, dictSet_keys, not_or]
      exact ⟨⟨hne, h.1⟩, ih h.2⟩

theorem mem_dictSet {k : Str} {v : Json} {d : List (Str × Json)} (h : (d.map Prod.fst).Nodup)
    (k' : Str) (v' : Json) :
    (k', v') ∈ dictSet k v d ↔ (k' = k ∧ v' = v) ∨ (k' ≠ k ∧ (k', v') ∈ d) := by
  induction d with
  | nil => simp [dictSet]
  | cons p d ih =>
    obtain ⟨k₁, v₁⟩ := p
    simp only [List.map_cons, List.nodup_cons] at h
    simp only [dictSet]
    split
    · next hk =>
      subst hk
      have : ∀ w, (k₁, w) ∉ d := fun w hw => h.1 (List.mem_map.mpr ⟨_, hw, rfl⟩)
      simp only [List.mem_cons, Prod.mk.injEq]
      constructor
      · rintro (h' | h')
        · exact .inl h'
        · exact .inr ⟨fun e => this v' (e ▸ h'), .inr h'⟩
      · rintro (h' | ⟨h1, h2 | h2⟩)
        · exact .inl h'
        · exact absurd h2.1 h1
        · exact .inr h2
    · next hk =>
      simp only [List.mem_cons, Prod.mk.injEq, ih h.2]
      constructor
      · rintro (⟨rfl, rfl⟩ | h' | h')
        · exact .inr ⟨hk, .inl ⟨rfl, rfl⟩⟩
        · exact .inl h'
        · exact .inr ⟨h'.1, .inr h'.2⟩
      · rintro (h' | ⟨h1, h2 | h2⟩)
        · exact .inr (.inl h')
        · exact .inl h2
        · exact .inr (.inr ⟨h1, h2⟩)

/-- adding a string to a dictionary: it stays a Python value and free of semicolons -/
theorem dictSet_ok {k s : Str} {d : List (Str × Json)} (h : (Json.dict d).Valid) (hs : Free ';' d)
    (hk : ';' ∉ k) (hs' : ';' ∉ s) :
    (Json.dict (dictSet k (.str s) d)).Valid ∧ Free ';' (dictSet k (.str s) d) := by
  simp only [Json.Valid, validPairs_iff] at h ⊢
  refine ⟨⟨dictSet_nodup k _ h.1, ?_⟩, ?_⟩
  · rintro ⟨k', v'⟩ hp
    rcases (mem_dictSet h.1 k' v').mp hp with ⟨_, rfl⟩ | ⟨_, h'⟩
    · trivial
    · exact h.2 _ h'
  · intro t ht
    obtain ⟨⟨k', v'⟩, hp, hor⟩ := (mem_stringsPairs _ _).mp ht
    rcases (mem_dictSet h.1 k' v').mp hp with ⟨rfl, rfl⟩ | ⟨_, h'⟩
    · rcases hor with rfl | hor
      · exact hk
      · simp only [strings, List.mem_singleton] at hor; rw [hor]; exact hs'
    · exact hs t ((mem_stringsPairs _ _).mpr ⟨_, h', hor⟩)

/-! ### the theorems -/

/-- C44, what a job decodes, exactly: the dictionary that was encoded with every `;` inside its
strings turned into `,` (for dictionaries of Python values in which that makes no two keys of a
dictionary equal). -/
theorem C44_decoded (params : List (Str × Json)) (h : (Json.dict params).Valid)
    (h' : (mapStrings comma (.dict params)).Valid) :
    decode (jsonSerialize params) = .ok (mapStrings comma (.dict params)) := by
  unfold decode jsonSerialize
  rw [show replaceChar ';' ',' (dumps ';' (.dict params)) = comma (dumps ';' (.dict params)) from
    rfl, comma_dumps _ h, loads_dumps _ h']

/-- C44: the dictionary a job decodes is the one that was encoded, for every dictionary none of
whose strings contains a semicolon; all nesting, sizes, numbers and characters. -/
theorem C44_dictionary_partial (params : List (Str × Json)) (h : (Json.dict params).Valid)
    (hs : Free ';' params) : decode (jsonSerialize params) = .ok (.dict params) := by
  have hm : mapStrings comma (.dict params) = .dict params :=
    mapStrings_id _ _ fun s hm => comma_of_free (hs s (by simpa [strings] using hm))
  have := C44_decoded params h (by rw [hm]; exact h)
  rwa [hm] at this

/-- C44 is false when a string contains a semicolon: the job never decodes the dictionary that was
encoded. -/
theorem C44_semicolon_refuted (params : List (Str × Json)) (h : (Json.dict params).Valid)
    (h' : (mapStrings comma (.dict params)).Valid) (hs : ¬ Free ';' params) :
    decode (jsonSerialize params) ≠ .ok (.dict params) := by
  rw [C44_decoded params h h']
  intro he
  apply hs
  intro s hm
  have heq : mapStrings comma (.dict params) = .dict params := Except.ok.inj he
  have : strings (.dict params) = (strings (.dict params)).map comma := by
    conv_lhs => rw [← heq]
    exact strings_mapStrings comma _
  have hm' : s ∈ strings (.dict params) := by simpa [strings] using hm
  rw [this, List.mem_map] at hm'
  obtain ⟨t, _, rfl⟩ := hm'
  exact semicolon_comma t

/-- C44: the encoded text travels as one environment variable: it contains a comma only if one of
the strings does. -/
theorem C44_single_variable (params : List (Str × Json)) (h : (Json.dict params).Valid) :
    ',' ∈ jsonSerialize params ↔ ∃ s ∈ stringsPairs params, ',' ∈ s := by
  have := mem_dumps _ h
  unfold jsonSerialize
  simpa [strings] using this

/-- C44: what `prepare_job_*` puts into the job's environment decodes to the submitted parameters:
every entry except the three that it sets itself is the submitted one, and the name of the job and
the two paths are there. -/
theorem C44_prepared_partial (params : List (Str × Json)) (h : (Json.dict params).Valid)
    (hs : Free ';' params) {jobName copyFrom copyTo : Str} (h1 : ';' ∉ jobName)
    (h2 : ';' ∉ copyFrom) (h3 : ';' ∉ copyTo) :
    ∃ q, decode (executionParameters params jobName copyFrom copyTo) = .ok (.dict q) ∧
      (∀ k v, k ∉ [c!"job_name", c!"copy_from", c!"copy_to"] → (Maps q k v ↔ Maps params k v)) ∧
      Maps q c!"job_name" (.str jobName) ∧
      Maps q c!"copy_from" (.str (c!"\"" ++ copyFrom ++ c!"\"")) ∧
      Maps q c!"copy_to" (.str (c!"\"" ++ copyTo ++ c!"\"")) := by
  have a1 := dictSet_ok (k := c!"job_name") (s := jobName) h hs (by decide) h1
  have a2 := dictSet_ok (k := c!"copy_from") (s := '"' :: (copyFrom ++ ['"'])) a1.1 a1.2 (by decide)
    (by simp [h2])
  have a3 := dictSet_ok (k := c!"copy_to") (s := '"' :: (copyTo ++ ['"'])) a2.1 a2.2 (by decide)
    (by simp [h3])
  refine ⟨_, C44_dictionary_partial _ a3.1 a3.2, ?_, ?_, ?_, ?_⟩
  all_goals
    simp only [Json.Valid] at h a1 a2
    simp only [Maps, mem_dictSet a2.1.1, mem_dictSet a1.1.1, mem_dictSet h.1]
  · intro k v hk
    simp only [List.mem_cons, List.not_mem_nil, or_false, not_or] at hk
    simp only [hk.1, hk.2.1, hk.2.2, false_and, false_or, ne_eq, not_false_eq_true, true_and]
  · simp
  · simp
  · simp

/-- C44, the members of the object a job builds: each is the value given for it at submission; the
inverse temperature and the time step are the given ones, or `1/(kT)` and `beta/beads`; the paths
are those of the submitted directory and ids, and the hashes those of the files found there. -/
theorem C44_members_partial (env : Env) (dB : Quantity) (params : List (Str × Json))
    (h : (Json.dict params).Valid) (hs : Free ';' params)
    {x blk a p n T bs : Json} {root absRoot vib rho : Str} {d r : Nat}
    (hx : Maps params c!"number_of_samples" x) (hblk : Maps params c!"number_of_blocks" blk)
    (ha : Maps params c!"number_of_states" a) (hp : Maps params c!"number_of_beads" p)
    (hn : Maps params c!"number_of_modes" n) (hT : Maps params c!"temperature" T)
    (hbs : Maps params c!"block_size" bs)
    (hd : Maps params c!"id_data" (.int d)) (hr : Maps params c!"id_rho" (.int r))
    (hroot : Maps params c!"path_root" (.str root))
    (habs : env.abspath root = absRoot) (hok : RootOk root absRoot)
    (hvib : env.disk.files (dataDir absRoot d ++ c!"parameters/coupled_model.json") = some vib)
    (hrho : env.disk.files (rhoDir absRoot d r ++ c!"parameters/sampling_model.json") = some rho)
    {t P : ℝ} (ht : number env.val T = some t) (ht0 : env.boltzman * t ≠ 0)
    (hP : number env.val p = some P) (hP0 : P ≠ 0)
    (hbeta : ∀ b, Maps params c!"beta" b → number env.val b ≠ none) :
    ∃ b : BoxParams, loadJsonString env dB (jsonSerialize params) = .ok b ∧
      b.samples = x ∧ b.blocks = blk ∧ b.states = a ∧ b.beads = p ∧ b.modes = n ∧
      b.temperature = T ∧ b.blockSize = bs ∧ b.idData = .int d ∧ b.idRho = .int r ∧
      (∀ v, Maps params c!"beta" v → b.beta = .given v) ∧
      (Lacks params c!"beta" → b.beta = .calculated (1 / (env.boltzman * t))) ∧
      (∀ v, Maps params c!"tau" v → b.tau = .given v) ∧
      (Lacks params c!"tau" → ∀ β, b.beta.number env.val = some β → b.tau = .calculated (β / P)) ∧
      (∀ v, Maps params c!"delta_beta" (.float v) → b.deltaBeta = .given (.float v)) ∧
      (Lacks params c!"delta_beta" → b.deltaBeta = dB) ∧
      b.pathVibModel = dataDir absRoot d ++ c!"parameters/coupled_model.json" ∧
      b.pathRhoModel = rhoDir absRoot d r ++ c!"parameters/sampling_model.json" ∧
      b.hashVib = some (env.hash vib) ∧ b.hashRho = some (env.hash rho) := by
  have hnd : (params.map Prod.fst).Nodup := by simp only [Json.Valid] at h; exact h.1
  have g : ∀ {k v}, Maps params k v → dictGet k params = .ok v := fun hm => dictGet_of_mem hnd hm
  -- beta
  have hB : ∃ β : Quantity, readBeta env params T = .ok β ∧
      (∀ v, Maps params c!"beta" v → β = .given v) ∧
      (Lacks params c!"beta" → β = .calculated (1 / (env.boltzman * t))) ∧
      β.number env.val ≠ none := by
    by_cases hb : Lacks params c!"beta"
    · refine ⟨.calculated (1 / (env.boltzman * t)), ?_, fun v hv => absurd hv (hb v), fun _ => rfl,
        by simp [Quantity.number]⟩
      rw [readBeta, show Sep.beta.value = c!"beta" from rfl, dictHas_lacks hb]
      simp [betaOf, ht, ht0]
    · simp only [Lacks, not_forall, not_not] at hb
      obtain ⟨v, hv⟩ := hb
      refine ⟨.given v, ?_, ?_, fun hl => absurd hv (hl v), hbeta v hv⟩
      · rw [readBeta, show Sep.beta.value = c!"beta" from rfl, dictHas_of_mem hv, g hv]; rfl
      · intro w hw
        have := (g hw).symm.trans (g hv)
        rw [Except.ok.inj this]
  obtain ⟨β, hβ, hβ1, hβ2, hβ3⟩ := hB
  obtain ⟨β', hβ'⟩ := Option.ne_none_iff_exists'.mp hβ3
  have hTau : ∃ τ : Quantity, readTau env params β p = .ok τ ∧
      (∀ v, Maps params c!"tau" v → τ = .given v) ∧
      (Lacks params c!"tau" → τ = .calculated (β' / P)) := by
    by_cases hb : Lacks params c!"tau"
    · refine ⟨.calculated (β' / P), ?_, fun v hv => absurd hv (hb v), fun _ => rfl⟩
      rw [readTau, show Sep.tau.value = c!"tau" from rfl, dictHas_lacks hb]
      simp [tauOf, hβ', hP, hP0]
    · simp only [Lacks, not_forall, not_not] at hb
      obtain ⟨v, hv⟩ := hb
      refine ⟨.given v, ?_, ?_, fun hl => absurd hv (hl v)⟩
      · rw [readTau, show Sep.tau.value = c!"tau" from rfl, dictHas_of_mem hv, g hv]; rfl
      · intro w hw
        have := (g hw).symm.trans (g hv)
        rw [Except.ok.inj this]
  obtain ⟨τ, hτ, hτ1, hτ2⟩ := hTau
  have hfs : (initFS root absRoot d r).pathVibModel
        = dataDir absRoot d ++ c!"parameters/coupled_model.json" ∧
      (initFS root absRoot d r).pathRhoModel
        = rhoDir absRoot d r ++ c!"parameters/sampling_model.json" ∧
      (initFS root absRoot d r).hashVib = none := by
    rw [initFS_eq hok]; exact ⟨by simp [List.append_assoc], by simp [List.append_assoc], rfl⟩
  have hmk : ((initFS root absRoot d r).makeDirectories env.disk).files = env.disk.files := by
    have : ∀ (l : List Str) (k : Disk), (l.foldl Disk.makedirs k).files = k.files := by
      intro l
      induction l with
      | nil => intro k; rfl
      | cons a l ih => intro k; rw [List.foldl_cons, ih]; rfl
    exact this _ _
  have hF : fillPaths env (.str root) (.int d) (.int r) = .ok
      { initFS root absRoot d r with
        hashVib := some (env.hash vib), hashRho := some (env.hash rho) } := by
    show (let FS := new root (env.abspath root) d r false env.disk
      FS.1.generateModelHashes env.hash FS.2 false) = _
    rw [habs]
    refine generate_ok hfs.2.2 ?_ ?_
    · show ((initFS root absRoot d r).makeDirectories env.disk).files _ = _
      rw [hmk, show (new root absRoot d r false env.disk).1.pathVibModel = _ from hfs.1, hvib]
    · show ((initFS root absRoot d r).makeDirectories env.disk).files _ = _
      rw [hmk, show (new root absRoot d r false env.disk).1.pathRhoModel = _ from hfs.2.1, hrho]
  refine ⟨{ samples := x, blocks := blk, states := a, beads := p, modes := n, temperature := T
            blockSize := bs, idData := .int d, idRho := .int r, beta := β, tau := τ
            deltaBeta := deltaBetaOf dB params
            pathVibModel := (initFS root absRoot d r).pathVibModel
            pathRhoModel := (initFS root absRoot d r).pathRhoModel
            hashVib := some (env.hash vib), hashRho := some (env.hash rho) }, ?_, ?_⟩
  · unfold loadJsonString
    rw [C44_dictionary_partial params h hs]
    simp only [bind, Except.bind]
    unfold readParams
    simp only [Sep.value, g hx, g hblk, g ha, g hp, g hn, g hT, g hbs, g hd, g hr, g hroot, bind,
      Except.bind, hβ, hτ, hF]
  · refine ⟨rfl, rfl, rfl, rfl, rfl, rfl, rfl, rfl, rfl, hβ1, hβ2, hτ1, ?_, ?_, ?_, hfs.1, hfs.2.1,
      rfl, rfl⟩
    · intro hl b hb
      rw [hβ'] at hb
      rw [hτ2 hl, Option.some.inj hb]
    · intro v hv
      show deltaBetaOf dB params = _
      unfold deltaBetaOf
      rw [show Sep.dB.value = c!"delta_beta" from rfl, g hv]
    · intro hl
      show deltaBetaOf dB params = _
      unfold deltaBetaOf
      rw [show Sep.dB.value = c!"delta_beta" from rfl, dictGet_lacks hl]

/-- C44: a job whose dictionary lacks one of the values that have no default does not start with
another one: decoding raises `KeyError`. -/
theorem C44_missing (env : Env) (dB : Quantity) (params : List (Str × Json))
    (h : (Json.dict params).Valid) (hs : Free ';' params) (k : Str)
    (hk : k ∈ [c!"number_of_samples", c!"number_of_blocks", c!"number_of_states",
      c!"number_of_beads", c!"number_of_modes", c!"temperature", c!"block_size", c!"id_data",
      c!"id_rho"])
    (hl : Lacks params k) : loadJsonString env dB (jsonSerialize params) = .error .key := by
  have hget : ∀ k', dictGet k' params = .error .key ∨ ∃ v, dictGet k' params = .ok v := by
    intro k'
    by_cases hb : Lacks params k'
    · exact .inl (dictGet_lacks hb)
    · simp only [Lacks, not_forall, not_not] at hb
      obtain ⟨v, hv⟩ := hb
      have hnd : (params.map Prod.fst).Nodup := by simp only [Json.Valid] at h; exact h.1
      exact .inr ⟨v, dictGet_of_mem hnd hv⟩
  unfold loadJsonString
  rw [C44_dictionary_partial params h hs]
  simp only [bind, Except.bind]
  unfold readParams
  simp only [Sep.value]
  have hkey := dictGet_lacks hl
  rcases hget c!"number_of_samples" with h1 | ⟨v1, h1⟩
  · simp only [h1, bind, Except.bind]
  rcases hget c!"number_of_blocks" with h2 | ⟨v2, h2⟩
  · simp only [h1, h2, bind, Except.bind]
  rcases hget c!"number_of_states" with h3 | ⟨v3, h3⟩
  · simp only [h1, h2, h3, bind, Except.bind]
  rcases hget c!"number_of_beads" with h4 | ⟨v4, h4⟩
  · simp only [h1, h2, h3, h4, bind, Except.bind]
  rcases hget c!"number_of_modes" with h5 | ⟨v5, h5⟩
  · simp only [h1, h2, h3, h4, h5, bind, Except.bind]
  rcases hget c!"temperature" with h6 | ⟨v6, h6⟩
  · simp only [h1, h2, h3, h4, h5, h6, bind, Except.bind]
  rcases hget c!"block_size" with h7 | ⟨v7, h7⟩
  · simp only [h1, h2, h3, h4, h5, h6, h7, bind, Except.bind]
  rcases hget c!"id_data" with h8 | ⟨v8, h8⟩
  · simp only [h1, h2, h3, h4, h5, h6, h7, h8, bind, Except.bind]
  rcases hget c!"id_rho" with h9 | ⟨v9, h9⟩
  · simp only [h1, h2, h3, h4, h5, h6, h7, h8, h9, bind, Except.bind]
  exfalso
  simp only [List.mem_cons, List.not_mem_nil, or_false] at hk
  rcases hk with rfl | rfl | rfl | rfl | rfl | rfl | rfl | rfl | rfl <;> simp_all

/-- C44: values a job cannot compute with are refused: a text that is no dictionary, a temperature or a
number of beads that is no number, and zero for either. -/
theorem C44_unusable (env : Env) (dB : Quantity) (params : List (Str × Json))
    (h : (Json.dict params).Valid) (hs : Free ';' params)
    (hall : ∀ k ∈ [c!"number_of_samples", c!"number_of_blocks", c!"number_of_states",
      c!"number_of_modes", c!"block_size", c!"id_data", c!"id_rho"], ∃ v, Maps params k v)
    {p T : Json} (hp : Maps params c!"number_of_beads" p) (hT : Maps params c!"temperature" T) :
    (∀ text v, decode text = .ok v → (∀ q, v ≠ .dict q) → loadJsonString env dB text = .error .type) ∧
    (Lacks params c!"beta" → number env.val T = none →
      loadJsonString env dB (jsonSerialize params) = .error .type) ∧
    (Lacks params c!"beta" → (∃ t, number env.val T = some t ∧ env.boltzman * t = 0) →
      loadJsonString env dB (jsonSerialize params) = .error .zeroDivision) ∧
    (∀ b, Maps params c!"beta" b → Lacks params c!"tau" → number env.val b = none ∨ number env.val p = none →
      loadJsonString env dB (jsonSerialize params) = .error .type) ∧
    (∀ b x, Maps params c!"beta" b → Lacks params c!"tau" → number env.val b = some x →
      number env.val p = some 0 → loadJsonString env dB (jsonSerialize params) = .error .zeroDivision) := by
  have hnd : (params.map Prod.fst).Nodup := by simp only [Json.Valid] at h; exact h.1
  have g : ∀ {k v}, Maps params k v → dictGet k params = .ok v := fun hm => dictGet_of_mem hnd hm
  obtain ⟨x, hx⟩ := hall c!"number_of_samples" (by simp)
  obtain ⟨blk, hblk⟩ := hall c!"number_of_blocks" (by simp)
  obtain ⟨a, ha⟩ := hall c!"number_of_states" (by simp)
  obtain ⟨n, hn⟩ := hall c!"number_of_modes" (by simp)
  obtain ⟨bs, hbs⟩ := hall c!"block_size" (by simp)
  obtain ⟨d, hd⟩ := hall c!"id_data" (by simp)
  obtain ⟨r, hr⟩ := hall c!"id_rho" (by simp)
  have start : ∀ e, (do
      let beta ← readBeta env params T
      let _ ← readTau env params beta p
      .ok () : Except Err Unit) = .error e → loadJsonString env dB (jsonSerialize params) = .error e := by
    intro e he
    unfold loadJsonString
    rw [C44_dictionary_partial params h hs]
    simp only [bind, Except.bind]
    unfold readParams
    simp only [Sep.value, g hx, g hblk, g ha, g hp, g hn, g hT, g hbs, g hd, g hr, bind, Except.bind]
    cases hb : readBeta env params T with
    | error e' => rw [hb] at he; cases he; rfl
    | ok β =>
      rw [hb] at he
      simp only [bind, Except.bind] at he ⊢
      cases ht : readTau env params β p with
      | error e' => rw [ht] at he; cases he; rfl
      | ok τ => rw [ht] at he; cases he
  have hbeta : Lacks params c!"beta" → readBeta env params T = betaOf env T := fun hl => by
    rw [readBeta, show Sep.beta.value = c!"beta" from rfl, dictHas_lacks hl]; rfl
  have hbeta' : ∀ b, Maps params c!"beta" b → readBeta env params T = .ok (.given b) := fun b hb => by
    rw [readBeta, show Sep.beta.value = c!"beta" from rfl, dictHas_of_mem hb, g hb]; rfl
  have htau : ∀ β, Lacks params c!"tau" → readTau env params β p = tauOf env β p := fun β hl => by
    rw [readTau, show Sep.tau.value = c!"tau" from rfl, dictHas_lacks hl]; rfl
  refine ⟨fun text v hv hnot => ?_, fun hl ht => start _ ?_, fun hl ⟨t, ht, h0⟩ => start _ ?_,
    fun b hb hl hno => start _ ?_, fun b y hb hl hy h0 => start _ ?_⟩
  · unfold loadJsonString
    rw [hv]
    simp only [bind, Except.bind]
  · rw [hbeta hl]
    simp [betaOf, ht, bind, Except.bind]
  · rw [hbeta hl]
    simp only [betaOf, ht]
    rw [if_pos h0]
    rfl
  · rw [hbeta' b hb]
    simp only [bind, Except.bind, htau _ hl]
    unfold tauOf
    rcases hno with e | e
    · simp [Quantity.number, e]
    · cases hb' : (Quantity.given b).number env.val <;> simp [e]
  · rw [hbeta' b hb]
    simp only [bind, Except.bind, htau _ hl]
    simp [tauOf, Quantity.number, hy, h0]

/-- C44: which values these are: a temperature 0 or `false` divides by zero, as does a number of beads 0
or `false` when only the inverse temperature is given; texts, lists, dictionaries and `null` are no
numbers; `true` counts as 1. -/
theorem C44_unusable_values (env : Env) (dB : Quantity) (params : List (Str × Json))
    (h : (Json.dict params).Valid) (hs : Free ';' params)
    (hall : ∀ k ∈ [c!"number_of_samples", c!"number_of_blocks", c!"number_of_states",
      c!"number_of_modes", c!"block_size", c!"id_data", c!"id_rho"], ∃ v, Maps params k v)
    {p T : Json} (hp : Maps params c!"number_of_beads" p) (hT : Maps params c!"temperature" T) :
    (Lacks params c!"beta" → T = .int 0 ∨ T = .bool false →
      loadJsonString env dB (jsonSerialize params) = .error .zeroDivision) ∧
    (Lacks params c!"beta" → (T = .null ∨ (∃ s, T = .str s) ∨ (∃ l, T = .list l) ∨ ∃ l, T = .dict l) →
      loadJsonString env dB (jsonSerialize params) = .error .type) ∧
    (∀ b, Maps params c!"beta" b → Lacks params c!"tau" →
      ((∃ z : Int, b = .int z) ∨ (∃ t, b = .float t) ∨ ∃ q, b = .bool q) → p = .int 0 ∨ p = .bool false →
      loadJsonString env dB (jsonSerialize params) = .error .zeroDivision) ∧
    (∀ b, Maps params c!"beta" b → Lacks params c!"tau" →
      (p = .null ∨ (∃ s, p = .str s) ∨ (∃ l, p = .list l) ∨ ∃ l, p = .dict l) →
      loadJsonString env dB (jsonSerialize params) = .error .type) ∧
    (∀ z : Int, number env.val (.int z) = some (z : ℝ)) ∧
    (∀ t, number env.val (.float t) = some (env.val t)) ∧ number env.val (.bool true) = some 1 := by
  obtain ⟨-, h1, h2, h3, h4⟩ := C44_unusable env dB params h hs hall hp hT
  refine ⟨fun hl hz => h2 hl ⟨0, ?_, by simp⟩, fun hl hz => h1 hl ?_, fun b hb hl hb' hz => ?_,
    fun b hb hl hz => h3 b hb hl (.inr ?_), fun _ => rfl, fun _ => rfl, by simp [number]⟩
  · rcases hz with rfl | rfl <;> simp [number]
  · rcases hz with rfl | ⟨_, rfl⟩ | ⟨_, rfl⟩ | ⟨_, rfl⟩ <;> rfl
  · have hz' : number env.val p = some 0 := by rcases hz with rfl | rfl <;> simp [number]
    rcases hb' with ⟨z, rfl⟩ | ⟨t, rfl⟩ | ⟨q, rfl⟩ <;> exact h4 _ _ hb hl rfl hz'
  · rcases hz with rfl | ⟨_, rfl⟩ | ⟨_, rfl⟩ | ⟨_, rfl⟩ <;> rfl

/-- C44 is false for `delta_beta`: a step given as an integer is silently dropped and the job runs
with its default. -/
theorem C44_delta_beta_refuted (env : Env) (dB : Quantity) (params : List (Str × Json))
    (h : (Json.dict params).Valid) (hs : Free ';' params) (z : Int)
    (hz : Maps params c!"delta_beta" (.int z)) (b : BoxParams)
    (hb : loadJsonString env dB (jsonSerialize params) = .ok b) : b.deltaBeta = dB := by
  unfold loadJsonString at hb
  rw [C44_dictionary_partial params h hs] at hb
  simp only [bind, Except.bind] at hb
  unfold readParams at hb
  simp only [bind, Except.bind] at hb
  have hnd : (params.map Prod.fst).Nodup := by simp only [Json.Valid] at h; exact h.1
  have hd : deltaBetaOf dB params = dB := by
    unfold deltaBetaOf
    rw [show Sep.dB.value = c!"delta_beta" from rfl, dictGet_of_mem hnd hz]
  repeat' split at hb
  all_goals first | (cases hb; done) | skip
  all_goals
    rw [← Except.ok.inj hb]
    exact hd

/-- C64 is false: an object cannot encode its own members, whatever they are. -/
theorem C64_encode_self_refuted (members : Sep → Json) :
    encodeSelf members none = .error .type := rfl

/-- C64, the part that holds: given parameters are encoded, and decoding gives them back. -/
theorem C64_encode_given_partial (members : Sep → Json) (params : List (Str × Json))
    (h : (Json.dict params).Valid) (hs : Free ';' params) :
    ∃ text, encodeSelf members (some params) = .ok text ∧ decode text = .ok (.dict params) := by
  refine ⟨jsonSerialize params, ?_, C44_dictionary_partial params h hs⟩
  have : ∀ l : List (Str × Json), stringKeys (l.map fun p => (Key.str p.1, p.2)) = .ok l := by
    intro l
    induction l with
    | nil => rfl
    | cons p l ih => simp only [List.map_cons, stringKeys, ih]; rfl
  simp only [encodeSelf, this]
  rfl

/-! ### a concrete case -/

/-- a submission: 1000 samples at 300 K, with a list, a float, a null and an escaped path -/
def params0 : List (Str × Json) :=
  [(c!"number_of_samples", .int 1000), (c!"number_of_blocks", .int 10),
   (c!"number_of_states", .int 2), (c!"number_of_beads", .int 12), (c!"number_of_modes", .int 2),
   (c!"temperature", .float c!"300.0"), (c!"block_size", .int 100), (c!"id_data", .int 11),
   (c!"id_rho", .int 0), (c!"path_root", .str c!"/work/ü"), (c!"delta_beta", .float c!"0.0002"),
   (c!"temperature_list", .list [.float c!"300.0", .float c!"1e-05"]), (c!"partition", .null),
   (c!"copy_to", .str c!"\"/work/\"")]

theorem tok300 : FloatTok c!"300.0" :=
  .inr (.inr (.inr ⟨[], c!"300", c!".0", [], rfl, .inl rfl,
    .inr ⟨'3', c!"00", rfl, by decide, by decide⟩, .inr ⟨c!"0", by decide, by decide, rfl⟩,
    .inl rfl, .inl (by decide)⟩))
theorem tok2e4 : FloatTok c!"0.0002" :=
  .inr (.inr (.inr ⟨[], c!"0", c!".0002", [], rfl, .inl rfl,
    .inl rfl, .inr ⟨c!"0002", by decide, by decide, rfl⟩, .inl rfl, .inl (by decide)⟩))
theorem tok1e5 : FloatTok c!"1e-05" :=
  .inr (.inr (.inr ⟨[], c!"1", [], c!"e-05", rfl, .inl rfl,
    .inr ⟨'1', [], rfl, by decide, by decide⟩, .inl rfl,
    .inr ⟨c!"-", c!"05", .inl rfl, by decide, by decide, rfl⟩, .inr (by decide)⟩))

theorem params0_valid : (Json.dict params0).Valid := by
  simp only [params0, Json.Valid, validPairs, validItems, and_true, tok300, tok2e4, tok1e5]
  decide

theorem params0_free : Free ';' params0 := by unfold Free; decide

/-- the dictionary is decoded as it was encoded -/
example : decode (jsonSerialize params0) = .ok (.dict params0) :=
  C44_dictionary_partial params0 params0_valid params0_free

/-- its text needs one environment variable -/
example : ',' ∉ jsonSerialize params0 := by
  rw [C44_single_variable params0 params0_valid]; decide

def env0 : Env where
  boltzman := 1
  val := fun _ => 300
  abspath := id
  hash := fun s => s
  disk := ⟨[], fun _ => some c!"text"⟩

/-- the hypotheses of `C44_members_partial` are met -/
example : ∃ b : BoxParams, loadJsonString env0 (.calculated 0) (jsonSerialize params0) = .ok b ∧
    b.samples = .int 1000 ∧ b.beta = .calculated (1 / (1 * 300)) ∧
    b.deltaBeta = .given (.float c!"0.0002") := by
  have hl : ∀ k, (k = c!"beta" ∨ k = c!"tau") → Lacks params0 k := by
    rintro k (rfl | rfl) v hv <;>
    · have : ∀ p ∈ params0, p.1 ≠ c!"beta" ∧ p.1 ≠ c!"tau" := by
        simp only [params0, List.forall_mem_cons, List.not_mem_nil, false_implies, implies_true]
        decide
      have := this _ hv
      simp at this
  obtain ⟨b, h, h1, _, _, _, _, _, _, _, _, _, h2, _, _, h3, _⟩ :=
    C44_members_partial env0 (.calculated 0) params0 params0_valid params0_free
      (x := .int 1000) (blk := .int 10) (a := .int 2) (p := .int 12) (n := .int 2)
      (T := .float c!"300.0") (bs := .int 100) (root := c!"/work/ü") (absRoot := c!"/work/ü")
      (vib := c!"text") (rho := c!"text") (d := 11) (r := 0) (t := 300) (P := 12)
      (by simp [Maps, params0]) (by simp [Maps, params0]) (by simp [Maps, params0])
      (by simp [Maps, params0]) (by simp [Maps, params0]) (by simp [Maps, params0])
      (by simp [Maps, params0]) (by simp [Maps, params0]) (by simp [Maps, params0])
      (by simp [Maps, params0]) rfl ⟨by decide, by decide, .inl rfl⟩ rfl rfl rfl
      (by simp [env0]) (by simp [number]) (by norm_num)
      (fun v hv => absurd hv (hl _ (.inl rfl) v))
  exact ⟨b, h, h1, by simpa [env0] using h2 (hl _ (.inl rfl)),
    h3 c!"0.0002" (by simp [Maps, params0])⟩

/-- a root directory with a semicolon arrives as another directory -/
example : decode (jsonSerialize [(c!"path_root", .str c!"/a;b")])
    = .ok (.dict [(c!"path_root", .str c!"/a,b")]) := by
  refine C44_decoded _ ?_ ?_ <;> simp [Json.Valid, validPairs, mapStrings, mapPairs]

example : ¬ Free ';' [(c!"path_root", .str c!"/a;b")] := by unfold Free; decide

end Pibronic.Props.JobParams
