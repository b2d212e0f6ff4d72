import Verif.Lemmas.OpText

set_option autoImplicit false

/-! The lines and sections of an operator file that follows the layout of the specification. -/
namespace Pibronic.OpFile
open Py Buffer Workflow Molecule Pibronic.Spec.OpFile

/-! ### single lines -/

theorem pad2_eq (n : Nat) : pad2 n = twoDigits n := rfl

/-- The characters of names. -/
def nameChars : Str := c!"wEHCBA_sv0123456789"

/-- The characters of lines. -/
def lineChars : Str := nameChars ++ numeral ++ c!" =,ev"

theorem blanks_ws (n : Nat) : ∀ c ∈ blanks n, isWs c = true := by
  intro c hc
  rw [blanks, List.mem_replicate] at hc
  rw [hc.2]; decide

theorem mem_blanks {n : Nat} {c : Char} (h : c ∈ blanks n) : c = ' ' := by
  rw [blanks, List.mem_replicate] at h; exact h.2

theorem line_chars {name value : Str} {sp : Blanks} (hn : ∀ c ∈ name, c ∈ nameChars)
    (hv : ∀ c ∈ value, c ∈ numeral) : ∀ c ∈ line name value sp, c ∈ lineChars := by
  intro c hc
  simp only [line, List.mem_append] at hc
  have hb : ∀ {n}, c ∈ blanks n → c ∈ lineChars := fun h => by rw [mem_blanks h]; decide
  rcases hc with ((((((h | h) | h) | h) | h) | h) | h) | h
  · simp [lineChars, hn c h]
  · exact hb h
  · simp at h; rw [h]; decide
  · exact hb h
  · simp [lineChars, hv c h]
  · exact hb h
  · simp only [List.mem_cons, List.not_mem_nil, or_false] at h
    rcases h with rfl | rfl | rfl | rfl <;> decide
  · exact hb h

theorem not_infix_of_char {h l : Str} {c : Char} (hc : c ∈ h) (hl : c ∉ l) : ¬ h <:+: l :=
  fun hi => hl (hi.subset hc)

/-- A text made of the given characters contains no header. -/
theorem no_header_of_chars {chars l : Str} (hd : ∀ h ∈ headers, ∃ c ∈ h, c ∉ chars)
    (hl : ∀ c ∈ l, c ∈ chars) : ∀ h ∈ headers, ¬ h <:+: l := by
  intro h hh
  obtain ⟨c, h1, h2⟩ := hd h hh
  exact not_infix_of_char h1 fun hc => h2 (hl c hc)

theorem lineChars_headers : ∀ h ∈ headers, ∃ c ∈ h, c ∉ lineChars := by decide +kernel

/-- What is needed of the name of a line. -/
structure GoodName (name : Str) : Prop where
  ne : name ≠ []
  chars : ∀ c ∈ name, c ∈ nameChars

/-- What is needed of the value of a line. -/
structure GoodValue (value : Str) : Prop where
  ne : value ≠ []
  chars : ∀ c ∈ value, c ∈ numeral

theorem nameChars_ws {name : Str} (h : GoodName name) : ∀ c ∈ name, isWs c = false := by
  intro c hc
  have := h.chars c hc
  revert c
  suffices ∀ c ∈ nameChars, isWs c = false from fun c _ hc => this c hc
  decide

theorem numeral_ws {value : Str} (h : GoodValue value) : ∀ c ∈ value, isWs c = false := by
  intro c hc
  have := h.chars c hc
  revert c
  suffices ∀ c ∈ numeral, isWs c = false from fun c _ hc => this c hc
  decide

theorem line_notMem {name value : Str} {sp : Blanks} (hn : GoodName name) (hv : GoodValue value) {c : Char}
    (hc : c ∉ lineChars) : c ∉ line name value sp := fun h => hc (line_chars hn.chars hv.chars c h)

theorem line_head {name value : Str} {sp : Blanks} (hn : GoodName name) :
    ∃ c l', line name value sp = c :: l' ∧ isWs c = false := by
  have hw := nameChars_ws hn
  cases name with
  | nil => exact absurd rfl hn.ne
  | cons c n => exact ⟨c, _, by simp only [line, List.cons_append]; rfl, hw c (by simp)⟩

theorem blanks_succ (n : Nat) (s : Str) : blanks (n + 1) ++ s = ' ' :: (blanks n ++ s) := rfl

/-- The words of a line. -/
theorem line_words {name value : Str} {sp : Blanks} (hn : GoodName name) (hv : GoodValue value) :
    splitWs (line name value sp) = [name, c!"=", value, c!",", c!"ev"] := by
  have e : line name value sp = name ++ ' ' :: (blanks sp.name ++ (c!"=" ++ ' ' :: (blanks sp.eq ++
      (value ++ ' ' :: (blanks sp.value ++ (c!"," ++ ' ' :: (c!"ev" ++ blanks sp.tail))))))) := by
    simp [line, blanks_succ, List.append_assoc]
  rw [e, splitWs_word _ _ _ hn.ne (nameChars_ws hn) (by decide), splitWs_blank _ _ (blanks_ws _),
    splitWs_word _ _ _ (by decide) (by decide) (by decide), splitWs_blank _ _ (blanks_ws _),
    splitWs_word _ _ _ hv.ne (numeral_ws hv) (by decide), splitWs_blank _ _ (blanks_ws _),
    splitWs_word _ _ _ (by decide) (by decide) (by decide)]
  cases h : sp.tail with
  | zero => rfl
  | succ n =>
    rw [show blanks (n + 1) = ' ' :: (blanks n ++ []) by simp [blanks, List.replicate_succ],
      splitWs_word _ _ _ (by decide) (by decide) (by decide), splitWs_blank _ _ (blanks_ws _)]
    rfl

/-- The line without trailing blanks. -/
def core (name value : Str) (sp : Blanks) : Str :=
  name ++ blanks (sp.name + 1) ++ c!"=" ++ blanks (sp.eq + 1) ++ value ++ blanks (sp.value + 1) ++ c!", ev"

theorem line_core (name value : Str) (sp : Blanks) : line name value sp = core name value sp ++ blanks sp.tail := rfl

theorem clean_core {name value : Str} {sp : Blanks} (hn : GoodName name) (hv : GoodValue value) (t : Nat) :
    clean (core name value sp ++ blanks t) =
      name ++ ' ' :: (blanks sp.name ++ (' ' :: (blanks sp.eq ++ (value ++ (blanks (sp.value + 1) ++ blanks t))))) := by
  have hne : ∀ {c : Char}, c ∉ nameChars → c ∉ name := fun h hc => h (hn.chars _ hc)
  have hnv : ∀ {c : Char}, c ∉ numeral → c ∉ value := fun h hc => h (hv.chars _ hc)
  have hnb : ∀ {c : Char} {n}, c ≠ ' ' → c ∉ blanks n := fun h hc => h (mem_blanks hc)
  unfold clean
  have e1 : core name value sp ++ blanks t = (name ++ blanks (sp.name + 1)) ++ (c!"=" ++ (blanks (sp.eq + 1) ++ value ++
      blanks (sp.value + 1) ++ c!", ev" ++ blanks t)) := by simp [core, List.append_assoc]
  have f1 : removeGo c!"=" (core name value sp ++ blanks t) 0 = (name ++ blanks (sp.name + 1)) ++ (blanks (sp.eq + 1) ++
      value ++ blanks (sp.value + 1) ++ c!", ev" ++ blanks t) := by
    rw [e1, removeGo_pass _ _ _ _ (by
      simp only [List.mem_append, not_or]; exact ⟨hne (by decide), hnb (by decide)⟩), removeGo_hit,
      removeGo_free _ _ _ (by
        simp only [List.mem_append, not_or]
        exact ⟨⟨⟨⟨hnb (by decide), hnv (by decide)⟩, hnb (by decide)⟩, by decide⟩, hnb (by decide)⟩)]
  have e2 : (name ++ blanks (sp.name + 1)) ++ (blanks (sp.eq + 1) ++ value ++ blanks (sp.value + 1) ++ c!", ev" ++ blanks t) =
      (name ++ blanks (sp.name + 1) ++ blanks (sp.eq + 1) ++ value ++ blanks (sp.value + 1)) ++ (c!", ev" ++ blanks t) := by
    simp [List.append_assoc]
  rw [f1, e2, removeGo_pass _ _ _ _ (by
      simp only [List.mem_append, not_or]
      exact ⟨⟨⟨⟨hne (by decide), hnb (by decide)⟩, hnb (by decide)⟩, hnv (by decide)⟩, hnb (by decide)⟩), removeGo_hit,
    removeGo_free _ _ _ (hnb (by decide))]
  simp [blanks_succ, List.append_assoc]

theorem clean_core_words {name value : Str} {sp : Blanks} (hn : GoodName name) (hv : GoodValue value) (t : Nat) :
    splitWs (clean (core name value sp ++ blanks t)) = [name, value] := by
  rw [clean_core hn hv, splitWs_word _ _ _ hn.ne (nameChars_ws hn) (by decide), splitWs_blank _ _ (blanks_ws _)]
  have : ∀ s, splitWs (' ' :: s) = splitWs s := fun s => splitWs_blank [' '] s (by decide)
  rw [this, splitWs_blank _ _ (blanks_ws _), blanks_succ, splitWs_word _ _ _ hv.ne (numeral_ws hv) (by decide),
    splitWs_blank _ _ (blanks_ws _)]
  have := splitWs_blank (blanks t) [] (blanks_ws _)
  rw [List.append_nil] at this
  rw [this]; rfl

theorem clean_core_data {name value : Str} {sp : Blanks} (hn : GoodName name) (hv : GoodValue value) (t : Nat) :
    isData (clean (core name value sp ++ blanks t)) = true := by
  have h1 : '#' ∉ clean (core name value sp ++ blanks t) := by
    intro h
    have := removeGo_mem (removeGo_mem h)
    rw [List.mem_append] at this
    rcases this with h | h
    · exact line_notMem (sp := sp) hn hv (c := '#') (by decide) (by rw [line_core]; exact List.mem_append_left _ h)
    · exact absurd (mem_blanks h) (by decide)
  have h2 : clean (core name value sp ++ blanks t) ≠ [] := by
    intro h
    have := clean_core_words (sp := sp) hn hv t
    rw [h] at this
    simp [splitWs] at this
  simp [isData, h1, h2]

theorem line_data {name value : Str} {sp : Blanks} (hn : GoodName name) (hv : GoodValue value) :
    isData (line name value sp) = true := by
  have h1 : '#' ∉ line name value sp := line_notMem hn hv (by decide)
  obtain ⟨c, l', h2, _⟩ := line_head (value := value) (sp := sp) hn
  have h3 : line name value sp ≠ [] := by rw [h2]; simp
  simp [isData, h1, h3]

/-! ### names -/

theorem natStr_nameChars (n : Nat) : ∀ c ∈ natStr n, c ∈ nameChars := by
  induction n using Nat.strong_induction_on with
  | _ n ih =>
    intro c hc
    rw [natStr] at hc
    have hd : ∀ d < 10, digit d ∈ nameChars := by decide
    split at hc
    · next h => simp only [List.mem_singleton] at hc; rw [hc]; exact hd n h
    · next h =>
      rw [List.mem_append, List.mem_singleton] at hc
      rcases hc with hc | rfl
      · exact ih (n / 10) (by omega) c hc
      · exact hd _ (Nat.mod_lt _ (by decide))

theorem twoDigits_chars (n : Nat) : ∀ c ∈ twoDigits n, c ∈ nameChars := by
  intro c hc
  unfold twoDigits at hc
  split at hc
  · rcases List.mem_cons.mp hc with rfl | hc
    · decide
    · exact natStr_nameChars n c hc
  · exact natStr_nameChars n c hc

theorem goodName_append {p s : Str} (hp : GoodName p) (hs : ∀ c ∈ s, c ∈ nameChars) : GoodName (p ++ s) :=
  ⟨by simp [hp.ne], fun c hc => (List.mem_append.mp hc).elim (hp.chars c) (hs c)⟩

theorem goodName_dec {p : Str} (h : p ≠ [] ∧ ∀ c ∈ p, c ∈ nameChars) : GoodName p := ⟨h.1, h.2⟩

/-! ### labels -/

theorem twoDigits_digits (n : Nat) : ∀ c ∈ twoDigits n, (digitVal c).isSome = true := by
  intro c hc
  have h : ∀ c ∈ natStr n, (digitVal c).isSome = true := fun c hc => by
    have := natStr_isDigit n c hc
    unfold IsDigit at this
    cases h : digitVal c with
    | none => exact absurd h this
    | some _ => rfl
  unfold twoDigits at hc
  split at hc
  · rcases List.mem_cons.mp hc with rfl | hc
    · decide
    · exact h c hc
  · exact h c hc

theorem digitsVal_twoDigits (n : Nat) : digitsVal 0 (twoDigits n) = some n := by
  unfold twoDigits
  split
  · have : digitVal '0' = some 0 := by decide
    rw [digitsVal, this]
    exact digitsVal_natStr n
  · exact digitsVal_natStr n

theorem twoDigits_ne (n : Nat) : twoDigits n ≠ [] := by
  unfold twoDigits
  split
  · simp
  · exact natStr_ne_nil n

theorem takeWhile_digits (ds r : Str) (h : ∀ c ∈ ds, (digitVal c).isSome = true)
    (hr : ∀ c, r.head? = some c → (digitVal c).isSome = false) :
    (ds ++ r).takeWhile (fun c => (digitVal c).isSome) = ds ∧
      (ds ++ r).dropWhile (fun c => (digitVal c).isSome) = r := by
  induction ds with
  | nil =>
    cases r with
    | nil => simp
    | cons c r => simp [hr c rfl]
  | cons d ds ih =>
    have := ih fun c hc => h c (by simp [hc])
    simp [h d (by simp), this.1, this.2]

theorem labels_cons (p : Str) (ps : List Str) (n : Nat) (r : Str)
    (hr : ∀ c, r.head? = some c → (digitVal c).isSome = false) :
    labels (p :: ps) (p ++ (twoDigits n ++ r)) = (labels ps r).map (n :: ·) := by
  rw [labels, dropPrefix_append]
  simp only
  obtain ⟨h1, h2⟩ := takeWhile_digits _ r (twoDigits_digits n) hr
  rw [h1, h2, if_neg (twoDigits_ne n), digitsVal_twoDigits]
  cases labels ps r <;> rfl

theorem labels_single (pre : Str) (a b i : Nat) :
    labels [pre ++ c!"_s", c!"_s", c!"_v"] (pre ++ c!"_s" ++ twoDigits a ++ c!"_s" ++ twoDigits b ++ c!"_v" ++ twoDigits i) =
      some [a, b, i] := by
  have e : pre ++ c!"_s" ++ twoDigits a ++ c!"_s" ++ twoDigits b ++ c!"_v" ++ twoDigits i =
      (pre ++ c!"_s") ++ (twoDigits a ++ (c!"_s" ++ (twoDigits b ++ (c!"_v" ++ (twoDigits i ++ []))))) := by
    simp [List.append_assoc]
  rw [e, labels_cons _ _ _ _ (by simp; decide), labels_cons _ _ _ _ (by simp; decide), labels_cons _ _ _ _ (by simp)]
  rfl

theorem labels_double (pre : Str) (a b i j : Nat) :
    labels [pre ++ c!"_s", c!"s", c!"_v", c!"v"] (pre ++ c!"_s" ++ twoDigits a ++ c!"s" ++ twoDigits b ++ c!"_v" ++
      twoDigits i ++ c!"v" ++ twoDigits j) = some [a, b, i, j] := by
  have e : pre ++ c!"_s" ++ twoDigits a ++ c!"s" ++ twoDigits b ++ c!"_v" ++ twoDigits i ++ c!"v" ++ twoDigits j =
      (pre ++ c!"_s") ++ (twoDigits a ++ (c!"s" ++ (twoDigits b ++ (c!"_v" ++ (twoDigits i ++ (c!"v" ++
        (twoDigits j ++ []))))))) := by
    simp [List.append_assoc]
  rw [e, labels_cons _ _ _ _ (by simp; decide), labels_cons _ _ _ _ (by simp; decide),
    labels_cons _ _ _ _ (by simp; decide), labels_cons _ _ _ _ (by simp)]
  rfl

/-! ### sections -/

/-- What is needed of the sections for their headers to be found. -/
structure Good (before : List Str) (secs : List Section) : Prop where
  before : ∀ l ∈ before, ∀ h ∈ headers, ¬ h <:+: l
  header : ∀ s ∈ secs, s.header ∈ headers
  mark : ∀ s ∈ secs, ∀ c, s.header.head? = some c → c ∉ s.mark
  rest : ∀ s ∈ secs, '\n' ∉ s.rest
  line : ∀ s ∈ secs, ∀ h ∈ headers, h ≠ s.header → ¬ h <:+: s.mark ++ s.header ++ s.rest
  body : ∀ s ∈ secs, ∀ l ∈ s.body, '\n' ∉ l ∧ ∀ h ∈ headers, ¬ h <:+: l
  nodup : (secs.map Section.header).Nodup

theorem headers_nl : ∀ h ∈ headers, '\n' ∉ h ∧ h ≠ [] := by decide +kernel

theorem section_region {before : List Str} {secs : List Section} (hg : Good before secs) (after : Str)
    (S1 S2 : List Section) (s t : Section) (hs : secs = S1 ++ s :: t :: S2) (hdr D : List Str)
    (hb : s.body = hdr ++ D) :
    region (terminated (before ++ secs.flatMap Section.lines) ++ after) s.header t.header (hdr.length + 1) =
      .ok (terminated D ++ t.mark) := by
  have ms : s ∈ secs := by rw [hs]; simp
  have mt : t ∈ secs := by rw [hs]; simp
  have hnd := hg.nodup
  rw [hs] at hnd
  simp only [List.map_append, List.map_cons] at hnd
  rw [List.nodup_append, List.nodup_cons, List.nodup_cons] at hnd
  have hst : s.header ≠ t.header := fun e => hnd.2.1.1 (by rw [e]; simp)
  have h1 : ∀ x ∈ S1, x.header ≠ s.header ∧ x.header ≠ t.header := fun x hx =>
    ⟨hnd.2.2 _ (List.mem_map_of_mem hx) _ (by simp), hnd.2.2 _ (List.mem_map_of_mem hx) _ (by simp)⟩
  have hS1 : ∀ h ∈ headers, (∀ x ∈ S1, x.header ≠ h) → ∀ l ∈ before ++ S1.flatMap Section.lines, ¬ h <:+: l := by
    intro h hh hx l hl
    rw [List.mem_append, List.mem_flatMap] at hl
    rcases hl with hl | ⟨x, hxS, hl⟩
    · exact hg.before l hl h hh
    · have mx : x ∈ secs := by rw [hs]; simp [hxS]
      rcases List.mem_cons.mp hl with rfl | hl
      · exact hg.line x mx h hh (hx x hxS).symm
      · exact (hg.body x mx l hl).2 h hh
  have e : terminated (before ++ secs.flatMap Section.lines) ++ after =
      terminated ((before ++ S1.flatMap Section.lines) ++ (s.mark ++ s.header ++ s.rest) :: (hdr ++ D)) ++
        (t.mark ++ (t.header ++ (t.rest ++ '\n' :: (terminated (t.body ++ S2.flatMap Section.lines) ++ after)))) := by
    rw [hs]
    simp only [List.flatMap_append, List.flatMap_cons, Section.lines, hb, terminated_append, terminated_cons,
      List.append_assoc, List.cons_append]
  rw [e]
  apply region_eq _ _ _ _ _ _ _ _ _ (headers_nl _ (hg.header s ms)).1 (headers_nl _ (hg.header s ms)).2
    (headers_nl _ (hg.header t mt)).1 (headers_nl _ (hg.header t mt)).2
  · exact hS1 _ (hg.header s ms) fun x hx => (h1 x hx).1
  · exact hg.mark s ms
  · exact hg.rest s ms
  · exact fun l hl => (hg.body s ms l (by rw [hb]; simp [hl])).1
  · intro l hl
    rw [List.mem_append, List.mem_cons] at hl
    rcases hl with hl | rfl | hl
    · exact hS1 _ (hg.header t mt) (fun x hx => (h1 x hx).2) l hl
    · exact hg.line s ms _ (hg.header t mt) hst.symm
    · exact (hg.body s ms l (by rw [hb]; exact hl)).2 _ (hg.header t mt)
  · exact hg.mark t mt

end Pibronic.OpFile
