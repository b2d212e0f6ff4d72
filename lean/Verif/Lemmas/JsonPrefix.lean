import Verif.Lemmas.JsonDefault

set_option autoImplicit false

/-!
A proper prefix of the text of a JSON object is not the text of any value: what the scanner accepts
before a bracket or a comma it accepts in the same way when more text follows.
-/
namespace Pibronic.Py

theorem skipWs_append {r t : Str} {c : Char} {r' : Str} (h : skipWs r = c :: r') :
    skipWs (r ++ t) = c :: (r' ++ t) := by
  induction r with
  | nil => simp [skipWs] at h
  | cons a r ih =>
    rw [skipWs] at h
    rw [List.cons_append, skipWs]
    split at h
    · next hw => rw [if_pos hw]; exact ih h
    · next hw => rw [if_neg hw]; cases h; rfl

theorem skipWs_nil_append {r : Str} (h : skipWs r = []) (t : Str) : skipWs (r ++ t) = skipWs t := by
  induction r with
  | nil => rfl
  | cons a r ih =>
    rw [skipWs] at h
    rw [List.cons_append, skipWs]
    split at h
    · next hw => rw [if_pos hw]; exact ih h
    · cases h

/-- After skipping white space comes one of the characters that end a value. -/
def Ends (r : Str) : Prop := ∃ c r', skipWs r = c :: r' ∧ (c = ',' ∨ c = ']' ∨ c = '}')

theorem Ends.head {r : Str} (h : Ends r) : ∃ c r', r = c :: r' ∧ isDig c = false ∧ c ≠ '.' ∧
    c ≠ 'e' ∧ c ≠ 'E' := by
  obtain ⟨c, r', h, hc⟩ := h
  cases r with
  | nil => simp [skipWs] at h
  | cons a r =>
    refine ⟨a, r, rfl, ?_⟩
    rw [skipWs] at h
    split at h
    · next hw => rcases hw with rfl | rfl | rfl | rfl <;> decide
    · cases h; rcases hc with rfl | rfl | rfl <;> decide

theorem map_ok {ε β γ : Type} {x : Except ε β} {f : β → γ} {y : γ} (h : x.map f = .ok y) :
    ∃ a, x = .ok a ∧ f a = y := by
  cases x with
  | error e => cases h
  | ok a => cases h; exact ⟨a, rfl, rfl⟩

theorem bind_ok {ε β γ : Type} {x : Except ε β} {f : β → Except ε γ} {y : γ}
    (h : (x >>= f) = .ok y) : ∃ a, x = .ok a ∧ f a = .ok y := by
  cases x with
  | error e => cases h
  | ok a => exact ⟨a, rfl, h⟩

/-- A string that was read to its closing quotation mark is read in the same way when more text
follows. -/
theorem scanStr_append (n : Nat) (s : Str) (hn : s.length ≤ n) (p : Str × Str)
    (h : scanStr s = .ok p) (t : Str) : scanStr (s ++ t) = .ok (p.1, p.2 ++ t) := by
  induction n generalizing s p with
  | zero =>
    cases s with
    | nil => rw [scanStr] at h; cases h
    | cons c s => simp at hn
  | succ n ih =>
    have hlen : ∀ {r : Str}, r.length < s.length → r.length ≤ n := fun hr => by omega
    rw [scanStr.eq_def] at h
    split at h
    · cases h
    · cases h; simp only [List.cons_append]; rw [scanStr]
    · next a b c d r =>
      simp only [List.cons_append]
      rw [scanStr]
      split at h
      · cases h
      · next v hv =>
        split at h
        · next hc =>
          rw [if_pos hc]
          split at h
          · next a' b' c' d' r' =>
            simp only [List.cons_append]
            split at h
            · cases h
            · next m hm =>
              split at h
              · next hc' =>
                rw [if_pos hc']
                obtain ⟨q, hq, hp⟩ := bind_ok h
                rw [ih r' (by simp only [List.length_cons] at hn; omega) q hq]
                cases hp; rfl
              · cases h
          · cases h
        · next hc =>
          rw [if_neg hc]
          split at h
          · cases h
          · next hc' =>
            rw [if_neg hc']
            obtain ⟨q, hq, hp⟩ := bind_ok h
            rw [ih r (by simp only [List.length_cons] at hn; omega) q hq]
            cases hp; rfl
    · next e r _ =>
      simp only [List.cons_append]
      split at h
      · cases h
      · next c hc =>
        obtain ⟨q, hq, hp⟩ := bind_ok h
        have hu : e ≠ 'u' := by rintro rfl; rw [show unescape 'u' = none by decide] at hc; cases hc
        rw [scanStr_escape e c _ hc hu, ih r (by simp only [List.length_cons] at hn; omega) q hq]
        cases hp; rfl
    · next c r hq' hu' hb' =>
      split at h
      · cases h
      · next h1 =>
        split at h
        · cases h
        · next h2 =>
          obtain ⟨q, hq, hp⟩ := bind_ok h
          have h3 : c ≠ '"' := by rintro rfl; simp_all
          rw [List.cons_append, scanStr_plain c _ h3 h2 h1,
            ih r (by simp only [List.length_cons] at hn; omega) q hq]
          cases hp; rfl

/-! ### numbers -/

theorem takeWhile_append {s t : Str} (h : s.dropWhile isDig ≠ []) :
    (s ++ t).takeWhile isDig = s.takeWhile isDig ∧
      (s ++ t).dropWhile isDig = s.dropWhile isDig ++ t := by
  induction s with
  | nil => simp at h
  | cons c s ih =>
    by_cases hc : isDig c = true
    · simp only [List.dropWhile_cons, hc, if_true] at h
      have := ih h
      simp [hc, this]
    · simp [hc]

theorem scanFrac_append {r t : Str} (h : (scanFrac r).2 ≠ [] ∧ ∀ c ∈ (scanFrac r).2.head?, c ≠ '.') :
    scanFrac (r ++ t) = ((scanFrac r).1, (scanFrac r).2 ++ t) := by
  cases r with
  | nil => simp [scanFrac] at h
  | cons c r =>
    by_cases hc : c = '.'
    · subst hc
      cases hd : r.takeWhile isDig with
      | nil => simp [scanFrac, hd] at h
      | cons d ds =>
        simp only [scanFrac, hd] at h ⊢
        have := takeWhile_append (s := r) (t := t) h.1
        simp [this, hd]
    · have h1 : scanFrac (c :: r) = ([], c :: r) := scanFrac_nil (by simp [hc])
      have h2 : scanFrac (c :: (r ++ t)) = ([], c :: (r ++ t)) := scanFrac_nil (by simp [hc])
      rw [List.cons_append, h2, h1]; rfl

theorem scanExp_append {r t : Str}
    (h : (scanExp r).2 ≠ [] ∧ ∀ c ∈ (scanExp r).2.head?, c ≠ 'e' ∧ c ≠ 'E') :
    scanExp (r ++ t) = ((scanExp r).1, (scanExp r).2 ++ t) := by
  cases r with
  | nil => simp [scanExp] at h
  | cons c r =>
    by_cases hc : c = 'e' ∨ c = 'E'
    · have hs : ∀ s : Str, scanExp (c :: s) = match (splitSign s).2.takeWhile isDig with
        | [] => ([], c :: s)
        | ds => (c :: ((splitSign s).1 ++ ds), (splitSign s).2.dropWhile isDig) := by
        intro s
        simp only [scanExp, if_pos hc]
        cases (splitSign s).2.takeWhile isDig <;> rfl
      rw [List.cons_append, hs]
      rw [hs] at h
      rw [hs r]
      cases hd : (splitSign r).2.takeWhile isDig with
      | nil =>
        rw [hd] at h
        simp only [List.head?_cons, Option.mem_some_iff, forall_eq'] at h
        rcases hc with rfl | rfl <;> simp at h
      | cons d ds =>
        rw [hd] at h
        simp only at h
        have hsp : splitSign (r ++ t) = ((splitSign r).1, (splitSign r).2 ++ t) := by
          cases r with
          | nil => simp [splitSign] at hd
          | cons a r =>
            by_cases h1 : a = '-'
            · subst h1; rfl
            · by_cases h2 : a = '+'
              · subst h2; rfl
              · have : ∀ x : Str, splitSign (a :: x) = ([], a :: x) := by
                  intro x
                  rw [splitSign.eq_def]
                  split
                  · next hh => cases hh; exact absurd rfl h1
                  · next hh => cases hh; exact absurd rfl h2
                  · rfl
                rw [List.cons_append, this, this]; rfl
        have := takeWhile_append (s := (splitSign r).2) (t := t) h.1
        rw [hsp]
        simp only [this, hd]
    · have h1 : ∀ s : Str, scanExp (c :: s) = ([], c :: s) := fun s =>
        scanExp_nil (by
          simp only [List.head?_cons, Option.mem_some_iff, forall_eq']
          exact ⟨fun h => hc (.inl h), fun h => hc (.inr h)⟩)
      rw [List.cons_append, h1, h1]; rfl

theorem scanInt_append {s t : Str} {q : Str × Str × Str} (h : scanInt s = some q) (hq : q.2.2 ≠ []) :
    scanInt (s ++ t) = some (q.1, q.2.1, q.2.2 ++ t) := by
  have hne : (splitMinus s).2 ≠ [] := by
    intro h0
    unfold scanInt at h
    rw [h0] at h
    simp at h
  have hsp : splitMinus (s ++ t) = ((splitMinus s).1, (splitMinus s).2 ++ t) := by
    cases s with
    | nil => simp [splitMinus] at hne
    | cons a s =>
      by_cases h1 : a = '-'
      · subst h1; rfl
      · have : ∀ x : Str, splitMinus (a :: x) = ([], a :: x) := by
          intro x
          rw [splitMinus.eq_def]
          split
          · next hh => cases hh; exact absurd rfl h1
          · rfl
        rw [List.cons_append, this, this]; rfl
  unfold scanInt at h ⊢
  rw [hsp]
  generalize hr : (splitMinus s).2 = r at *
  cases r with
  | nil => exact absurd rfl hne
  | cons c r =>
    by_cases hc : c = '0'
    · subst hc
      simp only [Option.some.injEq] at h
      subst h
      rfl
    · simp only [List.cons_append]
      split at h
      · next hh => cases hh; exact absurd rfl hc
      split
      · next hh => cases hh; exact absurd rfl hc
      split at h
      · cases h
      · next ds hds =>
        simp only [Option.some.injEq] at h
        subst h
        have := takeWhile_append (s := c :: r) (t := t) hq
        simp only [List.cons_append] at this
        rw [this.1, this.2]
        split
        · next h0 => exact absurd h0 hds
        · rfl

theorem scanNumber_append {s t : Str} {p : Json × Str} (h : scanNumber s = .ok p) (hp : Ends p.2) :
    scanNumber (s ++ t) = .ok (p.1, p.2 ++ t) := by
  obtain ⟨c, r', hr, hd⟩ := hp.head
  unfold scanNumber at h
  split at h
  · cases h
  · next sign ds r hi =>
    have h2 : p.2 = (scanExp (scanFrac r).2).2 := by
      simp only at h
      split at h
      · split at h
        · cases h; rfl
        · cases h
      · cases h; rfl
    have he : (scanExp (scanFrac r).2).2 = c :: r' := by rw [← h2, hr]
    have e1 := scanExp_append (r := (scanFrac r).2) (t := t)
      ⟨by rw [he]; simp, by rw [he]; simpa using hd.2.2⟩
    have hf : (scanFrac r).2 ≠ [] ∧ ∀ c ∈ (scanFrac r).2.head?, c ≠ '.' := by
      constructor
      · intro h0; rw [h0] at he; simp [scanExp] at he
      · intro a ha
        cases hx : (scanFrac r).2 with
        | nil => rw [hx] at ha; cases ha
        | cons b x =>
          rw [hx] at ha he
          simp only [List.head?_cons, Option.mem_some_iff] at ha
          subst ha
          by_cases hb : b = 'e' ∨ b = 'E'
          · rcases hb with rfl | rfl <;> decide
          · have h1 : scanExp (b :: x) = ([], b :: x) := scanExp_nil (by
              simp only [List.head?_cons, Option.mem_some_iff, forall_eq']
              exact ⟨fun h => hb (.inl h), fun h => hb (.inr h)⟩)
            rw [h1] at he
            cases he
            exact hd.2.1
    have e2 := scanFrac_append (t := t) hf
    have hr0 : r ≠ [] := by
      rintro rfl
      simp [scanFrac] at hf
    have e3 := scanInt_append (t := t) hi hr0
    unfold scanNumber
    rw [e3]
    dsimp only
    rw [e2]
    dsimp only
    rw [e1]
    dsimp only
    simp only at h
    split at h
    · next hc =>
      rw [if_pos hc]
      split at h
      · cases h; rfl
      · cases h
    · next hc => rw [if_neg hc]; cases h; rfl

/-! ### values -/

theorem dropPrefix_some {p s r : Str} (h : dropPrefix p s = some r) : s = p ++ r := by
  induction p generalizing s with
  | nil => simp only [dropPrefix, Option.some.injEq] at h; exact h
  | cons a p ih =>
    cases s with
    | nil => simp [dropPrefix] at h
    | cons b s =>
      simp only [dropPrefix] at h
      split at h
      · next hab => rw [ih h, hab]; rfl
      · cases h

/-- On a text from which a number can be read, none of the words can be, whatever follows. -/
theorem scanAtom_number {s t : Str} {p : Json × Str} (h : scanNumber s = .ok p) :
    scanAtom (s ++ t) = scanNumber (s ++ t) := by
  cases s with
  | nil => simp [scanNumber, scanInt, splitMinus] at h
  | cons c s =>
    by_cases hd : isDig c = true
    · exact scanAtom_digit hd
    · have hc : c = '-' := by
        by_contra hne
        have hm : splitMinus (c :: s) = ([], c :: s) := by
          rw [splitMinus.eq_def]
          split
          · next hh => cases hh; exact absurd rfl hne
          · rfl
        have : scanInt (c :: s) = none := by
          unfold scanInt
          rw [hm]
          split
          · next hh => cases hh; exact absurd (by decide) hd
          · simp [hd]
        rw [scanNumber, this] at h
        cases h
      subst hc
      cases s with
      | nil => simp [scanNumber, scanInt, splitMinus] at h
      | cons a s =>
        by_cases ha : isDig a = true
        · exact scanAtom_minus ha
        · exfalso
          have : scanInt ('-' :: a :: s) = none := by
            unfold scanInt
            rw [show splitMinus ('-' :: a :: s) = (['-'], a :: s) from rfl]
            split
            · next hh => cases hh; exact absurd (by decide) ha
            · simp [ha]
          rw [scanNumber, this] at h
          cases h

theorem scanAtom_append {s t : Str} {p : Json × Str} (h : scanAtom s = .ok p) (hp : Ends p.2) :
    scanAtom (s ++ t) = .ok (p.1, p.2 ++ t) := by
  have h0 := h
  unfold scanAtom at h
  split at h
  · next r hr => cases h; rw [dropPrefix_some hr]; simp [scanAtom, dropPrefix]
  split at h
  · next r hr => cases h; rw [dropPrefix_some hr]; simp [scanAtom, dropPrefix]
  split at h
  · next r hr => cases h; rw [dropPrefix_some hr]; simp [scanAtom, dropPrefix]
  split at h
  · next r hr => cases h; rw [dropPrefix_some hr]; simp [scanAtom, dropPrefix]
  split at h
  · next r hr => cases h; rw [dropPrefix_some hr]; simp [scanAtom, dropPrefix]
  split at h
  · next r hr => cases h; rw [dropPrefix_some hr]; simp [scanAtom, dropPrefix]
  rw [scanAtom_number h, scanNumber_append h hp]

theorem scanAtom_nil : scanAtom [] = .error .value := by simp [scanAtom, dropPrefix, scanNumber, scanInt, splitMinus]

theorem scanItems_nil (n : Nat) : scanItems n [] = .error .value := by
  cases n with
  | zero => rw [scanItems]
  | succ n =>
    rw [scanItems]
    cases n with
    | zero => rw [scanValue]; rfl
    | succ n => rw [scanValue, scanAtom_nil] <;> simp [bind, Except.bind]

theorem scanPairs_nil (n : Nat) : scanPairs n [] = .error .value := by
  cases n with
  | zero => rw [scanPairs]
  | succ n => rw [scanPairs]; simp

/-- does the value end with a bracket, a brace or a quotation mark? -/
def Json.closed : Json → Bool
  | .str _ => true
  | .list _ => true
  | .dict _ => true
  | _ => false

theorem scanAtom_not_closed {s : Str} {p : Json × Str} (h : scanAtom s = .ok p) :
    p.1.closed = false := by
  unfold scanAtom at h
  split at h
  · cases h; rfl
  split at h
  · cases h; rfl
  split at h
  · cases h; rfl
  split at h
  · cases h; rfl
  split at h
  · cases h; rfl
  split at h
  · cases h; rfl
  unfold scanNumber at h
  split at h
  · cases h
  · simp only at h
    split at h
    · split at h
      · cases h; rfl
      · cases h
    · cases h; rfl

mutual
/-- A value that was read, and after which it is clear that it has ended, is read in the same way
when more text follows (and with more fuel). -/
theorem scanValue_append (n m : Nat) (hm : n ≤ m) (s t : Str) (p : Json × Str)
    (h : scanValue n s = .ok p) (hp : p.1.closed = true ∨ Ends p.2) :
    scanValue m (s ++ t) = .ok (p.1, p.2 ++ t) := by
  match n, m, hm with
  | 0, _, _ => rw [scanValue] at h; cases h
  | n + 1, m + 1, hm =>
    have hnm : n ≤ m := by omega
    cases s with
    | nil =>
      rw [scanValue, scanAtom_nil] at h
      · cases h
      all_goals simp
    | cons c r =>
      rw [List.cons_append]
      by_cases h1 : c = '"'
      · subst h1
        rw [scanValue] at h ⊢
        obtain ⟨q, hq, hp'⟩ := bind_ok h
        rw [scanStr_append _ r (Nat.le_refl _) q hq]
        cases hp'; rfl
      by_cases h2 : c = '['
      · subst h2
        rw [scanValue] at h ⊢
        split at h
        · next r' hr =>
          rw [skipWs_append hr]; cases h; rfl
        · next hne =>
          obtain ⟨q, hq, hp'⟩ := bind_ok h
          cases hs : skipWs r with
          | nil => rw [hs, scanItems_nil] at hq; cases hq
          | cons a r' =>
            have ha : a ≠ ']' := by rintro rfl; exact hne r' hs
            rw [hs] at hq
            have := scanItems_append n m hnm (a :: r') t q hq
            rw [skipWs_append hs]
            split
            · next hh => cases hh; exact absurd rfl ha
            · rw [List.cons_append] at this
              rw [this]
              cases hp'; rfl
      by_cases h3 : c = '{'
      · subst h3
        rw [scanValue] at h ⊢
        split at h
        · next r' hr =>
          rw [skipWs_append hr]; cases h; rfl
        · next hne =>
          obtain ⟨q, hq, hp'⟩ := bind_ok h
          cases hs : skipWs r with
          | nil => rw [hs, scanPairs_nil] at hq; cases hq
          | cons a r' =>
            have ha : a ≠ '}' := by rintro rfl; exact hne r' hs
            rw [hs] at hq
            have := scanPairs_append n m hnm (a :: r') t q hq
            rw [skipWs_append hs]
            split
            · next hh => cases hh; exact absurd rfl ha
            · rw [List.cons_append] at this
              rw [this]
              cases hp'; rfl
      · rw [scanValue_atom h1 h2 h3] at h ⊢
        rcases hp with hp | hp
        · rw [scanAtom_not_closed h] at hp; cases hp
        · exact scanAtom_append h hp
theorem scanItems_append (n m : Nat) (hm : n ≤ m) (s t : Str) (p : List Json × Str)
    (h : scanItems n s = .ok p) : scanItems m (s ++ t) = .ok (p.1, p.2 ++ t) := by
  match n, m, hm with
  | 0, _, _ => rw [scanItems] at h; cases h
  | n + 1, m + 1, hm =>
    have hnm : n ≤ m := by omega
    rw [scanItems] at h ⊢
    obtain ⟨⟨v, r⟩, hq, hp⟩ := bind_ok h
    simp only at hp
    split at hp
    · next r' hr =>
      rw [scanValue_append n m hnm s t _ hq (.inr ⟨_, _, hr, by decide⟩)]
      simp only [bind, Except.bind]
      rw [skipWs_append hr]
      cases hp; rfl
    · next r' hr =>
      rw [scanValue_append n m hnm s t _ hq (.inr ⟨_, _, hr, by decide⟩)]
      obtain ⟨q, hq', hp'⟩ := bind_ok hp
      simp only [bind, Except.bind]
      rw [skipWs_append hr]
      simp only
      cases hs : skipWs r' with
      | nil => rw [hs, scanItems_nil] at hq'; cases hq'
      | cons a r'' =>
        rw [hs] at hq'
        have := scanItems_append n m hnm (a :: r'') t q hq'
        rw [skipWs_append hs]
        rw [List.cons_append] at this
        rw [this]
        cases hp'; rfl
    · cases hp
theorem scanPairs_append (n m : Nat) (hm : n ≤ m) (s t : Str) (p : List (Str × Json) × Str)
    (h : scanPairs n s = .ok p) : scanPairs m (s ++ t) = .ok (p.1, p.2 ++ t) := by
  match n, m, hm with
  | 0, _, _ => rw [scanPairs] at h; cases h
  | n + 1, m + 1, hm =>
    have hnm : n ≤ m := by omega
    rw [scanPairs.eq_def] at h
    simp only at h
    split at h
    · next r =>
      rw [List.cons_append, scanPairs]
      obtain ⟨⟨k, r1⟩, hk, hp⟩ := bind_ok h
      rw [scanStr_append _ r (Nat.le_refl _) _ hk]
      simp only [bind, Except.bind] at hp ⊢
      split at hp
      · next r2 hr2 =>
        rw [skipWs_append hr2]
        simp only
        cases hs : skipWs r2 with
        | nil =>
          rw [hs] at hp
          cases n with
          | zero => rw [scanValue] at hp; cases hp
          | succ n =>
            rw [scanValue, scanAtom_nil] at hp
            · cases hp
            all_goals simp
        | cons a r2' =>
          rw [hs] at hp
          cases hv : scanValue n (a :: r2') with
          | error e => rw [hv] at hp; cases hp
          | ok q =>
            obtain ⟨v, r3⟩ := q
            rw [hv] at hp
            simp only at hp
            rw [skipWs_append hs]
            split at hp
            · next r' hr =>
              have := scanValue_append n m hnm (a :: r2') t _ hv (.inr ⟨_, _, hr, by decide⟩)
              rw [List.cons_append] at this
              rw [this]
              simp only
              rw [skipWs_append hr]
              cases hp; rfl
            · next r' hr =>
              have := scanValue_append n m hnm (a :: r2') t _ hv (.inr ⟨_, _, hr, by decide⟩)
              rw [List.cons_append] at this
              rw [this]
              simp only
              rw [skipWs_append hr]
              simp only
              cases hs' : skipWs r' with
              | nil => rw [hs', scanPairs_nil] at hp; cases hp
              | cons b r'' =>
                rw [hs'] at hp
                cases hl : scanPairs n (b :: r'') with
                | error e => rw [hl] at hp; cases hp
                | ok q =>
                  rw [hl] at hp
                  have := scanPairs_append n m hnm (b :: r'') t q hl
                  rw [skipWs_append hs']
                  rw [List.cons_append] at this
                  rw [this]
                  cases hp; rfl
            · cases hp
      · cases hp
    · cases h
end

/-! ### every failure is a `JSONDecodeError` -/

theorem bind_error {ε β γ : Type} {x : Except ε β} {f : β → Except ε γ} {e : ε}
    (h : (x >>= f) = .error e) : x = .error e ∨ ∃ a, x = .ok a ∧ f a = .error e := by
  cases x with
  | error e' => cases h; exact .inl rfl
  | ok a => exact .inr ⟨a, rfl, h⟩

theorem scanStr_error (n : Nat) (s : Str) (hn : s.length ≤ n) (e : Err)
    (h : scanStr s = .error e) : e = .value := by
  induction n generalizing s with
  | zero =>
    cases s with
    | nil => rw [scanStr] at h; cases h; rfl
    | cons c s => simp at hn
  | succ n ih =>
    rw [scanStr.eq_def] at h
    split at h
    · cases h; rfl
    · cases h
    · split at h
      · cases h; rfl
      · split at h
        · split at h
          · split at h
            · cases h; rfl
            · split at h
              · rcases bind_error h with h | ⟨a, _, h⟩
                · exact ih _ (by simp only [List.length_cons] at hn; omega) h
                · cases h
              · cases h; rfl
          · cases h; rfl
        · split at h
          · cases h; rfl
          · rcases bind_error h with h | ⟨a, _, h⟩
            · exact ih _ (by simp only [List.length_cons] at hn; omega) h
            · cases h
    · split at h
      · cases h; rfl
      · rcases bind_error h with h | ⟨a, _, h⟩
        · exact ih _ (by simp only [List.length_cons] at hn; omega) h
        · cases h
    · split at h
      · cases h; rfl
      · split at h
        · cases h; rfl
        · rcases bind_error h with h | ⟨a, _, h⟩
          · exact ih _ (by simp only [List.length_cons] at hn; omega) h
          · cases h

theorem scanAtom_error {s : Str} {e : Err} (h : scanAtom s = .error e) : e = .value := by
  unfold scanAtom at h
  split at h
  · cases h
  split at h
  · cases h
  split at h
  · cases h
  split at h
  · cases h
  split at h
  · cases h
  split at h
  · cases h
  unfold scanNumber at h
  split at h
  · cases h; rfl
  · simp only at h
    split at h
    · split at h
      · cases h
      · cases h; rfl
    · cases h

mutual
theorem scanValue_error (n : Nat) (s : Str) (e : Err) (h : scanValue n s = .error e) :
    e = .value := by
  match n with
  | 0 => rw [scanValue] at h; cases h; rfl
  | n + 1 =>
    rw [scanValue.eq_def] at h
    simp only at h
    split at h
    · rcases bind_error h with h | ⟨a, _, h⟩
      · exact scanStr_error _ _ (Nat.le_refl _) e h
      · cases h
    · split at h
      · cases h
      · rcases bind_error h with h | ⟨a, _, h⟩
        · exact scanItems_error n _ e h
        · cases h
    · split at h
      · cases h
      · rcases bind_error h with h | ⟨a, _, h⟩
        · exact scanPairs_error n _ e h
        · cases h
    · exact scanAtom_error h
theorem scanItems_error (n : Nat) (s : Str) (e : Err) (h : scanItems n s = .error e) :
    e = .value := by
  match n with
  | 0 => rw [scanItems] at h; cases h; rfl
  | n + 1 =>
    rw [scanItems] at h
    rcases bind_error h with h | ⟨a, _, h⟩
    · exact scanValue_error n _ e h
    · simp only at h
      split at h
      · cases h
      · rcases bind_error h with h | ⟨a, _, h⟩
        · exact scanItems_error n _ e h
        · cases h
      · cases h; rfl
theorem scanPairs_error (n : Nat) (s : Str) (e : Err) (h : scanPairs n s = .error e) :
    e = .value := by
  match n with
  | 0 => rw [scanPairs] at h; cases h; rfl
  | n + 1 =>
    rw [scanPairs.eq_def] at h
    simp only at h
    split at h
    · rcases bind_error h with h | ⟨a, _, h⟩
      · exact scanStr_error _ _ (Nat.le_refl _) e h
      · try simp only at h
        split at h
        · rcases bind_error h with h | ⟨b, _, h⟩
          · exact scanValue_error n _ e h
          · try simp only at h
            split at h
            · cases h
            · rcases bind_error h with h | ⟨c, _, h⟩
              · exact scanPairs_error n _ e h
              · cases h
            · cases h; rfl
        · cases h; rfl
    · cases h; rfl
end

theorem loads_error {s : Str} {e : Err} (h : loads s = .error e) : e = .value := by
  rw [loads] at h
  rcases bind_error h with h | ⟨a, _, h⟩
  · exact scanValue_error _ _ e h
  · simp only at h
    split at h
    · cases h
    · cases h; rfl

theorem scanValue_closed {n : Nat} {c : Char} {r : Str} {p : Json × Str}
    (hc : c = '"' ∨ c = '[' ∨ c = '{') (h : scanValue n (c :: r) = .ok p) : p.1.closed = true := by
  cases n with
  | zero => rw [scanValue] at h; cases h
  | succ n =>
    rcases hc with rfl | rfl | rfl
    · rw [scanValue] at h
      obtain ⟨q, _, h⟩ := bind_ok h
      cases h; rfl
    · rw [scanValue] at h
      split at h
      · cases h; rfl
      · obtain ⟨q, _, h⟩ := bind_ok h
        cases h; rfl
    · rw [scanValue] at h
      split at h
      · cases h; rfl
      · obtain ⟨q, _, h⟩ := bind_ok h
        cases h; rfl

/-- A proper prefix of a text that is read completely, and that begins with a quotation mark, a
bracket or a brace, is rejected by `json.loads` with a `JSONDecodeError`. -/
theorem loads_prefix {c : Char} {r s t : Str} {v : Json} {n : Nat} (hc : c = '"' ∨ c = '[' ∨ c = '{')
    (htext : c :: r = s ++ t) (hn : (c :: r).length + 1 ≤ n)
    (h : scanValue n (c :: r) = .ok (v, [])) (ht : t ≠ []) : loads s = .error .value := by
  cases hl : loads s with
  | error e => rw [loads_error hl]
  | ok w =>
    exfalso
    rw [loads] at hl
    obtain ⟨⟨w', rest⟩, hs, hw⟩ := bind_ok hl
    cases s with
    | nil =>
      simp only [skipWs, List.length_nil] at hs
      rw [scanValue, scanAtom_nil] at hs
      · cases hs
      all_goals simp
    | cons a s =>
      simp only [List.cons_append, List.cons.injEq] at htext
      obtain ⟨rfl, rfl⟩ := htext
      have hws : skipWs (c :: s) = c :: s := by
        rcases hc with rfl | rfl | rfl <;> simp [skipWs]
      rw [hws] at hs
      have := scanValue_append _ n (by simp only [List.length_cons, List.length_append] at hn ⊢; omega)
        (c :: s) t _ hs (.inl (scanValue_closed hc hs))
      rw [List.cons_append, h] at this
      simp only [Except.ok.injEq, Prod.mk.injEq] at this
      have := this.2.symm
      rw [List.append_eq_nil_iff] at this
      exact ht this.2

/-- The text of an object or an array, cut off anywhere, is not JSON. -/
theorem loads_truncated (v : Json) (hv : v.Valid) (hc : v.closed = true) (s t : Str)
    (htext : dumpsDefault v = s ++ t) (ht : t ≠ []) : loads s = .error .value := by
  have h := scanValue_dumpsDefault v hv ((dumpsDefault v).length + 1) [] (by omega) (by simp [Stop])
  rw [List.append_nil] at h
  have : ∃ c r, dumpsDefault v = c :: r ∧ (c = '"' ∨ c = '[' ∨ c = '{') := by
    cases v with
    | str s => rw [dumpsDefault]; exact ⟨_, _, rfl, by decide⟩
    | list l => cases l <;> rw [dumpsDefault] <;> exact ⟨_, _, rfl, by decide⟩
    | dict l => rcases l with _ | ⟨⟨k, v⟩, l⟩ <;> rw [dumpsDefault] <;> exact ⟨_, _, rfl, by decide⟩
    | null => cases hc
    | bool b => cases hc
    | int z => cases hc
    | float t => cases hc
  obtain ⟨c, r, hcr, hc'⟩ := this
  rw [hcr] at h htext
  exact loads_prefix hc' htext (Nat.le_refl _) h ht

end Pibronic.Py
