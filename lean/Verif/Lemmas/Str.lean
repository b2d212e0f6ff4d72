import Verif.Py.Str
import Mathlib.Data.List.Infix

set_option autoImplicit false

/-! Helper lemmas about the Python string built-ins. -/
namespace Pibronic.Py

/-! ### digits -/

theorem digitVal_digit {d : Nat} (h : d < 10) : digitVal (digit d) = some d := by
  have : ∀ d : Fin 10, digitVal (digit d) = some d.1 := by decide
  exact this ⟨d, h⟩

/-- characters that are decimal digits -/
def IsDigit (c : Char) : Prop := digitVal c ≠ none

theorem isDigit_digit {d : Nat} (h : d < 10) : IsDigit (digit d) := by
  simp [IsDigit, digitVal_digit h]

theorem natStr_isDigit (n : Nat) : ∀ c ∈ natStr n, IsDigit c := by
  induction n using Nat.strongRecOn with
  | _ n ih =>
    rw [natStr]
    split
    · next h => simp only [List.mem_singleton, forall_eq]; exact isDigit_digit h
    · next h =>
      intro c hc
      rcases List.mem_append.mp hc with hc | hc
      · exact ih _ (by omega) c hc
      · rw [List.mem_singleton.mp hc]; exact isDigit_digit (by omega)

theorem natStr_ne_nil (n : Nat) : natStr n ≠ [] := by
  rw [natStr]; split <;> simp

theorem digitsVal_append (acc : Nat) (s t : Str) :
    digitsVal acc (s ++ t) = (digitsVal acc s).bind fun a => digitsVal a t := by
  induction s generalizing acc with
  | nil => rfl
  | cons c s ih =>
    simp only [List.cons_append, digitsVal]
    cases digitVal c with
    | none => rfl
    | some d => exact ih _

theorem digitsVal_natStr (n : Nat) : digitsVal 0 (natStr n) = some n := by
  induction n using Nat.strongRecOn with
  | _ n ih =>
    rw [natStr]
    split
    · next h => simp [digitsVal, digitVal_digit h]
    · next h =>
      rw [digitsVal_append, ih _ (by omega)]
      simp only [Option.bind_some, digitsVal, digitVal_digit (show n % 10 < 10 by omega),
        Option.some.injEq]
      omega

theorem scanDigits_digitsVal {s : Str} (h : ∀ c ∈ s, IsDigit c) (acc : Nat) :
    scanDigits false acc s = digitsVal acc s := by
  induction s generalizing acc with
  | nil => rfl
  | cons c s ih =>
    have hc : c ≠ '_' := by
      rintro rfl
      exact h _ List.mem_cons_self (by decide)
    rw [scanDigits, digitsVal, if_neg hc]
    cases digitVal c with
    | none => rfl
    | some d => exact ih (fun x hx => h x (List.mem_cons_of_mem _ hx)) _

theorem unsignedVal_digits {s : Str} (h : ∀ c ∈ s, IsDigit c) (hs : s ≠ []) :
    unsignedVal s = digitsVal 0 s := by
  cases s with
  | nil => exact absurd rfl hs
  | cons c s =>
    have hc : c ≠ '_' := by
      rintro rfl
      exact h _ List.mem_cons_self (by decide)
    rw [unsignedVal, scanDigits, digitsVal, if_neg hc]
    cases digitVal c with
    | none => rfl
    | some d => exact scanDigits_digitsVal (fun x hx => h x (List.mem_cons_of_mem _ hx)) _

theorem isSpace_digit {c : Char} (h : IsDigit c) : isSpace c = false := by
  by_contra hn
  simp only [Bool.not_eq_false, isSpace, Bool.or_eq_true, beq_iff_eq] at hn
  rcases hn with ((((rfl | rfl) | rfl) | rfl) | rfl) | rfl <;> exact h (by decide)

theorem dropWhile_digits {s : Str} (h : ∀ c ∈ s, IsDigit c) : s.dropWhile isSpace = s := by
  cases s with
  | nil => rfl
  | cons c s => simp [List.dropWhile, isSpace_digit (h c List.mem_cons_self)]

/-- `int(str(n)) = n`, also with white space after it. -/
theorem pyInt_natStr_spaces (n : Nat) (tail : Str) (ht : ∀ c ∈ tail, isSpace c = true) :
    pyIntSigned (natStr n ++ tail) = .ok n ∧ pyInt (natStr n ++ tail) = .ok n := by
  have hd := natStr_isDigit n
  have hs : stripWs (natStr n ++ tail) = natStr n := by
    unfold stripWs
    have h1 : (natStr n ++ tail).dropWhile isSpace = natStr n ++ tail := by
      cases hs : natStr n with
      | nil => exact absurd hs (natStr_ne_nil n)
      | cons c s =>
        have := isSpace_digit (hd c (by rw [hs]; exact List.mem_cons_self))
        simp [List.dropWhile, this]
    rw [h1, List.reverse_append,
      List.dropWhile_append_of_pos (fun c hc => ht c (List.mem_reverse.1 hc)),
      dropWhile_digits fun c hc => hd c (List.mem_reverse.1 hc), List.reverse_reverse]
  have key : pyIntSigned (natStr n ++ tail) = .ok n := by
    unfold pyIntSigned
    rw [hs]
    have h := digitsVal_natStr n
    cases hn : natStr n with
    | nil => exact absurd hn (natStr_ne_nil n)
    | cons c s =>
      rw [hn] at h hd
      have hc := hd c List.mem_cons_self
      have h1 : c ≠ '-' := by rintro rfl; exact hc (by decide)
      have h2 : c ≠ '+' := by rintro rfl; exact hc (by decide)
      simp only [if_neg h1, if_neg h2, unsignedVal_digits hd (List.cons_ne_nil _ _), h]
  refine ⟨key, ?_⟩
  unfold pyInt
  rw [key]

/-- `int(str(n)) = n` -/
theorem pyInt_natStr (n : Nat) : pyInt (natStr n) = .ok n := by
  simpa using (pyInt_natStr_spaces n [] (by simp)).2

theorem natStr_injective {m n : Nat} (h : natStr m = natStr n) : m = n := by
  have h1 := pyInt_natStr m
  rw [h, pyInt_natStr n] at h1
  exact (Except.ok.inj h1).symm

theorem digitsVal_isDigit {acc : Nat} {s : Str} {n : Nat} (h : digitsVal acc s = some n) :
    ∀ c ∈ s, IsDigit c := by
  induction s generalizing acc with
  | nil => simp
  | cons c s ih =>
    simp only [digitsVal] at h
    intro d hd
    cases hc : digitVal c with
    | none => rw [hc] at h; cases h
    | some v =>
      rw [hc] at h
      rcases List.mem_cons.mp hd with rfl | hd
      · simp [IsDigit, hc]
      · exact ih h d hd

theorem scanDigits_chars {gap : Bool} {acc : Nat} {s : Str} {n : Nat}
    (h : scanDigits gap acc s = some n) : ∀ c ∈ s, IsDigit c ∨ c = '_' := by
  induction s generalizing acc gap with
  | nil => simp
  | cons a s ih =>
    rw [scanDigits] at h
    intro c hc
    by_cases ha : a = '_'
    · rw [if_pos ha] at h
      rcases List.mem_cons.1 hc with rfl | hc
      · exact .inr ha
      · cases gap with
        | true => simp at h
        | false => exact ih (by simpa using h) c hc
    · rw [if_neg ha] at h
      cases hv : digitVal a with
      | none => rw [hv] at h; cases h
      | some d =>
        rw [hv] at h
        rcases List.mem_cons.1 hc with rfl | hc
        · exact .inl (by simp [IsDigit, hv])
        · exact ih h c hc

theorem mem_dropWhile {p : Char → Bool} {c : Char} (hp : p c = false) {l : Str} (h : c ∈ l) :
    c ∈ l.dropWhile p := by
  induction l with
  | nil => simp at h
  | cons x l ih =>
    by_cases hx : p x = true
    · rw [List.dropWhile_cons_of_pos hx]
      rcases List.mem_cons.1 h with rfl | h
      · rw [hp] at hx; cases hx
      · exact ih h
    · rw [List.dropWhile_cons_of_neg hx]; exact h

/-- The only error of `int(s)` is `ValueError`. -/
theorem pyIntSigned_value {s : Str} {e : Err} (h : pyIntSigned s = .error e) : e = .value := by
  unfold pyIntSigned at h
  split at h
  · cases h; rfl
  · split at h <;> split at h <;> cases h <;> rfl

/-- A character that no text of an integer contains: no digit, no sign, no underscore, no white space
(all in ASCII). -/
def Foreign (c : Char) : Prop :=
  c.toNat < 128 ∧ digitVal c = none ∧ isSpace c = false ∧ c ≠ '+' ∧ c ≠ '-' ∧ c ≠ '_'

instance (c : Char) : Decidable (Foreign c) := inferInstanceAs (Decidable (_ ∧ _))

/-- `int(s)` raises `ValueError` for a text with a foreign character. -/
theorem pyIntSigned_error {s : Str} {c : Char} (hc : c ∈ s) (hf : Foreign c) :
    pyIntSigned s = .error .value := by
  obtain ⟨-, hd, hs, hp, hm, hu⟩ := hf
  have hmem : c ∈ stripWs s := by
    unfold stripWs
    rw [List.mem_reverse]
    exact mem_dropWhile hs (List.mem_reverse.2 (mem_dropWhile hs hc))
  unfold pyIntSigned
  split
  · rfl
  · next a t ht =>
    rw [ht] at hmem
    have bad : ∀ l : Str, c ∈ l → unsignedVal l = none := fun l hl => by
      cases h : unsignedVal l with
      | none => rfl
      | some n =>
        rcases scanDigits_chars h c hl with h | h
        · exact absurd hd h
        · exact absurd h hu
    by_cases h1 : a = '-'
    · subst h1
      rw [if_pos rfl, bad t (by
        rcases List.mem_cons.1 hmem with h | h
        · exact absurd h hm
        · exact h)]
    · rw [if_neg h1]
      by_cases h2 : a = '+'
      · subst h2
        rw [if_pos rfl, bad t (by
          rcases List.mem_cons.1 hmem with h | h
          · exact absurd h hp
          · exact h)]
      · rw [if_neg h2, bad _ hmem]

@[inherit_doc pyIntSigned_error]
theorem pyInt_error {s : Str} {c : Char} (hc : c ∈ s) (hf : Foreign c) :
    pyInt s = .error .value := by
  unfold pyInt
  rw [pyIntSigned_error hc hf]

theorem not_isDigit_of {c : Char} (h : digitVal c = none) : ¬ IsDigit c := by simp [IsDigit, h]

/-! ### find -/

theorem dropPrefix_append (p r : Str) : dropPrefix p (p ++ r) = some r := by
  induction p with
  | nil => rfl
  | cons c p ih => simp [dropPrefix, ih]

/-- If the first character of the separator does not occur before it, it is found there. -/
theorem find_of_notMem (c : Char) (cs a b : Str) (h : c ∉ a) :
    find (c :: cs) (a ++ (c :: cs) ++ b) = some (a, b) := by
  induction a with
  | nil =>
    have := dropPrefix_append (c :: cs) b
    simp only [List.nil_append, List.cons_append] at this ⊢
    rw [find, this]
  | cons d a ih =>
    have hdc : c ≠ d := fun e => h (by simp [e])
    have ih' := ih (fun hm => h (by simp [hm]))
    simp only [List.cons_append] at ih' ⊢
    rw [find]
    simp only [dropPrefix, hdc, if_false]
    rw [ih']; rfl

/-- If the separator's first character does not occur again in it, and the separator does not
occur in `a`, it is found right after `a`. -/
theorem find_of_not_infix (c : Char) (cs a b : Str) (hcs : c ∉ cs) (h : ¬ (c :: cs) <:+: a) :
    find (c :: cs) (a ++ (c :: cs) ++ b) = some (a, b) := by
  induction a with
  | nil =>
    have := dropPrefix_append (c :: cs) b
    simp only [List.nil_append, List.cons_append] at this ⊢
    rw [find, this]
  | cons d a ih =>
    have ih' := ih (fun hm => h (hm.trans (List.infix_cons List.infix_rfl)))
    simp only [List.cons_append] at ih' ⊢
    rw [find]
    have hnone : dropPrefix (c :: cs) (d :: (a ++ c :: (cs ++ b))) = none := by
      cases hdp : dropPrefix (c :: cs) (d :: (a ++ c :: (cs ++ b))) with
      | none => rfl
      | some r =>
        exfalso
        have he := dropPrefix_eq hdp
        simp only [List.cons_append, List.cons.injEq] at he
        obtain ⟨hd, he⟩ := he
        -- `a ++ c :: (cs ++ b) = cs ++ r`
        rcases List.append_eq_append_iff.mp he with ⟨e, h1, h2⟩ | ⟨e, h1, h2⟩
        · -- cs = a ++ e, c :: .. = e ++ r
          cases e with
          | nil =>
            apply h
            rw [hd, h1]; simp
          | cons x e =>
            simp only [List.cons_append, List.cons.injEq] at h2
            apply hcs
            rw [h1, ← h2.1]; simp
        · apply h
          rw [h1, hd]
          exact ⟨[], e, by simp⟩
    have hnone' : dropPrefix (c :: cs) (d :: (a ++ c :: cs ++ b)) = none := by
      rw [← hnone]; simp
    rw [hnone']
    simp only
    rw [ih']; rfl

theorem find_none_of_notMem (c : Char) (cs s : Str) (h : c ∉ s) : find (c :: cs) s = none := by
  induction s with
  | nil => rfl
  | cons d s ih =>
    have hdc : c ≠ d := fun e => h (by simp [e])
    rw [find]
    simp only [dropPrefix, hdc, if_false]
    rw [ih (fun hm => h (by simp [hm]))]; rfl

theorem find_none_of_not_infix (sep s : Str) (h : ¬ sep <:+: s) : find sep s = none := by
  cases hf : find sep s with
  | none => rfl
  | some pr =>
    obtain ⟨a, b⟩ := pr
    exact absurd ⟨a, b, (find_eq hf).symm⟩ h

/-! ### split -/

theorem split_of_find (c : Char) (cs s a b : Str) (h : find (c :: cs) s = some (a, b)) :
    split (c :: cs) s = a :: split (c :: cs) b := by
  rw [split]; split
  · next h' => rw [h] at h'; cases h'
  · next a' b' h' => rw [h] at h'; cases h'; rfl

theorem split_of_find_none (c : Char) (cs s : Str) (h : find (c :: cs) s = none) :
    split (c :: cs) s = [s] := by
  rw [split]; split
  · rfl
  · next a' b' h' => rw [h] at h'; cases h'

/-- `split` always has a first piece: the text before the first separator, or everything. -/
theorem split_head (c : Char) (cs s : Str) :
    item (split (c :: cs) s) 0 = .ok (match find (c :: cs) s with | some (a, _) => a | none => s) := by
  cases h : find (c :: cs) s with
  | none => rw [split_of_find_none _ _ _ h]; rfl
  | some pr => obtain ⟨a, b⟩ := pr; rw [split_of_find _ _ _ _ _ h]; rfl

theorem split_second (c : Char) (cs s a b : Str) (h : find (c :: cs) s = some (a, b)) :
    item (split (c :: cs) s) 1 = item (split (c :: cs) b) 0 := by
  rw [split_of_find _ _ _ _ _ h]; rfl

/-- `(a + sep + b).split(sep)[1]` where `b` contains the separator again or not. -/
theorem split_second' (c : Char) (cs a b : Str) (hcs : c ∉ cs) (h : ¬ (c :: cs) <:+: a) :
    item (split (c :: cs) (a ++ (c :: cs) ++ b)) 1
      = .ok (match find (c :: cs) b with | some (x, _) => x | none => b) := by
  rw [split_second _ _ _ _ _ (find_of_not_infix c cs a b hcs h), split_head]

/-! ### uniqueness of the text before a delimiter -/

theorem append_cons_inj {c : Char} {a b x y : Str} (ha : c ∉ a) (hb : c ∉ b)
    (h : a ++ c :: x = b ++ c :: y) : a = b ∧ x = y := by
  induction a generalizing b with
  | nil =>
    cases b with
    | nil => simpa using h
    | cons d b =>
      simp only [List.nil_append, List.cons_append, List.cons.injEq] at h
      exact absurd h.1 (fun e => hb (by simp [e]))
  | cons d a ih =>
    cases b with
    | nil =>
      simp only [List.nil_append, List.cons_append, List.cons.injEq] at h
      exact absurd h.1 (fun e => ha (by simp [e]))
    | cons e b =>
      simp only [List.cons_append, List.cons.injEq] at h
      obtain ⟨rfl, h⟩ := h
      obtain ⟨rfl, rfl⟩ := ih (fun hm => ha (by simp [hm])) (fun hm => hb (by simp [hm])) h
      exact ⟨rfl, rfl⟩

/-! ### temperatures -/

theorem notMem_natStr {c : Char} (h : digitVal c = none) (n : Nat) : c ∉ natStr n :=
  fun hm => natStr_isDigit n c hm h

theorem pyFloat2_tempStr (t : Nat) : pyFloat2 (tempStr t) = .ok t := by
  have hf : find ['.'] (tempStr t) = some (natStr (t / 100), [digit (t / 10 % 10), digit (t % 10)]) := by
    have := find_of_notMem '.' [] (natStr (t / 100)) [digit (t / 10 % 10), digit (t % 10)]
      (notMem_natStr (by decide) _)
    simpa [tempStr] using this
  unfold pyFloat2
  rw [hf]
  simp only [pyInt_natStr, digitVal_digit (show t / 10 % 10 < 10 by omega),
    digitVal_digit (show t % 10 < 10 by omega)]
  show Except.ok _ = Except.ok _
  congr 1; omega

theorem tempStr_injective {s t : Nat} (h : tempStr s = tempStr t) : s = t := by
  have h1 := pyFloat2_tempStr s
  rw [h, pyFloat2_tempStr t] at h1
  exact (Except.ok.inj h1).symm

theorem mem_tempStr {c : Char} {t : Nat} (h : c ∈ tempStr t) : IsDigit c ∨ c = '.' := by
  simp only [tempStr, List.mem_append, List.mem_cons, List.not_mem_nil, or_false] at h
  rcases h with h | h | h | h
  · exact .inl (natStr_isDigit _ _ h)
  · exact .inr h
  · exact .inl (h ▸ isDigit_digit (by omega))
  · exact .inl (h ▸ isDigit_digit (by omega))

theorem notMem_tempStr {c : Char} (h : digitVal c = none) (h2 : c ≠ '.') (t : Nat) :
    c ∉ tempStr t := fun hm => (mem_tempStr hm).elim (fun hd => hd h) h2

theorem tempStr_ne_nil (t : Nat) : tempStr t ≠ [] := by simp [tempStr]

end Pibronic.Py
