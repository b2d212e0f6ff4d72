import Verif.Model.Buffer
import Verif.Spec.Buffer
import Verif.Lemmas.Str
import Mathlib.Data.List.Infix

set_option autoImplicit false

/-! Helper lemmas about searching in buffers. -/
namespace Pibronic.Buffer
open Py

theorem startsWith_iff {sub s : Str} : startsWith sub s = true ↔ sub <+: s := by
  unfold startsWith
  constructor
  · intro h
    obtain ⟨r, hr⟩ := Option.isSome_iff_exists.mp h
    exact ⟨r, (dropPrefix_eq hr).symm⟩
  · rintro ⟨r, rfl⟩
    simp [dropPrefix_append]

theorem findAt_some {sub s : Str} {i j : Nat} (h : findAt sub s i = some j) :
    ∃ k, j = i + k ∧ k ≤ s.length ∧ sub <+: s.drop k ∧ ∀ k' < k, ¬ sub <+: s.drop k' := by
  induction s generalizing i with
  | nil =>
    simp only [findAt] at h
    split at h
    · next hs =>
      simp only [Option.some.injEq] at h
      exact ⟨0, by omega, by simp, by simpa using startsWith_iff.mp hs, by simp⟩
    · cases h
  | cons c s ih =>
    simp only [findAt] at h
    split at h
    · next hs =>
      simp only [Option.some.injEq] at h
      exact ⟨0, by omega, by simp, by simpa using startsWith_iff.mp hs, by simp⟩
    · next hs =>
      obtain ⟨k, h1, h2, h3, h4⟩ := ih h
      refine ⟨k + 1, by omega, by simp; omega, by simpa using h3, ?_⟩
      intro k' hk'
      cases k' with
      | zero => simpa [startsWith_iff] using hs
      | succ k' => simpa using h4 k' (by omega)

theorem findAt_none {sub s : Str} {i : Nat} : findAt sub s i = none ↔ ¬ sub <:+: s := by
  induction s generalizing i with
  | nil =>
    simp only [findAt]
    by_cases hs : startsWith sub [] = true
    · simp only [hs, if_true]
      have := startsWith_iff.mp hs
      simp [this.isInfix]
    · simp only [hs]
      simp only [startsWith_iff] at hs
      simp only [true_iff, Bool.false_eq_true, if_false]
      intro h
      exact hs (by simpa using h)
  | cons c s ih =>
    simp only [findAt]
    by_cases hs : startsWith sub (c :: s) = true
    · simp only [hs, if_true]
      have := startsWith_iff.mp hs
      simp [this.isInfix]
    · simp only [hs, Bool.false_eq_true, if_false, ih]
      simp only [startsWith_iff] at hs
      rw [List.infix_cons_iff]
      tauto

theorem mmFind_some {buf sub : Str} {start j : Nat} (h : mmFind buf sub start = some j) :
    start ≤ j ∧ sub <+: buf.drop j ∧ ∀ k, start ≤ k → k < j → ¬ sub <+: buf.drop k := by
  obtain ⟨k, rfl, -, h3, h4⟩ := findAt_some h
  simp only [List.drop_drop] at h3 h4
  refine ⟨by omega, h3, ?_⟩
  intro k' h1 h2
  have := h4 (k' - start) (by omega)
  rwa [show start + (k' - start) = k' by omega] at this

theorem mmFind_none {buf sub : Str} {start : Nat} :
    mmFind buf sub start = none ↔ ¬ sub <:+: buf.drop start := findAt_none

theorem rfindBelow_some {buf sub : Str} {stop n j : Nat} (h : rfindBelow buf sub stop n = some j) :
    j < n ∧ j + sub.length ≤ stop ∧ sub <+: buf.drop j ∧
      ∀ k, j < k → k < n → k + sub.length ≤ stop → ¬ sub <+: buf.drop k := by
  induction n with
  | zero => simp [rfindBelow] at h
  | succ n ih =>
    simp only [rfindBelow] at h
    split at h
    · next hc =>
      simp only [Option.some.injEq] at h
      subst h
      exact ⟨by omega, hc.1, startsWith_iff.mp hc.2, by intros; omega⟩
    · next hc =>
      obtain ⟨h1, h2, h3, h4⟩ := ih h
      refine ⟨by omega, h2, h3, ?_⟩
      intro k hk1 hk2 hk3
      by_cases hkn : k = n
      · subst hkn
        intro hp
        exact hc ⟨hk3, startsWith_iff.mpr hp⟩
      · exact h4 k hk1 (by omega) hk3

theorem rfindBelow_none {buf sub : Str} {stop n : Nat} (h : rfindBelow buf sub stop n = none) :
    ∀ k, k < n → k + sub.length ≤ stop → ¬ sub <+: buf.drop k := by
  induction n with
  | zero => intros; omega
  | succ n ih =>
    simp only [rfindBelow] at h
    split at h
    · cases h
    · next hc =>
      intro k hk1 hk2
      by_cases hkn : k = n
      · subst hkn
        intro hp
        exact hc ⟨hk2, startsWith_iff.mpr hp⟩
      · exact ih h k (by omega) hk2

/-- A newline stands at position `k`. -/
theorem nl_prefix_iff {buf : Str} {k : Nat} : c!"\n" <+: buf.drop k ↔ buf[k]? = some '\n' := by
  constructor
  · rintro ⟨r, hr⟩
    have : (buf.drop k)[0]? = some '\n' := by rw [← hr]; rfl
    simpa using this
  · intro h
    obtain ⟨hk, hv⟩ := List.getElem?_eq_some_iff.mp h
    refine ⟨buf.drop (k + 1), ?_⟩
    rw [List.drop_eq_getElem_cons hk, hv]; rfl

theorem mmRfind_nl_some {buf : Str} {stop j : Nat} (h : mmRfind buf c!"\n" stop = some j) :
    j < stop ∧ buf[j]? = some '\n' ∧ ∀ k, j < k → k < stop → buf[k]? ≠ some '\n' := by
  obtain ⟨-, h2, h3, h4⟩ := rfindBelow_some h
  simp only [List.length_singleton, nl_prefix_iff] at h2 h3 h4
  exact ⟨by omega, h3, fun k a b => h4 k a (by omega) (by omega)⟩

theorem mmRfind_nl_none {buf : Str} {stop : Nat} (h : mmRfind buf c!"\n" stop = none) :
    ∀ k, k < stop → buf[k]? ≠ some '\n' := by
  have := rfindBelow_none h
  simp only [List.length_singleton, nl_prefix_iff] at this
  exact fun k a => this k (by omega) (by omega)

theorem mmFind_nl_some {buf : Str} {start j : Nat} (h : mmFind buf c!"\n" start = some j) :
    start ≤ j ∧ buf[j]? = some '\n' ∧ ∀ k, start ≤ k → k < j → buf[k]? ≠ some '\n' := by
  obtain ⟨h2, h3, h4⟩ := mmFind_some h
  simp only [nl_prefix_iff] at h3 h4
  exact ⟨h2, h3, h4⟩

theorem mmFind_nl_none {buf : Str} {start : Nat} (h : mmFind buf c!"\n" start = none) :
    ∀ k, start ≤ k → buf[k]? ≠ some '\n' := by
  intro k hk hn
  apply mmFind_none.mp h
  have h2 := nl_prefix_iff.mpr hn
  have : buf.drop k <:+ buf.drop start := by
    rw [show k = start + (k - start) by omega, ← List.drop_drop]
    exact List.drop_suffix _ _
  exact h2.isInfix.trans this.isInfix

theorem newlinesIn_self (buf : Str) (a : Nat) : newlinesIn buf a a = 0 := by
  simp [newlinesIn]

theorem newlinesIn_split {buf : Str} {a b c : Nat} (h1 : a ≤ b) (h2 : b ≤ c) :
    newlinesIn buf a c = newlinesIn buf a b + newlinesIn buf b c := by
  unfold newlinesIn
  rw [← List.count_append]
  congr 1
  rw [List.drop_take, List.drop_take, List.drop_take]
  conv_rhs => rw [show buf.drop b = (buf.drop a).drop (b - a) by rw [List.drop_drop]; congr 1; omega]
  rw [← List.take_add]
  congr 1; omega

theorem newlinesIn_one_of {buf : Str} {a : Nat} (h : buf[a]? = some '\n') :
    newlinesIn buf a (a + 1) = 1 := by
  obtain ⟨hk, hv⟩ := List.getElem?_eq_some_iff.mp h
  unfold newlinesIn
  rw [List.drop_take, List.drop_eq_getElem_cons hk, hv]
  simp

theorem newlinesIn_zero {buf : Str} {a b : Nat} (h : ∀ k, a ≤ k → k < b → buf[k]? ≠ some '\n') :
    newlinesIn buf a b = 0 := by
  unfold newlinesIn
  rw [List.count_eq_zero]
  intro hm
  obtain ⟨k, hk⟩ := List.mem_iff_getElem?.mp hm
  rw [List.getElem?_drop, List.getElem?_take] at hk
  split at hk
  · exact h (a + k) (by omega) (by omega) hk
  · cases hk

theorem newlinesIn_pos {buf : Str} {a b k : Nat} (h1 : a ≤ k) (h2 : k < b)
    (h : buf[k]? = some '\n') : 0 < newlinesIn buf a b := by
  rw [newlinesIn_split h1 (by omega : k ≤ b), newlinesIn_split (by omega : k ≤ k + 1) (by omega),
    newlinesIn_one_of h]
  omega

/-! ### Skipping lines -/

theorem skipBack_spec (buf : Str) (n start : Nat) :
    NthBefore buf (min n (newlinesIn buf 0 start)) start (skipBack buf n start) := by
  induction n generalizing start with
  | zero => simp [skipBack, NthBefore]
  | succ n ih =>
    simp only [skipBack]
    cases h : mmRfind buf c!"\n" start with
    | none =>
      have h0 : newlinesIn buf 0 start = 0 :=
        newlinesIn_zero fun k _ hk => mmRfind_nl_none h k hk
      simp [h0, NthBefore]
    | some t =>
      simp only
      obtain ⟨h1, h2, h3⟩ := mmRfind_nl_some h
      have h4 : newlinesIn buf t start = 1 := by
        rw [newlinesIn_split (by omega : t ≤ t + 1) (by omega), newlinesIn_one_of h2,
          newlinesIn_zero fun k a b => h3 k (by omega) b]
      have h5 : newlinesIn buf 0 start = newlinesIn buf 0 t + 1 := by
        rw [newlinesIn_split (Nat.zero_le t) (by omega), h4]
      have := ih t
      rw [h5, Nat.add_min_add_right]
      unfold NthBefore at this ⊢
      rw [if_neg (by omega)]
      split at this
      · next h0 =>
        rw [this, h0, h4]
        exact ⟨h1, h2, rfl⟩
      · obtain ⟨a, b, c⟩ := this
        refine ⟨by omega, b, ?_⟩
        rw [newlinesIn_split (by omega : _ ≤ t) (by omega), h4, c]

theorem skipForward_spec (buf : Str) (n start : Nat) :
    NthAfter buf (min n (newlinesIn buf (start + 1) buf.length)) start (skipForward buf n start) := by
  induction n generalizing start with
  | zero => simp [skipForward, NthAfter]
  | succ n ih =>
    simp only [skipForward]
    cases h : mmFind buf c!"\n" (start + 1) with
    | none =>
      have h0 : newlinesIn buf (start + 1) buf.length = 0 :=
        newlinesIn_zero fun k hk _ => mmFind_nl_none h k hk
      simp [h0, NthAfter]
    | some t =>
      simp only
      obtain ⟨h1, h2, h3⟩ := mmFind_nl_some h
      have hlen : t < buf.length := (List.getElem?_eq_some_iff.mp h2).1
      have h4 : newlinesIn buf (start + 1) (t + 1) = 1 := by
        rw [newlinesIn_split (by omega : start + 1 ≤ t) (by omega), newlinesIn_one_of h2,
          newlinesIn_zero fun k a b => h3 k (by omega) b]
      have h5 : newlinesIn buf (start + 1) buf.length = newlinesIn buf (t + 1) buf.length + 1 := by
        rw [newlinesIn_split (by omega : start + 1 ≤ t + 1) (by omega), h4]; omega
      have := ih t
      rw [h5, Nat.add_min_add_right]
      unfold NthAfter at this ⊢
      rw [if_neg (by omega)]
      split at this
      · next h0 =>
        rw [this, h0, h4]
        exact ⟨by omega, h2, rfl⟩
      · obtain ⟨a, b, c⟩ := this
        refine ⟨by omega, b, ?_⟩
        rw [newlinesIn_split (by omega : start + 1 ≤ t + 1) (by omega), h4, c]; omega

theorem nthBefore_unique {buf : Str} {n start r r' : Nat} (h : NthBefore buf n start r)
    (h' : NthBefore buf n start r') : r = r' := by
  unfold NthBefore at h h'
  split at h
  · rw [if_pos (by assumption)] at h'; omega
  · rw [if_neg (by assumption)] at h'
    obtain ⟨a, b, c⟩ := h
    obtain ⟨a', b', c'⟩ := h'
    rcases lt_trichotomy r r' with hlt | heq | hgt
    · exfalso
      rw [newlinesIn_split (by omega : r ≤ r') (by omega)] at c
      have := newlinesIn_pos (le_refl r) hlt b
      omega
    · exact heq
    · exfalso
      rw [newlinesIn_split (by omega : r' ≤ r) (by omega)] at c'
      have := newlinesIn_pos (le_refl r') hgt b'
      omega

theorem nthAfter_unique {buf : Str} {n start r r' : Nat} (h : NthAfter buf n start r)
    (h' : NthAfter buf n start r') : r = r' := by
  unfold NthAfter at h h'
  split at h
  · rw [if_pos (by assumption)] at h'; omega
  · rw [if_neg (by assumption)] at h'
    obtain ⟨a, b, c⟩ := h
    obtain ⟨a', b', c'⟩ := h'
    rcases lt_trichotomy r r' with hlt | heq | hgt
    · exfalso
      rw [newlinesIn_split (by omega : start + 1 ≤ r + 1) (by omega : r + 1 ≤ r' + 1)] at c'
      have := newlinesIn_pos (by omega : r + 1 ≤ r') (by omega : r' < r' + 1) b'
      omega
    · exact heq
    · exfalso
      rw [newlinesIn_split (by omega : start + 1 ≤ r' + 1) (by omega : r' + 1 ≤ r + 1)] at c
      have := newlinesIn_pos (by omega : r' + 1 ≤ r) (by omega : r < r + 1) b
      omega

/-! ### Lines -/

theorem terminated_append (a b : List Str) : terminated (a ++ b) = terminated a ++ terminated b := by
  simp [terminated]

theorem terminated_cons (l : Str) (ls : List Str) :
    terminated (l :: ls) = l ++ '\n' :: terminated ls := by
  simp [terminated]

theorem count_terminated (ls : List Str) (h : ∀ l ∈ ls, '\n' ∉ l) :
    (terminated ls).count '\n' = ls.length := by
  induction ls with
  | nil => simp [terminated]
  | cons l ls ih =>
    rw [terminated_cons, List.count_append, List.count_cons_self, List.count_eq_zero.mpr (h l (by simp)),
      ih fun x hx => h x (by simp [hx])]
    simp

/-- A text without a newline is within `a ++ "\n" ++ b` exactly when it is within `a` or `b`. -/
theorem infix_nl {m a b : Str} (hm : '\n' ∉ m) :
    m <:+: a ++ '\n' :: b ↔ m <:+: a ∨ m <:+: b := by
  induction a with
  | nil =>
    rw [List.nil_append, List.infix_cons_iff]
    constructor
    · rintro (h | h)
      · cases m with
        | nil => left; exact List.infix_rfl
        | cons c m =>
          obtain ⟨r, hr⟩ := h
          simp only [List.cons_append, List.cons.injEq] at hr
          exact absurd (by simp [hr.1]) hm
      · exact Or.inr h
    · rintro (h | h)
      · have : m = [] := by simpa using h
        left; simp [this]
      · exact Or.inr h
  | cons c a ih =>
    rw [List.cons_append, List.infix_cons_iff, ih, List.infix_cons_iff]
    constructor
    · rintro (h | h | h)
      · left; left
        rw [← List.cons_append] at h
        obtain ⟨r, hr⟩ := h
        rcases List.append_eq_append_iff.mp hr with ⟨x, h1, h2⟩ | ⟨x, h1, h2⟩
        · exact ⟨x, h1.symm⟩
        · cases x with
          | nil => exact ⟨[], by simpa using h1⟩
          | cons d x =>
            simp only [List.cons_append, List.cons.injEq] at h2
            exact absurd (by rw [h1, ← h2.1]; simp) hm
      · exact Or.inl (Or.inr h)
      · exact Or.inr h
    · rintro ((h | h) | h)
      · left; rw [← List.cons_append]; exact h.trans (List.prefix_append _ _)
      · exact Or.inr (Or.inl h)
      · exact Or.inr (Or.inr h)

theorem infix_terminated {m : Str} (hm : '\n' ∉ m) (hne : m ≠ []) (ls : List Str) :
    m <:+: terminated ls ↔ ∃ l ∈ ls, m <:+: l := by
  induction ls with
  | nil => simp [terminated, hne]
  | cons l ls ih => rw [terminated_cons, infix_nl hm, ih]; simp

end Pibronic.Buffer
