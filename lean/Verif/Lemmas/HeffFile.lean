import Verif.Model.HeffFile
import Verif.Spec.HeffFile
import Verif.Lemmas.Buffer
import Verif.Lemmas.Molecule
import Verif.Lemmas.Orbitals
import Verif.Lemmas.Postprocessing

set_option autoImplicit false

/-! Lemmas about the readers of `*.h` files. -/
namespace Pibronic.HeffFile
open Py Buffer Workflow Molecule OldFormats Spec

variable {V : Type}

theorem prefix_of_noNl {t x s : Str} (hn : '\n' ∉ t) (h : t <+: x ++ '\n' :: s) : t <+: x := by
  obtain ⟨r, hr⟩ := h
  rcases List.append_eq_append_iff.mp hr with ⟨a, ha, -⟩ | ⟨c, hc, hc'⟩
  · exact ⟨a, ha.symm⟩
  · cases c with
    | nil => exact ⟨[], by simpa using hc⟩
    | cons d c =>
      simp only [List.cons_append, List.cons.injEq] at hc'
      exact absurd (by rw [hc, ← hc'.1]; simp) hn

theorem findAt_skip {t : Str} (hn : '\n' ∉ t) (h0 : t ≠ []) (s : Str) :
    ∀ (x : Str) (i : Nat), ¬ t <:+: x → findAt t (x ++ '\n' :: s) i = findAt t s (i + x.length + 1) := by
  intro x
  induction x with
  | nil =>
    intro i _
    have : startsWith t ('\n' :: s) = false := by
      rw [Bool.eq_false_iff, ne_eq, startsWith_iff]
      intro h
      have := prefix_of_noNl (x := []) hn h
      exact h0 (List.prefix_nil.mp this)
    simp [findAt, this]
  | cons c x ih =>
    intro i hi
    have h1 : startsWith t (c :: (x ++ '\n' :: s)) = false := by
      rw [Bool.eq_false_iff, ne_eq, startsWith_iff]
      intro h
      exact hi (prefix_of_noNl (x := c :: x) hn h).isInfix
    rw [List.cons_append, findAt, if_neg (by simp [h1]), ih _ fun h => hi (h.trans (List.suffix_cons c x).isInfix)]
    congr 1
    simp only [List.length_cons]
    omega

theorem findAt_hit {t : Str} (hn : '\n' ∉ t) (s : Str) :
    ∀ (x : Str) (i : Nat), t <:+: x →
      ∃ k, findAt t (x ++ '\n' :: s) i = some (i + k) ∧ k + t.length ≤ x.length := by
  intro x
  induction x with
  | nil =>
    intro i h
    rw [List.infix_nil.mp h]
    exact ⟨0, by simp [findAt, startsWith, dropPrefix], by simp⟩
  | cons c x ih =>
    intro i h
    rw [List.cons_append]
    by_cases hs : startsWith t (c :: (x ++ '\n' :: s)) = true
    · refine ⟨0, by simp [findAt, hs], ?_⟩
      have := prefix_of_noNl (x := c :: x) hn (startsWith_iff.mp hs)
      simpa using this.length_le
    · have h' : t <:+: x := by
        rcases List.infix_cons_iff.mp h with h | h
        · exact absurd (startsWith_iff.mpr (h.trans (by
            rw [← List.cons_append]; exact List.prefix_append _ _))) hs
        · exact h
      obtain ⟨k, hk, hk'⟩ := ih (i + 1) h'
      refine ⟨k + 1, ?_, by simp only [List.length_cons]; omega⟩
      rw [findAt, if_neg hs, hk]
      congr 1; omega

theorem terminated_app (a b : List Str) : terminated (a ++ b) = terminated a ++ terminated b := by
  simp [terminated]

theorem findAt_lines {t : Str} (hn : '\n' ∉ t) (h0 : t ≠ []) (l : Str) (ls : List Str) (s : Str)
    (hl : t <:+: l) : ∀ (xs : List Str) (i : Nat), (∀ x ∈ xs, ¬ t <:+: x) →
      ∃ k, findAt t (terminated (xs ++ l :: ls) ++ s) i = some (i + ((terminated xs).length + k)) ∧
        k + t.length ≤ l.length := by
  intro xs
  induction xs with
  | nil =>
    intro i _
    obtain ⟨k, hk, hk'⟩ := findAt_hit hn (terminated ls ++ s) l i hl
    exact ⟨k, by simpa [terminated_cons, terminated] using hk, hk'⟩
  | cons x xs ih =>
    intro i hx
    obtain ⟨k, hk, hk'⟩ := ih (i + x.length + 1) fun y hy => hx y (by simp [hy])
    refine ⟨k, ?_, hk'⟩
    rw [List.cons_append, terminated_cons, terminated_cons, List.append_assoc, List.cons_append,
      findAt_skip hn h0 _ _ _ (hx x (by simp)), hk]
    congr 1
    simp only [List.length_append, List.length_cons]
    omega

theorem findAt_lines_none {t : Str} (hn : '\n' ∉ t) (h0 : t ≠ []) (s : Str) (hs : ¬ t <:+: s) :
    ∀ (xs : List Str) (i : Nat), (∀ x ∈ xs, ¬ t <:+: x) → findAt t (terminated xs ++ s) i = none := by
  intro xs
  induction xs with
  | nil => intro i _; simpa [terminated] using findAt_none.mpr hs
  | cons x xs ih =>
    intro i hx
    rw [terminated_cons, List.append_assoc, List.cons_append, findAt_skip hn h0 _ _ _ (hx x (by simp))]
    exact ih _ fun y hy => hx y (by simp [hy])

/-- Where a title is found. -/
theorem findString_lines {t : Str} (hn : '\n' ∉ t) (h0 : t ≠ []) (xs : List Str) (l : Str) (ls : List Str)
    (hl : t <:+: l) (hx : ∀ x ∈ xs, ¬ t <:+: x) :
    ∃ k, findString (terminated (xs ++ l :: ls)) t = .ok ((terminated xs).length + k) ∧
      k + t.length ≤ l.length := by
  obtain ⟨k, hk, hk'⟩ := findAt_lines hn h0 l ls [] hl xs 0 hx
  refine ⟨k, ?_, hk'⟩
  unfold findString mmFind
  rw [List.append_nil] at hk
  simp only [List.drop_zero, hk, Nat.zero_add]

theorem findString_none {t : Str} (hn : '\n' ∉ t) (h0 : t ≠ []) (xs : List Str) (hx : ∀ x ∈ xs, ¬ t <:+: x) :
    findString (terminated xs) t = .error .exception := by
  unfold findString mmFind
  have := findAt_lines_none hn h0 [] (fun h => h0 (List.infix_nil.mp h)) xs 0 hx
  rw [List.append_nil] at this
  simp only [List.drop_zero, this]

theorem lineAt_mid (xs : List Str) (l : Str) (s : Str) (hl : '\n' ∉ l) (k : Nat) (hk : k ≤ l.length) :
    lineAt (terminated xs ++ (l ++ '\n' :: s)) ((terminated xs).length + k) = l.drop k ++ ['\n'] := by
  unfold lineAt
  rw [List.drop_append, List.drop_of_length_le (by omega), List.nil_append, Nat.add_sub_cancel_left,
    List.drop_append_of_le_length hk, keepLines_line _ _ fun h => hl (List.mem_of_mem_drop h)]
  rfl

/-- The value a line shows: as many words as there are surfaces, each a number. -/
def Shows (num : Str → Except Err V) (A : Nat) (line : Str) (vals : List V) : Prop :=
  (splitWs line).length = A ∧ (splitWs line).mapM num = .ok vals

theorem splitWs_nl (l : Str) : splitWs (l ++ ['\n']) = splitWs l := by
  have h : isWs '\n' = true := by decide
  induction l with
  | nil => simp [splitWs, h]
  | cons c l ih =>
    rw [List.cons_append]
    by_cases hc : isWs c = true
    · simp only [splitWs, hc, if_true, ih]
    · cases l with
      | nil => simp [splitWs, hc, h]
      | cons d l =>
        rw [List.cons_append] at ih ⊢
        unfold splitWs
        rw [ih]
        cases splitWs (d :: l) <;> simp [hc]

theorem setRow_shows {num : Str → Except Err V} {A : Nat} {line : Str} {vals : List V}
    (h : Shows num A line vals) : setRow num A line = .ok vals := by
  unfold setRow assignSlice
  rw [if_pos h.1]
  exact h.2

theorem setRow_nl (num : Str → Except Err V) (A : Nat) (line : Str) :
    setRow num A (line ++ ['\n']) = setRow num A line := by
  unfold setRow
  rw [splitWs_nl]

theorem rowsAt_lines (num : Str → Except Err V) (A : Nat) (s : Str) :
    ∀ (rows : List Str) (vals : List (List V)) (xs : List Str), (∀ r ∈ rows, '\n' ∉ r) →
      List.Forall₂ (Shows num A) rows vals →
      rowsAt num A (terminated xs ++ (terminated rows ++ s)) rows.length (terminated xs).length
        = .ok (vals, (terminated (xs ++ rows)).length) := by
  intro rows
  induction rows with
  | nil =>
    intro vals xs _ h
    cases h
    simp [rowsAt]
  | cons r rows ih =>
    intro vals xs hn h
    cases h with
    | cons h1 h2 =>
      have hl := lineAt_mid xs r (terminated rows ++ s) (hn r (by simp)) 0 (by omega)
      have e : terminated (r :: rows) ++ s = r ++ '\n' :: (terminated rows ++ s) := by
        rw [terminated_cons]; simp
      rw [e, List.length_cons, rowsAt]
      rw [Nat.add_zero, List.drop_zero] at hl
      rw [hl, setRow_nl, setRow_shows h1]
      have e2 : terminated xs ++ (r ++ '\n' :: (terminated rows ++ s))
          = terminated (xs ++ [r]) ++ (terminated rows ++ s) := by
        rw [terminated_app, terminated_cons]; simp [terminated]
      have e3 : (terminated xs).length + (r ++ ['\n']).length = (terminated (xs ++ [r])).length := by
        rw [terminated_app, terminated_cons]; simp [terminated]
      rw [e2, e3]
      have := ih _ (xs ++ [r]) (fun x hx => hn x (by simp [hx])) h2
      simp only [bind, Except.bind, this]
      rw [List.append_assoc, List.singleton_append]

/-- A position at the end of the lines `L`, or inside the last of them, which does not show `w`. -/
def At (L : List Str) (pos : Nat) (w : Str) : Prop :=
  pos = (terminated L).length ∨ ∃ L' first j, L = L' ++ [first] ∧ j ≤ first.length ∧
    pos = (terminated L').length + j ∧ ¬ w <:+: first

theorem mmFindIn_lines {w : Str} (hw : '\n' ∉ w) (h0 : w ≠ []) {L : List Str} {pos : Nat} (hp : At L pos w)
    (ys : List Str) (header : Str) (rest : List Str) (part s : Str) (hy : ∀ y ∈ ys, ¬ w <:+: y)
    (hh : w <:+: header) :
    ∃ k, mmFindIn (terminated (L ++ ys ++ header :: rest) ++ (part ++ s)) w pos
        ((terminated (L ++ ys ++ header :: rest)).length + part.length)
        = some ((terminated (L ++ ys)).length + k) ∧ k + w.length ≤ header.length := by
  unfold mmFindIn
  rw [← List.append_assoc (terminated _) part s, ← List.length_append, List.take_left]
  rcases hp with rfl | ⟨L', first, j, rfl, hj, rfl, hf⟩
  · obtain ⟨k, hk, hk'⟩ := findAt_lines hw h0 header rest part hh ys (terminated L).length hy
    refine ⟨k, ?_, hk'⟩
    rw [List.append_assoc, terminated_app, List.append_assoc, List.drop_left, hk, terminated_app,
      List.length_append, Nat.add_assoc]
  · obtain ⟨k, hk, hk'⟩ := findAt_lines hw h0 header rest part hh ys
      ((terminated L').length + j + (first.drop j).length + 1) hy
    refine ⟨k, ?_, hk'⟩
    have e0 : (terminated (L' ++ [first] ++ ys ++ header :: rest) ++ part).drop ((terminated L').length + j)
        = first.drop j ++ '\n' :: (terminated (ys ++ header :: rest) ++ part) := by
      rw [List.append_assoc, List.append_assoc, terminated_app, List.append_assoc, List.drop_append,
        List.drop_of_length_le (by omega), List.nil_append, Nat.add_sub_cancel_left, List.singleton_append,
        terminated_cons, List.append_assoc, List.drop_append_of_le_length hj]
      simp
    rw [e0, findAt_skip hw h0 _ _ _ (fun h => hf (h.trans (List.drop_suffix _ _).isInfix)), hk]
    congr 1
    rw [terminated_app, terminated_app]
    simp only [terminated_cons, List.length_append, List.length_cons, List.length_drop]
    simp only [terminated, List.flatMap_nil, List.length_nil]
    omega

/-- The text is found in the line or in the lines behind it. -/
theorem mmFindIn_some {w : Str} (hw : '\n' ∉ w) (h0 : w ≠ []) {L : List Str} {pos : Nat} {w' : Str}
    (hp : At L pos w') (header : Str) (rest : List Str) (part s : Str) (hh : w <:+: header) :
    ∃ i, mmFindIn (terminated (L ++ header :: rest) ++ (part ++ s)) w pos
        ((terminated (L ++ header :: rest)).length + part.length) = some i := by
  rw [← Option.isSome_iff_exists, ← Option.ne_none_iff_isSome]
  unfold mmFindIn
  rw [ne_eq, findAt_none, not_not, ← List.append_assoc (terminated _) part s, ← List.length_append,
    List.take_left]
  have key : w <:+: terminated (header :: rest) ++ part := by
    rw [terminated_cons, List.append_assoc]
    exact hh.trans (List.prefix_append _ _).isInfix
  refine key.trans (List.IsSuffix.isInfix ?_)
  rcases hp with rfl | ⟨L', first, j, rfl, hj, rfl, -⟩
  · rw [terminated_app, List.append_assoc, List.drop_left]
  · rw [List.append_assoc, terminated_app, List.append_assoc, List.drop_append,
      List.drop_of_length_le (by omega), List.nil_append, Nat.add_sub_cancel_left, List.singleton_append,
      terminated_cons first, List.append_assoc, List.drop_append_of_le_length hj, List.cons_append]
    exact (List.suffix_cons _ _).trans (List.suffix_append _ _)

/-- The next block with the text `w`. -/
theorem blockAt_lines (num : Str → Except Err V) (A : Nat) {w : Str} (hw : '\n' ∉ w) (h0 : w ≠ [])
    {L : List Str} {pos : Nat} (hp : At L pos w) (ys : List Str) (header : Str) (rows zs : List Str)
    (part s : Str) (vals : List (List V)) (hy : ∀ y ∈ ys, ¬ w <:+: y) (hh : w <:+: header)
    (hnh : '\n' ∉ header) (hr : ∀ r ∈ rows, '\n' ∉ r) (hA : rows.length = A)
    (hv : List.Forall₂ (Shows num A) rows vals) :
    blockAt num (some A) (terminated (L ++ ys ++ header :: (rows ++ zs)) ++ (part ++ s)) w pos
      ((terminated (L ++ ys ++ header :: (rows ++ zs))).length + part.length)
      = .ok (vals, (terminated (L ++ ys ++ header :: rows)).length) := by
  obtain ⟨k, hk, hk'⟩ := mmFindIn_lines hw h0 hp ys header (rows ++ zs) part s hy hh
  unfold blockAt
  rw [hk]
  have e2 : terminated (L ++ ys ++ header :: (rows ++ zs)) ++ (part ++ s)
      = terminated (L ++ ys) ++ (header ++ '\n' :: (terminated rows ++ (terminated zs ++ (part ++ s)))) := by
    rw [terminated_app _ (header :: _), terminated_cons, terminated_app rows]
    simp only [List.append_assoc, List.cons_append]
  simp only
  rw [e2, lineAt_mid _ header _ hnh k (by omega)]
  have e3 : (terminated (L ++ ys)).length + k + (header.drop k ++ ['\n']).length
      = (terminated (L ++ ys ++ [header])).length := by
    rw [terminated_app _ [header], terminated_cons]
    have : k ≤ header.length := by omega
    simp only [List.length_append, List.length_cons, List.length_drop, terminated, List.flatMap_nil,
      List.length_nil]
    omega
  rw [e3]
  have e4 : terminated (L ++ ys) ++ (header ++ '\n' :: (terminated rows ++ (terminated zs ++ (part ++ s))))
      = terminated (L ++ ys ++ [header]) ++ (terminated rows ++ (terminated zs ++ (part ++ s))) := by
    rw [terminated_app _ [header], terminated_cons]
    simp [terminated]
  have := rowsAt_lines num A (terminated zs ++ (part ++ s)) rows vals (L ++ ys ++ [header]) hr hv
  rw [hA] at this
  rw [e4, this]
  simp

end Pibronic.HeffFile
