import Verif.Model.Orbitals
import Verif.Spec.Orbitals
import Verif.Lemmas.OpText
import Verif.Props.Buffer

set_option autoImplicit false

/-! Helper lemmas about the table of orbital energies. -/
namespace Pibronic.Orbitals
open Py Buffer Workflow Molecule Inputs

theorem find_first {t X Y : Str} (h : ∀ k < X.length, ¬ t <+: (X ++ (t ++ Y)).drop k) :
    findString (X ++ (t ++ Y)) t = .ok X.length := by
  have hx : t <+: (X ++ (t ++ Y)).drop X.length := by simp
  rcases Props.Buffer.C55_find (X ++ (t ++ Y)) t with ⟨i, h1, h2, h3⟩ | ⟨-, h2⟩
  · rw [h1]
    rcases lt_trichotomy i X.length with hl | he | hg
    · exact absurd h2 (h i hl)
    · rw [he]
    · exact absurd hx (h3 _ hg)
  · exact absurd ⟨X, Y, by simp⟩ h2

/-- Where an earlier occurrence could stand. -/
theorem earlier {t X Z : Str} {k : Nat} (h : t <+: (X ++ Z).drop k) (hX : ¬ t <:+: X) :
    X.length < k + t.length := by
  by_contra hc
  apply hX
  obtain ⟨u, hu⟩ := h
  refine ⟨X.take k, X.drop (k + t.length), ?_⟩
  have h1 : (X.drop k).take t.length = t := by
    have : ((X ++ Z).drop k).take t.length = t := by rw [← hu]; simp
    rwa [List.drop_append_of_le_length (by omega),
      List.take_append_of_le_length (by simp only [List.length_drop]; omega)] at this
  conv_rhs => rw [← List.take_append_drop k X, ← List.take_append_drop t.length (X.drop k), h1]
  simp [List.drop_drop]

theorem prefix_get {t s : Str} {k j : Nat} (h : t <+: s.drop k) (hj : j < t.length) :
    s[k + j]? = t[j]? := by
  obtain ⟨u, hu⟩ := h
  rw [← List.getElem?_drop, ← hu, List.getElem?_append_left hj]

theorem title_found {X Y : Str} (h : ¬ orbitalTitle <:+: X) :
    findString (X ++ (orbitalTitle ++ Y)) orbitalTitle = .ok X.length := by
  refine find_first fun k hk hp => ?_
  have h1 := earlier hp h
  have hl : orbitalTitle.length = 27 := by decide
  have h2 := prefix_get hp (j := 26) (by omega)
  rw [List.getElem?_append_right (by omega), List.getElem?_append_left (by omega)] at h2
  have h3 : ∀ j < 26, orbitalTitle[j]? ≠ orbitalTitle[26]? := by decide
  exact h3 _ (by omega) h2

theorem rule_found {X Y : Str} {c : Char} (h : ¬ orbitalRule <:+: X ++ [c]) (hc : c ≠ '+') :
    findString (X ++ [c] ++ (orbitalRule ++ Y)) orbitalRule = .ok (X ++ [c]).length := by
  refine find_first fun k hk hp => ?_
  have h1 := earlier hp h
  have hl : orbitalRule.length = 43 := by decide
  simp only [List.length_append, List.length_singleton] at hk h1
  have h2 := prefix_get hp (j := X.length - k) (by omega)
  rw [show k + (X.length - k) = X.length by omega] at h2
  have h3 : ∀ j < 43, orbitalRule[j]? = some '+' := by decide
  rw [h3 _ (by omega)] at h2
  simp at h2
  exact hc h2

theorem title_no_nl : '\n' ∉ orbitalTitle := by decide

theorem skip_heading (B rest : Str) (ls : List Str) (hl : ∀ l ∈ ls, '\n' ∉ l) (hn : 0 < ls.length) :
    skipForward (B ++ (orbitalTitle ++ terminated ls) ++ rest) ls.length B.length + 1 =
      (B ++ (orbitalTitle ++ terminated ls)).length := by
  set buf := B ++ (orbitalTitle ++ terminated ls) ++ rest with hbuf
  have hlen : (B ++ (orbitalTitle ++ terminated ls)).length ≤ buf.length := by
    rw [hbuf]; simp
  have hpos : 0 < (terminated ls).length := by
    cases ls with
    | nil => simp at hn
    | cons l ls => rw [terminated_cons]; simp
  have hT : orbitalTitle = 'O' :: orbitalTitle.tail := by decide
  have hcount : newlinesIn buf (B.length + 1) (B ++ (orbitalTitle ++ terminated ls)).length = ls.length := by
    unfold newlinesIn
    rw [hbuf, List.take_left]
    rw [← List.drop_drop, List.drop_left, List.drop_append_of_le_length (by decide), List.count_append,
      count_terminated ls hl, List.drop_one,
      List.count_eq_zero.mpr fun h => title_no_nl (List.mem_of_mem_tail h)]
    omega
  have hle : ls.length ≤ newlinesIn buf (B.length + 1) buf.length := by
    have h1 : B.length + 1 ≤ (B ++ (orbitalTitle ++ terminated ls)).length := by
      simp only [List.length_append]; omega
    rw [newlinesIn_split h1 hlen, hcount]
    omega
  have h := Props.Buffer.C55_forward buf ls.length B.length hle
  have h' : NthAfter buf ls.length B.length ((B ++ (orbitalTitle ++ terminated ls)).length - 1) := by
    unfold NthAfter
    rw [if_neg (by omega)]
    have h27 : orbitalTitle.length = 27 := by decide
    have e : (B ++ (orbitalTitle ++ terminated ls)).length - 1 + 1 =
        (B ++ (orbitalTitle ++ terminated ls)).length := by
      simp only [List.length_append]; omega
    refine ⟨by simp only [List.length_append]; omega, ?_, by rw [e]; exact hcount⟩
    rw [hbuf, List.getElem?_append_left (by omega), ← List.getLast?_eq_getElem?]
    rcases List.eq_nil_or_concat ls with rfl | ⟨init, last, rfl⟩
    · simp at hn
    · rw [List.concat_eq_append, terminated_append]
      simp [terminated]
  rw [nthAfter_unique h h']
  simp only [List.length_append]
  omega

/-! ### the words of the rows -/

theorem splitWs_trailing (s b : Str) (hb : ∀ c ∈ b, isWs c = true) : splitWs (s ++ b) = splitWs s := by
  induction s with
  | nil =>
    have := OpFile.splitWs_blank b [] hb
    simpa using this
  | cons c s ih =>
    rw [List.cons_append]
    by_cases hc : isWs c = true
    · have e : ∀ s, splitWs (c :: s) = splitWs s := by
        intro s
        conv_lhs => unfold splitWs
        rw [if_pos hc]
      rw [e, e, ih]
    · conv_lhs => unfold splitWs
      conv_rhs => unfold splitWs
      rw [if_neg hc, if_neg hc]
      cases s with
      | nil =>
        have e : splitWs b = [] := by
          have := OpFile.splitWs_blank b [] hb
          simpa [splitWs] using this
        cases b with
        | nil => rfl
        | cons d b =>
          rw [List.nil_append, e]
      | cons d s =>
        rw [ih, List.cons_append]
        cases splitWs (d :: s) <;> rfl

theorem ink_ws {l : Str} (h : HasInk l) : ∃ c ∈ l, isWs c = false := by
  obtain ⟨c, hc, h1, h2, h3, h4⟩ := h
  exact ⟨c, hc, by simp [isWs, h1, h2, h3, h4]⟩

theorem dropWhile_ink {l s : Str} (h : ∃ c ∈ l, isWs c = false) :
    (l ++ s).dropWhile isWs = l.dropWhile isWs ++ s := by
  induction l with
  | nil => obtain ⟨c, hc, -⟩ := h; simp at hc
  | cons d l ih =>
    by_cases hd : isWs d = true
    · rw [List.cons_append, List.dropWhile_cons_of_pos hd, List.dropWhile_cons_of_pos hd]
      apply ih
      obtain ⟨c, hc, h1⟩ := h
      rcases List.mem_cons.mp hc with rfl | h2
      · rw [hd] at h1; cases h1
      · exact ⟨c, h2, h1⟩
    · rw [List.cons_append, List.dropWhile_cons_of_neg hd, List.dropWhile_cons_of_neg hd]; rfl

theorem ink_dropWhile {l : Str} (h : ∃ c ∈ l, isWs c = false) : ∃ c ∈ l.dropWhile isWs, isWs c = false := by
  by_contra hc
  push Not at hc
  obtain ⟨c, h1, h2⟩ := h
  rw [← List.takeWhile_append_dropWhile (p := isWs) (l := l)] at h1
  rcases List.mem_append.mp h1 with h3 | h3
  · rw [List.mem_takeWhile_imp h3] at h2; cases h2
  · exact hc c h3 h2

theorem splitWs_dropWhile (l : Str) : splitWs (l.dropWhile isWs) = splitWs l := by
  conv_rhs => rw [← List.takeWhile_append_dropWhile (p := isWs) (l := l)]
  rw [OpFile.splitWs_blank _ _ fun c hc => List.mem_takeWhile_imp hc]

/-- The part of a line up to its last character that is not blank. -/
theorem trim_right {l : Str} (h : ∃ c ∈ l, isWs c = false) :
    ∃ v w, l = v ++ w ∧ (∀ c ∈ w, isWs c = true) ∧ v ≠ [] ∧ ∀ c, v.getLast? = some c → isWs c = false := by
  refine ⟨(l.reverse.dropWhile isWs).reverse, (l.reverse.takeWhile isWs).reverse, ?_, ?_, ?_, ?_⟩
  · rw [← List.reverse_append, List.takeWhile_append_dropWhile, List.reverse_reverse]
  · intro c hc
    exact List.mem_takeWhile_imp (List.mem_reverse.mp hc)
  · obtain ⟨c, hc, -⟩ := ink_dropWhile (l := l.reverse) (by simpa using h)
    intro h0
    rw [List.reverse_eq_nil_iff] at h0
    rw [h0] at hc
    simp at hc
  · intro c hc
    rw [List.getLast?_reverse] at hc
    have := List.head?_dropWhile_not isWs l.reverse
    rw [hc] at this
    simpa using this

theorem strip_rows (rows : List Str) (b : Str) (hn : ∀ r ∈ rows, '\n' ∉ r)
    (h1 : ∀ r, rows.head? = some r → ∃ c ∈ r, isWs c = false)
    (h2 : ∀ r, rows.getLast? = some r → ∃ c ∈ r, isWs c = false) (hb : ∀ c ∈ b, isWs c = true) :
    (splitlines (strip ('\n' :: (terminated rows ++ b)))).map splitWs = rows.map splitWs := by
  cases rows with
  | nil =>
    rw [strip_blank (s := '\n' :: (terminated [] ++ b)) (by
      intro c hc
      simp only [terminated, List.flatMap_nil, List.nil_append, List.mem_cons] at hc
      rcases hc with rfl | hc
      · decide
      · exact hb c hc)]
    rfl
  | cons r rs =>
    have hr := h1 r rfl
    have e1 : ('\n' :: (terminated (r :: rs) ++ b)).dropWhile isWs =
        terminated (r.dropWhile isWs :: rs) ++ b := by
      rw [List.dropWhile_cons_of_pos (by decide), terminated_cons, terminated_cons, List.append_assoc,
        dropWhile_ink hr, List.append_assoc]
    obtain ⟨init, last, hil⟩ : ∃ init last, r.dropWhile isWs :: rs = init ++ [last] := by
      rcases List.eq_nil_or_concat (r.dropWhile isWs :: rs) with h | ⟨a, l, h⟩
      · cases h
      · exact ⟨a, l, by rw [h, List.concat_eq_append]⟩
    have hlast : ∃ c ∈ last, isWs c = false := by
      cases rs with
      | nil =>
        have : last = r.dropWhile isWs := by
          have := congrArg List.getLast? hil
          simpa using this.symm
        rw [this]
        exact ink_dropWhile hr
      | cons s rs =>
        apply h2
        have := congrArg List.getLast? hil
        rw [List.getLast?_append] at this
        simpa using this
    have hnl : ∀ x ∈ init ++ [last], '\n' ∉ x := by
      rw [← hil]
      intro x hx
      rcases List.mem_cons.mp hx with rfl | hx
      · exact fun h => hn r (by simp) ((List.dropWhile_sublist _).subset h)
      · exact hn x (by simp [hx])
    obtain ⟨v, w, hvw, hw, hv0, hv⟩ := trim_right hlast
    have e2 : strip ('\n' :: (terminated (r :: rs) ++ b)) = terminated init ++ v := by
      refine OpFile.strip_eq (b := w ++ '\n' :: b) e1 ?_ ?_ ?_
      · rw [hil, terminated_append, hvw]
        simp [terminated]
      · intro c hc
        rcases List.mem_append.mp hc with hc | hc
        · exact hw c hc
        · rcases List.mem_cons.mp hc with rfl | hc
          · decide
          · exact hb c hc
      · intro c hc
        rw [List.getLast?_append_of_ne_nil _ hv0] at hc
        exact hv c hc
    rw [e2, OpFile.splitlines_append _ fun l hl => hnl l (by simp [hl])]
    have hvn : '\n' ∉ v := fun h => hnl last (by simp) (by rw [hvw]; simp [h])
    have e3 : splitlines v = [v] := by
      unfold splitlines
      rw [keepLines_open hvn hv0, List.map_singleton, List.filter_eq_self.mpr]
      intro c hc
      simp only [decide_eq_true_eq]
      rintro rfl
      exact hvn hc
    rw [e3, List.map_append, List.map_singleton, List.map_cons, ← splitWs_dropWhile r, ← List.map_cons, hil,
      List.map_append, List.map_singleton, hvw, splitWs_trailing v w hw]

end Pibronic.Orbitals
