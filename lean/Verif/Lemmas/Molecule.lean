import Verif.Model.Molecule
import Verif.Spec.Molecule
import Verif.Lemmas.Str
import Verif.Lemmas.Buffer
import Verif.Lemmas.Workflow

set_option autoImplicit false

/-! Lemmas about the input files of the electronic structure workflow. -/
namespace Pibronic.Molecule
open Py Buffer Workflow

theorem isWs_iff (c : Char) : isWs c = true ↔ Space c := by
  simp [isWs, Space, or_assoc]

theorem Blank.ws {s : Str} (h : Blank s) : ∀ c ∈ s, isWs c = true := by
  intro c hc
  rw [isWs_iff]
  rcases h c hc with h | h | h <;> simp [Space, h]

theorem Blank.no_nl {s : Str} (h : Blank s) : '\n' ∉ s := by
  intro hc
  rcases h _ hc with h | h | h <;> exact absurd h (by decide)

theorem Blank.no_eq {s : Str} (h : Blank s) : '=' ∉ s := by
  intro hc
  rcases h _ hc with h | h | h <;> exact absurd h (by decide)

theorem dropWhile_all {s t : Str} (h : ∀ c ∈ s, isWs c = true) :
    (s ++ t).dropWhile isWs = t.dropWhile isWs := by
  induction s with
  | nil => rfl
  | cons c s ih =>
    rw [List.cons_append, List.dropWhile_cons_of_pos (h c (by simp))]
    exact ih fun d hd => h d (by simp [hd])

theorem dropWhile_nil {s : Str} (h : s.dropWhile isWs = []) : ∀ c ∈ s, isWs c = true := by
  induction s with
  | nil => simp
  | cons c s ih =>
    by_cases hc : isWs c = true
    · rw [List.dropWhile_cons_of_pos hc] at h
      intro d hd
      rcases List.mem_cons.mp hd with hd | hd
      · rw [hd]; exact hc
      · exact ih h d hd
    · rw [List.dropWhile_cons_of_neg hc] at h; cases h

theorem strip_spaced {a v b : Str} (ha : ∀ c ∈ a, isWs c = true) (hb : ∀ c ∈ b, isWs c = true)
    (hv : Trimmed v) : strip (a ++ v ++ b) = v := by
  unfold strip
  rw [List.append_assoc, dropWhile_all ha]
  obtain ⟨-, h1, h2⟩ := hv
  cases v with
  | nil =>
    have := dropWhile_all (t := []) hb
    rw [List.append_nil] at this
    rw [List.nil_append, this]; rfl
  | cons c v =>
    rw [List.cons_append, List.dropWhile_cons_of_neg
      (by rw [isWs_iff]; exact h1 c rfl), ← List.cons_append, List.reverse_append]
    rw [dropWhile_all (by intro x hx; exact hb x (by simpa using hx))]
    have h3 : (c :: v).reverse.head? = (c :: v).getLast? := by
      rw [List.head?_reverse]
    cases hr : (c :: v).reverse with
    | nil => simp at hr
    | cons x l =>
      rw [hr, List.head?_cons] at h3
      rw [List.dropWhile_cons_of_neg (by rw [isWs_iff]; exact h2 x h3.symm), ← hr,
        List.reverse_reverse]

theorem strip_blank {s : Str} (h : ∀ c ∈ s, isWs c = true) : strip s = [] := by
  have := strip_spaced (a := s) (v := []) (b := []) h (by simp) ⟨by simp, by simp, by simp⟩
  simpa using this

theorem keepLines_terminated (ls : List Str) (h : ∀ l ∈ ls, '\n' ∉ l) :
    keepLines (terminated ls) = ls.map fun l => l ++ ['\n'] := by
  induction ls with
  | nil => rfl
  | cons l ls ih =>
    have : terminated (l :: ls) = l ++ '\n' :: terminated ls := by simp [terminated]
    rw [this, keepLines_line _ _ (h l (by simp)), ih fun x hx => h x (by simp [hx])]
    rfl

theorem keepLines_terminated_append (ls : List Str) (h : ∀ l ∈ ls, '\n' ∉ l) (t : Str) :
    keepLines (terminated ls ++ t) = (ls.map fun l => l ++ ['\n']) ++ keepLines t := by
  induction ls with
  | nil => rfl
  | cons l ls ih =>
    have : terminated (l :: ls) ++ t = l ++ '\n' :: (terminated ls ++ t) := by simp [terminated]
    rw [this, keepLines_line _ _ (h l (by simp)), ih fun x hx => h x (by simp [hx])]
    rfl

theorem startsWith_cons (c : Char) (s : Str) : startsWith [c] s = decide (s.head? = some c) := by
  cases s with
  | nil => simp [startsWith, dropPrefix]
  | cons d s =>
    by_cases h : c = d
    · subst h; simp [startsWith, dropPrefix]
    · simp [startsWith, dropPrefix, h, Ne.symm h]

/-! ### The parameter file -/

/-- The dictionary `d` with the values of the file. -/
def over (d : Dict) (items : List Item) : Dict := fun k =>
  match given items k with
  | some v => some (.text v)
  | none => d k

theorem given_cons (i : Item) (items : List Item) (k : Str) :
    given (i :: items) k = (given items k).or (given [i] k) := by
  simp [given, List.findSome?_append]

theorem given_entry (a h b c v d k : Str) :
    given [.entry a h b c v d] k = if h = k then some v else none := by
  simp only [given, List.reverse_cons, List.reverse_nil, List.nil_append, List.findSome?_cons,
    List.findSome?_nil]
  split <;> simp_all

theorem over_cons_entry (d : Dict) (a h b c v e : Str) (items : List Item) :
    over d (.entry a h b c v e :: items) = over (d.set h (.text v)) items := by
  funext k
  unfold over
  rw [given_cons, given_entry]
  cases given items k with
  | some w => rfl
  | none =>
    simp only [Option.none_or, Dict.set]
    by_cases hk : h = k
    · simp [hk]
    · simp [hk, Ne.symm hk]

theorem over_cons_comment (d : Dict) (s : Str) (items : List Item) :
    over d (.comment s :: items) = over d items := by
  funext k; unfold over; rw [given_cons]; simp [given]

theorem over_cons_blank (d : Dict) (s : Str) (items : List Item) :
    over d (.blank s :: items) = over d items := by
  funext k; unfold over; rw [given_cons]; simp [given]

/-- All headers of the items are known. -/
def KnownIn (d : Dict) (items : List Item) : Prop :=
  ∀ a h b c v e, Item.entry a h b c v e ∈ items → d h ≠ none

theorem header_line {a h b : Str} (ha : Blank a) (hb : Blank b) (ht : Trimmed h) (hne : h ≠ [])
    (hc : h.head? ≠ some '#') :
    strip (a ++ h ++ b ++ ['\n']) = h ∧
      xor (strip (a ++ h ++ b ++ ['\n']) != []) (startsWith c!"#" (a ++ h ++ b ++ ['\n'])) = true := by
  have h1 : strip (a ++ h ++ b ++ ['\n']) = h := by
    rw [List.append_assoc (a ++ h)]
    refine strip_spaced ha.ws ?_ ht
    intro c hc
    rcases List.mem_append.mp hc with hc | hc
    · exact hb.ws c hc
    · rw [List.mem_singleton] at hc; subst hc; decide
  refine ⟨h1, ?_⟩
  rw [h1, show c!"#" = ['#'] from rfl, startsWith_cons]
  have h2 : (a ++ h ++ b ++ ['\n']).head? ≠ some '#' := by
    cases a with
    | nil =>
      cases h with
      | nil => exact absurd rfl hne
      | cons x h => simpa using hc
    | cons x a =>
      simp only [List.cons_append, List.head?_cons, ne_eq, Option.some.injEq]
      rcases ha x (by simp) with h | h | h <;> rw [h] <;> decide
  rw [decide_eq_false h2]
  simpa using hne

theorem skip_line {d : Dict} {line : Str} {rest : List Str}
    (h : xor (strip line != []) (startsWith c!"#" line) = false) :
    readLines d (line :: rest) = readLines d rest := by
  conv_lhs => unfold readLines
  rw [if_neg (by rw [h]; decide)]

theorem readLines_items (d : Dict) (items : List Item) (rest : List Str)
    (hc : ∀ i ∈ items, i.Clean) (hk : KnownIn d items) :
    readLines d (((items.flatMap Item.lines).map fun l => l ++ ['\n']) ++ rest)
      = readLines (over d items) rest := by
  induction items generalizing d with
  | nil => rfl
  | cons i items ih =>
    have hc' : ∀ j ∈ items, j.Clean := fun j hj => hc j (by simp [hj])
    have hk' : KnownIn d items := fun a h b c v e hm => hk a h b c v e (by simp [hm])
    have hi := hc i (by simp)
    cases i with
    | comment s =>
      rw [over_cons_comment, ← ih d hc' hk']
      simp only [List.flatMap_cons, Item.lines, List.map_append, List.map_cons, List.map_nil,
        List.cons_append, List.nil_append]
      refine skip_line ?_
      rw [show c!"#" = ['#'] from rfl, startsWith_cons]
      suffices strip ('#' :: (s ++ ['\n'])) ≠ [] by simp [this]
      unfold strip
      rw [List.dropWhile_cons_of_neg (by decide)]
      intro hh
      rw [List.reverse_eq_nil_iff] at hh
      have := dropWhile_nil hh '#' (by simp)
      exact absurd this (by decide)
    | blank s =>
      rw [over_cons_blank, ← ih d hc' hk']
      simp only [List.flatMap_cons, Item.lines, List.map_append, List.map_cons, List.map_nil,
        List.cons_append, List.nil_append]
      refine skip_line ?_
      have h1 : ∀ c ∈ s ++ ['\n'], isWs c = true := by
        intro c hc
        rcases List.mem_append.mp hc with hc | hc
        · exact Blank.ws hi c hc
        · rw [List.mem_singleton] at hc; subst hc; decide
      rw [strip_blank h1, show c!"#" = ['#'] from rfl, startsWith_cons]
      have h2 : (s ++ ['\n']).head? ≠ some '#' := by
        intro h2
        have := h1 '#' (List.mem_of_mem_head? h2)
        exact absurd this (by decide)
      rw [decide_eq_false h2]; rfl
    | entry a h b c v e =>
      obtain ⟨h1, h2, h3, h4, h5, h6, h7, h8⟩ := hi
      rw [over_cons_entry, ← ih _ hc' ?_]
      · simp only [List.flatMap_cons, Item.lines, List.map_append, List.map_cons, List.map_nil,
          List.cons_append, List.nil_append]
        obtain ⟨g1, g2⟩ := header_line h1 h2 h5 h7 h8
        have g3 : strip (c ++ v ++ e ++ ['\n']) = v := by
          rw [List.append_assoc (c ++ v)]
          refine strip_spaced h3.ws ?_ h6
          intro x hx
          rcases List.mem_append.mp hx with hx | hx
          · exact h4.ws x hx
          · rw [List.mem_singleton] at hx; subst hx; decide
        conv_lhs => unfold readLines
        rw [if_pos g2, g1]
        simp only [g3]
        cases hd : d h with
        | none => exact absurd hd (hk a h b c v e (by simp))
        | some w => rfl
      · intro a' h' b' c' v' e' hm
        have := hk' a' h' b' c' v' e' hm
        unfold Dict.set
        split <;> simp_all

theorem items_no_nl {items : List Item} (hc : ∀ i ∈ items, i.Clean) :
    ∀ l ∈ items.flatMap Item.lines, '\n' ∉ l := by
  intro l hl
  obtain ⟨i, hi, hl⟩ := List.mem_flatMap.mp hl
  have := hc i hi
  cases i with
  | comment s =>
    simp only [Item.lines, List.mem_singleton] at hl
    subst hl
    simpa [Item.Clean] using this
  | blank s =>
    simp only [Item.lines, List.mem_singleton] at hl
    subst hl
    exact Blank.no_nl this
  | entry a h b c v e =>
    obtain ⟨h1, h2, h3, h4, h5, h6, h7, h8⟩ := this
    simp only [Item.lines, List.mem_cons, List.not_mem_nil, or_false] at hl
    rcases hl with hl | hl <;> subst hl
    · simp [h1.no_nl, h2.no_nl, h5.1]
    · simp [h3.no_nl, h4.no_nl, h6.1]

/-! ### The geometry -/

theorem dropPrefix_nn_none {c : Char} {s : Str} (h : c ≠ '\n' ∨ s.head? ≠ some '\n') :
    dropPrefix c!"\n\n" (c :: s) = none := by
  by_cases hc : c = '\n'
  · subst hc
    rcases h with h | h
    · exact absurd rfl h
    · cases s with
      | nil => rfl
      | cons d s =>
        have hd : d ≠ '\n' := by simpa using h
        simp [dropPrefix, Ne.symm hd]
  · simp [dropPrefix, Ne.symm hc]

theorem find_nn_skip (r s : Str) (hr : '\n' ∉ r) (hs : s.head? ≠ some '\n') :
    find c!"\n\n" (r ++ '\n' :: s)
      = (find c!"\n\n" s).map fun pr => (r ++ '\n' :: pr.1, pr.2) := by
  induction r with
  | nil =>
    conv_lhs => rw [List.nil_append, find]
    rw [dropPrefix_nn_none (Or.inr hs)]
    rfl
  | cons c r ih =>
    simp only [List.mem_cons, not_or] at hr
    conv_lhs => rw [List.cons_append, find]
    rw [dropPrefix_nn_none (Or.inl (Ne.symm hr.1)), ih hr.2]
    simp only [Option.map_map]
    rfl

theorem find_nn_hit (r e : Str) (hr : '\n' ∉ r) :
    find c!"\n\n" (r ++ '\n' :: '\n' :: e) = some (r, e) := by
  have := find_of_notMem '\n' ['\n'] r e hr
  simpa using this

theorem terminated_cons' (r : Str) (rs : List Str) :
    terminated (r :: rs) = r ++ '\n' :: terminated rs := by simp [terminated]

theorem head_terminated (rs : List Str) (hne : ∀ r ∈ rs, r ≠ []) (hr : ∀ r ∈ rs, '\n' ∉ r)
    (t : Str) (ht : rs = [] → t.head? ≠ some '\n') : (terminated rs ++ t).head? ≠ some '\n' := by
  cases rs with
  | nil => simpa [terminated] using ht rfl
  | cons r rs =>
    have h1 := hne r (by simp)
    have h2 := hr r (by simp)
    cases r with
    | nil => exact absurd rfl h1
    | cons c r =>
      rw [terminated_cons']
      simp only [List.mem_cons, not_or] at h2
      simpa using Ne.symm h2.1

/-- A block of non-empty lines ends at the first blank line. -/
theorem find_block (rs : List Str) (hne : ∀ r ∈ rs, r ≠ []) (hr : ∀ r ∈ rs, '\n' ∉ r) (e : Str)
    (h : rs ≠ []) :
    ∃ body, body ++ ['\n'] = terminated rs ∧
      find c!"\n\n" (terminated rs ++ '\n' :: e) = some (body, e) := by
  induction rs with
  | nil => exact absurd rfl h
  | cons r rs ih =>
    cases rs with
    | nil =>
      refine ⟨r, by simp [terminated], ?_⟩
      have : terminated [r] ++ '\n' :: e = r ++ '\n' :: '\n' :: e := by simp [terminated]
      rw [this, find_nn_hit r e (hr r (by simp))]
    | cons r2 rs =>
      obtain ⟨body, h1, h2⟩ := ih (fun x hx => hne x (by simp [hx])) (fun x hx => hr x (by simp [hx]))
        (by simp)
      refine ⟨r ++ '\n' :: body, ?_, ?_⟩
      · rw [terminated_cons' r, ← h1]; simp
      · rw [terminated_cons' r, List.append_assoc, List.cons_append,
          find_nn_skip r _ (hr r (by simp))
            (head_terminated _ (fun x hx => hne x (by simp [hx])) (fun x hx => hr x (by simp [hx]))
              _ (by simp)), h2]
        rfl

theorem find_block_none (rs : List Str) (hne : ∀ r ∈ rs, r ≠ []) (hr : ∀ r ∈ rs, '\n' ∉ r) :
    find c!"\n\n" (terminated rs) = none := by
  induction rs with
  | nil => simp [terminated, find, dropPrefix]
  | cons r rs ih =>
    have h := head_terminated rs (fun x hx => hne x (by simp [hx])) (fun x hx => hr x (by simp [hx]))
      [] (by simp)
    rw [List.append_nil] at h
    rw [terminated_cons', find_nn_skip r _ (hr r (by simp)) h,
      ih (fun x hx => hne x (by simp [hx])) (fun x hx => hr x (by simp [hx]))]
    rfl

theorem filter_line {l : Str} (h : '\n' ∉ l) : (l ++ ['\n']).filter (· ≠ '\n') = l := by
  rw [List.filter_append, List.filter_eq_self.mpr]
  · simp
  · intro c hc
    simp only [decide_eq_true_eq]
    rintro rfl
    exact h hc

theorem splitlines_terminated (rs : List Str) (hr : ∀ r ∈ rs, '\n' ∉ r) :
    splitlines (terminated rs) = rs := by
  unfold splitlines
  rw [keepLines_terminated _ hr, List.map_map]
  conv_rhs => rw [← List.map_id rs]
  refine List.map_congr_left fun r h => ?_
  exact filter_line (hr r h)

theorem keepLines_open {l : Str} (h : '\n' ∉ l) (hne : l ≠ []) : keepLines l = [l] := by
  induction l with
  | nil => exact absurd rfl hne
  | cons c l ih =>
    simp only [List.mem_cons, not_or] at h
    rw [keepLines, if_neg (Ne.symm h.1)]
    cases l with
    | nil => simp [keepLines]
    | cons d l => rw [ih h.2 (by simp)]

theorem splitlines_body (rs : List Str) (hne : ∀ r ∈ rs, r ≠ []) (hr : ∀ r ∈ rs, '\n' ∉ r) (body : Str)
    (h : body ++ ['\n'] = terminated rs) : splitlines body = rs := by
  rcases List.eq_nil_or_concat rs with rfl | ⟨init, last, rfl⟩
  · simp [terminated] at h
  · rw [List.concat_eq_append] at *
    have h1 : terminated (init ++ [last]) = terminated init ++ last ++ ['\n'] := by
      simp [terminated]
    rw [h1, List.append_left_inj] at h
    rw [h]
    unfold splitlines
    rw [keepLines_terminated_append _ fun x hx => hr x (by simp [hx]),
      keepLines_open (hr last (by simp)) (hne last (by simp)), List.map_append, List.map_map]
    congr 1
    · conv_rhs => rw [← List.map_id init]
      refine List.map_congr_left fun r h => ?_
      exact filter_line (hr r (by simp [h]))
    · simp only [List.map_cons, List.map_nil]
      rw [List.filter_eq_self.mpr]
      intro c hc
      simp only [decide_eq_true_eq]
      rintro rfl
      exact hr last (by simp) hc

theorem Row.Clean.no_nl {r : Row} (h : r.Clean) : '\n' ∉ r.line := by
  obtain ⟨h1, h2, h3, h4, h5, h6, -, -⟩ := h
  simp [Row.line, h1.no_nl, h2.no_nl, h3.no_nl, h4.no_nl, h5.1, h6.1]

theorem Row.line_ne_nil (r : Row) : r.line ≠ [] := by simp [Row.line]

theorem keyValue_line {r : Row} (h : r.Clean) (t : Str) (ht : ∀ c ∈ t, isWs c = true) (hte : '=' ∉ t) :
    keyValue (r.line ++ t) = .ok r.pair := by
  obtain ⟨h1, h2, h3, h4, h5, h6, h7, h8⟩ := h
  have e1 : '=' ∉ r.a ++ r.name ++ r.b := by simp [h1.no_eq, h2.no_eq, h7]
  have e2 : '=' ∉ r.c ++ r.value ++ r.d ++ t := by simp [h3.no_eq, h4.no_eq, h8, hte]
  have e3 : split c!"=" (r.line ++ t) = [r.a ++ r.name ++ r.b, r.c ++ r.value ++ r.d ++ t] := by
    have := find_of_notMem '=' [] (r.a ++ r.name ++ r.b) (r.c ++ r.value ++ r.d ++ t) e1
    have e : r.line ++ t = r.a ++ r.name ++ r.b ++ ['='] ++ (r.c ++ r.value ++ r.d ++ t) := by
      simp [Row.line]
    rw [e]
    have h0 := split_of_find '=' [] _ _ _ this
    rw [split_of_find_none _ _ _ (find_none_of_notMem '=' [] _ e2)] at h0
    exact h0
  unfold keyValue
  rw [e3]
  simp only
  rw [strip_spaced h1.ws h2.ws h5, List.append_assoc (r.c ++ r.value), strip_spaced h3.ws _ h6]
  · rfl
  · intro c hc
    rcases List.mem_append.mp hc with hc | hc
    · exact h4.ws c hc
    · exact ht c hc

theorem mapM_keyValue (rows : List Row) (hc : ∀ r ∈ rows, r.Clean) (t : Str)
    (ht : ∀ c ∈ t, isWs c = true) (hte : '=' ∉ t) :
    (rows.map fun r => r.line ++ t).mapM keyValue = .ok (rows.map Row.pair) := by
  induction rows with
  | nil => rfl
  | cons r rows ih =>
    rw [List.map_cons, List.mapM_cons, keyValue_line (hc r (by simp)) t ht hte,
      ih fun x hx => hc x (by simp [hx])]
    rfl

theorem coordDict_rows (rows : List Row) (hc : ∀ r ∈ rows, r.Clean) :
    coordDict (rows.map Row.line) = .ok (update [] (rows.map Row.pair)) := by
  unfold coordDict
  have := mapM_keyValue rows hc [] (by simp) (by simp)
  simp only [List.append_nil] at this
  rw [this]

theorem coordDict_rows_nl (rows : List Row) (hc : ∀ r ∈ rows, r.Clean) :
    coordDict (rows.map fun r => r.line ++ ['\n']) = .ok (update [] (rows.map Row.pair)) := by
  unfold coordDict
  rw [mapM_keyValue rows hc ['\n'] (by decide) (by decide)]

/-! dictionaries -/

theorem upsert_of_notMem (d : List (Str × Str)) (k v : Str) (h : k ∉ d.map (·.1)) :
    upsert d k v = d ++ [(k, v)] := by
  induction d with
  | nil => rfl
  | cons p d ih =>
    simp only [List.map_cons, List.mem_cons, not_or] at h
    rw [upsert, if_neg (Ne.symm h.1), ih h.2]; rfl

theorem keys_upsert (d : List (Str × Str)) (k v : Str) :
    (upsert d k v).map (·.1) = if k ∈ d.map (·.1) then d.map (·.1) else d.map (·.1) ++ [k] := by
  induction d with
  | nil => simp [upsert]
  | cons p d ih =>
    rw [upsert]
    by_cases h : p.1 = k
    · simp [h]
    · rw [if_neg h, List.map_cons, ih]
      simp only [List.map_cons, List.mem_cons, Ne.symm h, false_or]
      split <;> simp

theorem lookup_upsert (d : List (Str × Str)) (k v j : Str) :
    (upsert d k v).lookup j = if j = k then some v else d.lookup j := by
  induction d with
  | nil =>
    rw [upsert, List.lookup_cons]
    by_cases h : j = k
    · simp [h]
    · rw [beq_eq_false_iff_ne.mpr h]; simp [h]
  | cons p d ih =>
    rw [upsert]
    by_cases h : p.1 = k
    · rw [if_pos h, List.lookup_cons, List.lookup_cons]
      by_cases hj : j = k
      · simp [hj, h]
      · rw [h, beq_eq_false_iff_ne.mpr hj]; simp [hj]
    · rw [if_neg h, List.lookup_cons, ih, List.lookup_cons]
      by_cases hj : j = p.1
      · simp [hj, h]
      · rw [beq_eq_false_iff_ne.mpr hj]

theorem lookup_update (d new : List (Str × Str)) (j : Str) :
    (update d new).lookup j = (new.reverse.lookup j).or (d.lookup j) := by
  induction new generalizing d with
  | nil => simp [update]
  | cons p new ih =>
    have : update d (p :: new) = update (upsert d p.1 p.2) new := rfl
    rw [this, ih, lookup_upsert, List.reverse_cons, List.lookup_append, List.lookup_cons]
    cases hl : new.reverse.lookup j with
    | some v => simp
    | none =>
      by_cases h : j = p.1
      · simp [h]
      · rw [beq_eq_false_iff_ne.mpr h]; simp [h]

theorem keys_update (d new : List (Str × Str)) (h : ∀ p ∈ new, p.1 ∈ d.map (·.1)) :
    (update d new).map (·.1) = d.map (·.1) := by
  induction new generalizing d with
  | nil => rfl
  | cons p new ih =>
    have : update d (p :: new) = update (upsert d p.1 p.2) new := rfl
    have hk : (upsert d p.1 p.2).map (·.1) = d.map (·.1) := by
      rw [keys_upsert, if_pos (h p (by simp))]
    rw [this, ih _ (by intro q hq; rw [hk]; exact h q (by simp [hq])), hk]

theorem update_nodup (d new : List (Str × Str)) (h : ((d ++ new).map (·.1)).Nodup) :
    update d new = d ++ new := by
  induction new generalizing d with
  | nil => simp [update]
  | cons p new ih =>
    have e : update d (p :: new) = update (upsert d p.1 p.2) new := rfl
    have hn : p.1 ∉ d.map (·.1) := by
      rw [List.map_append, List.nodup_append] at h
      intro hm
      exact h.2.2 _ hm _ (by simp) rfl
    rw [e, upsert_of_notMem _ _ _ hn, ih _ (by simpa using h)]
    simp

theorem nodup_upsert (d : List (Str × Str)) (k v : Str) (h : (d.map (·.1)).Nodup) :
    ((upsert d k v).map (·.1)).Nodup := by
  rw [keys_upsert]
  split
  · exact h
  · next hk =>
    rw [List.nodup_append]
    refine ⟨h, by simp, ?_⟩
    rintro a ha b hb rfl
    rw [List.mem_singleton] at hb
    exact hk (hb ▸ ha)

theorem nodup_update (d new : List (Str × Str)) (h : (d.map (·.1)).Nodup) :
    ((update d new).map (·.1)).Nodup := by
  induction new generalizing d with
  | nil => exact h
  | cons p new ih => exact ih _ (nodup_upsert d p.1 p.2 h)

theorem lookup_none_of_notMem (d : List (Str × Str)) (k : Str) (h : k ∉ d.map (·.1)) :
    d.lookup k = none := by
  rw [List.lookup_eq_none_iff]
  intro p hp
  simp only [bne_iff_ne, ne_eq]
  rintro rfl
  exact h (List.mem_map.mpr ⟨p, hp, rfl⟩)

theorem lookup_reverse_nodup (d : List (Str × Str)) (k : Str) (h : (d.map (·.1)).Nodup) :
    d.reverse.lookup k = d.lookup k := by
  induction d with
  | nil => rfl
  | cons p d ih =>
    rw [List.map_cons, List.nodup_cons] at h
    rw [List.reverse_cons, List.lookup_append, ih h.2, List.lookup_cons, List.lookup_cons]
    by_cases hk : k = p.1
    · subst hk
      rw [lookup_none_of_notMem d p.1 h.1]; simp
    · rw [beq_eq_false_iff_ne.mpr hk]; simp

theorem lookup_reverse_update (new : List (Str × Str)) (k : Str) :
    (update [] new).reverse.lookup k = new.reverse.lookup k := by
  rw [lookup_reverse_nodup _ _ (nodup_update [] new (by simp)), lookup_update]
  simp

/-! cartesian coordinates -/

theorem split_nl_terminated (ls : List Str) (h : ∀ l ∈ ls, '\n' ∉ l) :
    split c!"\n" (terminated ls) = ls ++ [[]] := by
  induction ls with
  | nil =>
    exact split_of_find_none '\n' [] [] (find_none_of_notMem '\n' [] [] (by simp))
  | cons l ls ih =>
    rw [terminated_cons']
    have := find_of_notMem '\n' [] l (terminated ls) (h l (by simp))
    have e : l ++ '\n' :: terminated ls = l ++ ['\n'] ++ terminated ls := by simp
    rw [e]
    have h0 := split_of_find '\n' [] _ _ _ this
    have h1 := ih fun x hx => h x (by simp [hx])
    rw [show c!"\n" = '\n' :: [] from rfl] at *
    rw [h0, h1]; rfl

theorem nonEmpty_terminated (ls : List Str) (h : ∀ l ∈ ls, '\n' ∉ l) :
    nonEmptyLines (terminated ls) = ls.filter (· ≠ []) := by
  unfold nonEmptyLines
  rw [split_nl_terminated ls h, List.filter_append]
  simp

theorem nonEmpty_terminated_nl (ls : List Str) (h : ∀ l ∈ ls, '\n' ∉ l) :
    nonEmptyLines (terminated ls ++ ['\n']) = ls.filter (· ≠ []) := by
  have : terminated ls ++ ['\n'] = terminated (ls ++ [[]]) := by simp [terminated]
  rw [this, nonEmpty_terminated _ (by
    intro l hl
    rcases List.mem_append.mp hl with hl | hl
    · exact h l hl
    · simp at hl; simp [hl]), List.filter_append]
  simp

theorem joinLines_terminated (ls : List Str) (h : ls ≠ []) :
    joinLines ls ++ ['\n'] = terminated ls := by
  induction ls with
  | nil => exact absurd rfl h
  | cons l ls ih =>
    cases ls with
    | nil => simp [joinLines, terminated]
    | cons l2 ls =>
      rw [terminated_cons', ← ih (by simp)]
      simp [joinLines]

theorem overwrite_aux (old new : List Str) (diff n : Nat) (h : diff + new.length = old.length)
    (hn : n ≤ new.length) :
    (List.range n).foldl (fun l i => l.set (i + diff) (new.getD i [])) old
      = old.take diff ++ new.take n ++ old.drop (diff + n) := by
  induction n with
  | zero => simp
  | succ n ih =>
    rw [List.range_succ, List.foldl_append, ih (by omega)]
    simp only [List.foldl_cons, List.foldl_nil]
    have h1 : (old.take diff ++ new.take n).length = n + diff := by simp; omega
    rw [List.set_append_right _ _ (by omega), h1, Nat.sub_self]
    have h2 : old.drop (diff + n) = old[diff + n]'(by omega) :: old.drop (diff + (n + 1)) := by
      rw [List.drop_eq_getElem_cons (by omega)]; rfl
    rw [h2, List.set_cons_zero, List.take_succ_eq_append_getElem (by omega),
      show new.getD n [] = new[n]'(by omega) by simp [List.getD, List.getElem?_eq_getElem (show n < new.length by omega)]]
    simp only [List.append_assoc, List.cons_append, List.nil_append]

theorem overwrite_eq (old new : List Str) (h : new.length ≤ old.length) :
    overwrite old new (old.length - new.length) = old.take (old.length - new.length) ++ new := by
  unfold overwrite
  rw [overwrite_aux old new _ _ (by omega) (le_refl _)]
  rw [List.take_length, List.drop_of_length_le (by omega), List.append_nil]

theorem readBlock_rows (ls : List Str) (rest : List Str) (h : ∀ l ∈ ls, l ≠ []) :
    readBlock ((ls.map fun l => l ++ ['\n']) ++ c!"\n" :: rest)
      = some (ls.map fun l => l ++ ['\n']) := by
  induction ls with
  | nil => simp [readBlock]
  | cons l ls ih =>
    have h1 : l ++ ['\n'] ≠ c!"\n" := by
      intro e
      exact h l (by simp) (List.self_eq_append_left.mp (show ['\n'] = l ++ ['\n'] from e.symm))
    have h2 : l ++ ['\n'] ≠ c!"Frequencies of the updated Hessian at convergence" := by
      intro e
      have := congrArg List.getLast? e
      rw [List.getLast?_append] at this
      rw [show (['\n'] : Str).getLast?.or l.getLast? = some '\n' from rfl] at this
      exact absurd this (by decide)
    rw [List.map_cons, List.cons_append, readBlock, if_neg (by simp [h1, h2]),
      ih fun x hx => h x (by simp [hx])]
    rfl

theorem readBlock_hangs (ls : List Str) (h : ∀ l ∈ ls, l ≠ []) :
    readBlock (ls.map fun l => l ++ ['\n']) = none := by
  induction ls with
  | nil => simp [readBlock]
  | cons l ls ih =>
    have h1 : l ++ ['\n'] ≠ c!"\n" := by
      intro e
      exact h l (by simp) (List.self_eq_append_left.mp (show ['\n'] = l ++ ['\n'] from e.symm))
    have h2 : l ++ ['\n'] ≠ c!"Frequencies of the updated Hessian at convergence" := by
      intro e
      have := congrArg List.getLast? e
      rw [List.getLast?_append] at this
      rw [show (['\n'] : Str).getLast?.or l.getLast? = some '\n' from rfl] at this
      exact absurd this (by decide)
    rw [List.map_cons, readBlock, if_neg (by simp [h1, h2]), ih fun x hx => h x (by simp [hx])]
    rfl

end Pibronic.Molecule
