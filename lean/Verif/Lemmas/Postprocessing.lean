import Verif.Model.Postprocessing
import Verif.Lemmas.Str
import Verif.Lemmas.FileStructure

set_option autoImplicit false

/-! Helper lemmas for the file name and file list theorems. -/
namespace Pibronic.Postprocessing
open Py FileName FileStructure

theorem two_infix_append {a b : Char} {x y : Str} (h : [a, b] <:+: x ++ y) (hb : b ∉ y) :
    [a, b] <:+: x := by
  obtain ⟨s, t, h⟩ := h
  rw [List.append_assoc] at h
  rcases List.append_eq_append_iff.mp h with ⟨e, h1, h2⟩ | ⟨e, h1, h2⟩
  · -- x = s ++ e, [a,b] ++ t = e ++ y
    cases e with
    | nil => exfalso; apply hb; simp only [List.nil_append] at h2; rw [← h2]; simp
    | cons c e =>
      cases e with
      | nil =>
        exfalso; apply hb
        simp only [List.cons_append, List.nil_append, List.cons.injEq] at h2
        rw [← h2.2]; simp
      | cons d e =>
        simp only [List.cons_append, List.nil_append, List.cons.injEq] at h2
        exact ⟨s, e, by rw [h1, h2.1, h2.2.1]; simp⟩
  · -- s = x ++ e
    exfalso; apply hb; rw [h2]; simp

theorem between_eq (a b : Char) (cs2 : Str) (c2 : Char) (pre mid post : Str)
    (hpre : ¬ [a, b] <:+: pre) (hab : a ≠ b) (hpost : b ∉ mid ++ (c2 :: cs2) ++ post)
    (hmid : c2 ∉ mid) :
    between [a, b] (c2 :: cs2) (pre ++ [a, b] ++ (mid ++ (c2 :: cs2) ++ post)) = .ok mid := by
  unfold between
  rw [split_second' a [b] pre _ (by simpa using hab) hpre]
  have hn : find [a, b] (mid ++ (c2 :: cs2) ++ post) = none := by
    apply find_none_of_not_infix
    rintro ⟨s, t, h⟩
    apply hpost; rw [← h]; simp
  rw [hn]
  simp only [bind, Except.bind]
  rw [split_head, find_of_notMem c2 cs2 mid post hmid]

theorem between1_eq (a : Char) (cs2 : Str) (c2 : Char) (pre mid post : Str)
    (hpre : a ∉ pre) (hpost : a ∉ mid ++ (c2 :: cs2) ++ post) (hmid : c2 ∉ mid) :
    between [a] (c2 :: cs2) (pre ++ [a] ++ (mid ++ (c2 :: cs2) ++ post)) = .ok mid := by
  unfold between
  rw [split_second _ _ _ _ _ (find_of_notMem a [] pre _ hpre), split_head,
    find_none_of_notMem a [] _ hpost]
  simp only [bind, Except.bind]
  rw [split_head, find_of_notMem c2 cs2 mid post hmid]

/-! ### mapM in `Except` -/

theorem mapM_ok_iff {α β : Type} (f : α → Except Err β) (xs : List α) (ys : List β) :
    xs.mapM f = .ok ys ↔ List.Forall₂ (fun x y => f x = .ok y) xs ys := by
  induction xs generalizing ys with
  | nil =>
    simp only [List.mapM_nil, pure, Except.pure, Except.ok.injEq, List.forall₂_nil_left_iff]
    exact eq_comm
  | cons x xs ih =>
    rw [List.mapM_cons]
    cases hx : f x with
    | error e =>
      simp only [bind, Except.bind, reduceCtorEq, false_iff]
      intro h; cases h with
      | cons h1 h2 => rw [hx] at h1; cases h1
    | ok y =>
      simp only [bind, Except.bind]
      cases hr : xs.mapM f with
      | error e =>
        simp only [reduceCtorEq, false_iff]
        intro h; cases h with
        | cons h1 h2 => rw [(ih _).mpr h2] at hr; cases hr
      | ok zs =>
        simp only [pure, Except.pure, Except.ok.injEq]
        constructor
        · rintro rfl; exact .cons hx ((ih zs).mp hr)
        · intro h
          cases h with
          | cons h1 h2 =>
            rw [hx] at h1; cases h1
            rw [(ih _).mpr h2] at hr; cases hr; rfl

theorem mapM_mem {α β : Type} {f : α → Except Err β} {xs : List α} {ys : List β}
    (h : xs.mapM f = .ok ys) (y : β) : y ∈ ys ↔ ∃ x ∈ xs, f x = .ok y := by
  have h := (mapM_ok_iff f xs ys).mp h
  induction h with
  | nil => simp
  | cons h1 h2 ih =>
    rename_i x y' xs ys
    have ih : y ∈ ys ↔ ∃ x, x ∈ xs ∧ f x = Except.ok y := ih (by rw [mapM_ok_iff]; exact h2)
    rw [List.mem_cons, ih]
    constructor
    · rintro (rfl | ⟨z, hz, h⟩)
      · exact ⟨x, by simp, h1⟩
      · exact ⟨z, by simp [hz], h⟩
    · rintro ⟨z, hz, hf⟩
      rcases List.mem_cons.mp hz with rfl | hz
      · left; rw [h1] at hf; exact (Except.ok.inj hf).symm
      · exact Or.inr ⟨z, hz, hf⟩

theorem mapM_isOk {α β : Type} {f : α → Except Err β} {xs : List α} :
    (∃ ys, xs.mapM f = .ok ys) ↔ ∀ x ∈ xs, ∃ y, f x = .ok y := by
  constructor
  · rintro ⟨ys, h⟩
    have h := (mapM_ok_iff f xs ys).mp h
    induction h with
    | nil => simp
    | cons h1 h2 ih => 
      intro x hx
      rcases List.mem_cons.mp hx with rfl | hx
      · exact ⟨_, h1⟩
      · exact ih (by rw [mapM_ok_iff]; exact h2) x hx
  · intro h
    induction xs with
    | nil => exact ⟨[], rfl⟩
    | cons x xs ih =>
      obtain ⟨y, hy⟩ := h x (by simp)
      obtain ⟨ys, hys⟩ := ih (fun x hx => h x (by simp [hx]))
      exact ⟨y :: ys, (mapM_ok_iff _ _ _).mpr (.cons hy ((mapM_ok_iff _ _ _).mp hys))⟩

/-! ### unique sorted lists -/

theorem mem_uniqueSorted (l : List Nat) (n : Nat) : n ∈ uniqueSorted l ↔ n ∈ l := by
  simp [uniqueSorted, List.mem_mergeSort]

theorem uniqueSorted_strict (l : List Nat) : (uniqueSorted l).Pairwise (· < ·) := by
  have hs : (uniqueSorted l).Pairwise (· ≤ ·) := by
    have := List.pairwise_mergeSort (le := fun a b : Nat => decide (a ≤ b))
      (by simp only [decide_eq_true_eq]; intros; omega)
      (by simp only [Bool.or_eq_true, decide_eq_true_eq]; intros; omega) l.dedup
    simpa [uniqueSorted] using this
  have hn : (uniqueSorted l).Nodup :=
    (List.mergeSort_perm l.dedup _).nodup_iff.mpr (List.nodup_dedup l)
  have := hs.and hn
  exact this.imp (fun h => by omega)

theorem strict_ext {l l' : List Nat} (h : l.Pairwise (· < ·)) (h' : l'.Pairwise (· < ·))
    (hm : ∀ n, n ∈ l ↔ n ∈ l') : l = l' := by
  have hn : l.Nodup := h.imp (fun h => by omega)
  have hn' : l'.Nodup := h'.imp (fun h => by omega)
  have hp : l.Perm l' := (List.perm_ext_iff_of_nodup hn hn').mpr hm
  exact hp.eq_of_pairwise (fun a b _ _ h1 h2 => by omega) h h'

/-! ### glob -/

theorem globMatch_cons (c : Char) (p s : Str) : globMatch (c :: p) s =
    if c = '*' then
      globMatch p s || (match s with
        | [] => false
        | d :: s' => d != '/' && globMatch (c :: p) s')
    else match s with
      | [] => false
      | d :: s' => c == d && globMatch p s' := by
  conv_lhs => rw [globMatch.eq_def]
  cases s <;> rfl

theorem globMatch_literal_prefix (pre p s : Str) (hpre : '*' ∉ pre) :
    globMatch (pre ++ p) s = true ↔ ∃ s', s = pre ++ s' ∧ globMatch p s' = true := by
  induction pre generalizing s with
  | nil => simp
  | cons c pre ih =>
    have hc : c ≠ '*' := fun e => hpre (by simp [e])
    have hpre' : '*' ∉ pre := fun h => hpre (by simp [h])
    rw [List.cons_append, globMatch_cons, if_neg hc]
    cases s with
    | nil => simp
    | cons d s =>
      simp only [Bool.and_eq_true, beq_iff_eq, ih s hpre', List.cons_append, List.cons.injEq]
      constructor
      · rintro ⟨rfl, s', rfl, h⟩; exact ⟨s', ⟨rfl, rfl⟩, h⟩
      · rintro ⟨s', ⟨rfl, rfl⟩, h⟩; exact ⟨rfl, s', rfl, h⟩

theorem globMatch_nil (s : Str) : globMatch [] s = true ↔ s = [] := by
  cases s <;> simp [globMatch]

theorem globMatch_literal (p s : Str) (hp : '*' ∉ p) : globMatch p s = true ↔ s = p := by
  have := globMatch_literal_prefix p [] s hp
  simpa [globMatch_nil] using this

theorem globMatch_star (p s : Str) :
    globMatch ('*' :: p) s = true ↔ ∃ x s', s = x ++ s' ∧ '/' ∉ x ∧ globMatch p s' = true := by
  induction s with
  | nil =>
    rw [globMatch_cons]
    simp
  | cons d s ih =>
    rw [globMatch_cons]
    simp only [if_true, Bool.or_eq_true, Bool.and_eq_true, bne_iff_ne, ne_eq, ih]
    constructor
    · rintro (h | ⟨hd, x, s', rfl, hx, h⟩)
      · exact ⟨[], d :: s, rfl, by simp, h⟩
      · exact ⟨d :: x, s', rfl, by simp [hx, Ne.symm hd], h⟩
    · rintro ⟨x, s', h1, hx, h⟩
      cases x with
      | nil => left; simp only [List.nil_append] at h1; rw [h1]; exact h
      | cons e x =>
        simp only [List.cons_append, List.cons.injEq] at h1
        obtain ⟨rfl, rfl⟩ := h1
        right
        simp only [List.mem_cons, not_or] at hx
        exact ⟨fun e => hx.1 e.symm, x, s', rfl, hx.2, h⟩

/-! ### format -/

theorem format_literal (args : Str → Option Arg) (pre t : Str) (h1 : '{' ∉ pre) (h2 : '}' ∉ pre) :
    format args (pre ++ t) = (format args t).map (pre ++ ·) := by
  induction pre with
  | nil =>
    simp only [List.nil_append]
    cases format args t <;> rfl
  | cons c pre ih =>
    have hc1 : c ≠ '{' := fun e => h1 (by simp [e])
    have hc2 : c ≠ '}' := fun e => h2 (by simp [e])
    have ih := ih (fun h => h1 (by simp [h])) (fun h => h2 (by simp [h]))
    rw [List.cons_append, format, ih]
    · cases format args t <;> rfl
    all_goals (intros; simp_all)

theorem takeField_append (f rest : Str) (h : '}' ∉ f) :
    takeField (f ++ '}' :: rest) = some (f, rest) := by
  induction f with
  | nil => simp [takeField]
  | cons c f ih =>
    have hc : c ≠ '}' := fun e => h (by simp [e])
    rw [List.cons_append, takeField, if_neg hc, ih (fun h' => h (by simp [h']))]
    rfl

/-- One replacement field `{name:spec}`. -/
theorem format_field (args : Str → Option Arg) (name spec rest : Str) (a : Arg) (t : Str)
    (hn : ':' ∉ name) (hb : '}' ∉ name ++ ':' :: spec) (hne : '{' ∉ name)
    (ha : args name = some a) (ht : formatArg a spec = .ok t) :
    format args ('{' :: (name ++ ':' :: spec ++ '}' :: rest))
      = (format args rest).map (t ++ ·) := by
  have htf := takeField_append (name ++ ':' :: spec) rest hb
  have hf : find [':'] (name ++ ':' :: spec) = some (name, spec) := by
    have := find_of_notMem ':' [] name spec hn
    simpa using this
  have hns : ∀ s, name ++ ':' :: spec ++ '}' :: rest ≠ '{' :: s := by
    intro s
    cases name with
    | nil => simp
    | cons c name =>
      have : c ≠ '{' := fun e => hne (by simp [e])
      simp [this]
  rw [format.eq_def]
  split
  · simp_all
  · next h => exact absurd (List.cons.inj h).2 (hns _)
  · simp_all
  · simp_all
  · next s h1 h =>
    obtain rfl := (List.cons.inj h).2
    split
    · next h' => rw [htf] at h'; cases h'
    · next fl r h' =>
      rw [htf] at h'; cases h'
      simp only [hf, ha, ht, bind, Except.bind]
      cases format args rest <;> rfl
  · next c s h1 h2 h3 h4 h => exact absurd (List.cons.inj h).1.symm (by simp_all)

theorem format_nil (args : Str → Option Arg) : format args [] = .ok [] := by
  rw [format.eq_def]

theorem keepFile_eq (v r : Str) (st : StoredHashes) : keepFile (some v) (some r) st =
    .ok (match st with
      | ⟨some v', some r'⟩ => decide (v' = v ∧ r' = r)
      | _ => false) := by
  obtain ⟨sv, sr⟩ := st
  unfold keepFile
  cases sv with
  | none => cases sr <;> rfl
  | some v' =>
    cases sr with
    | none => rfl
    | some r' =>
      by_cases h : v' = v
      · by_cases h2 : r' = r <;> simp [h, h2]
      · simp [h]

end Pibronic.Postprocessing
