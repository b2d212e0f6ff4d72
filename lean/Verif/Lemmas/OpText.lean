import Verif.Model.OpFile
import Verif.Spec.OpFile
import Verif.Lemmas.Buffer
import Verif.Lemmas.Str
import Verif.Lemmas.Molecule

set_option autoImplicit false

/-! The text of an operator file: which lines a section consists of and what is read from a line. -/
namespace Pibronic.OpFile
open Py Buffer Workflow Molecule

/-! ### finding a section -/

theorem findAt_line {m l s : Str} (hm : '\n' ∉ m) (hne : m ≠ []) (h : ¬ m <:+: l) (i : Nat) :
    findAt m (l ++ '\n' :: s) i = findAt m s (i + l.length + 1) := by
  induction l generalizing i with
  | nil =>
    rw [List.nil_append, findAt]
    have : startsWith m ('\n' :: s) = false := by
      rw [Bool.eq_false_iff, Ne, startsWith_iff]
      rintro ⟨r, hr⟩
      cases m with
      | nil => exact hne rfl
      | cons c m => simp only [List.cons_append, List.cons.injEq] at hr; exact hm (by simp [hr.1])
    rw [this]; rfl
  | cons c l ih =>
    rw [List.cons_append, findAt]
    have : startsWith m (c :: (l ++ '\n' :: s)) = false := by
      rw [Bool.eq_false_iff, Ne, startsWith_iff]
      rintro ⟨r, hr⟩
      rw [← List.cons_append] at hr
      rcases List.append_eq_append_iff.mp hr with ⟨x, h1, h2⟩ | ⟨x, h1, h2⟩
      · exact h ⟨[], x, by simp [h1]⟩
      · cases x with
        | nil => exact h ⟨[], [], by simp at h1; simp [h1]⟩
        | cons d x =>
          simp only [List.cons_append, List.cons.injEq] at h2
          exact hm (by rw [h1, ← h2.1]; simp)
    rw [this, if_neg (by simp), ih (fun h' => h (h'.trans ((List.suffix_cons c l).isInfix)))]
    congr 1
    simp; omega

theorem findAt_terminated {m s : Str} (hm : '\n' ∉ m) (hne : m ≠ []) (P : List Str)
    (h : ∀ l ∈ P, ¬ m <:+: l) (i : Nat) :
    findAt m (terminated P ++ s) i = findAt m s (i + (terminated P).length) := by
  induction P generalizing i with
  | nil => rfl
  | cons l P ih =>
    rw [terminated_cons, List.append_assoc, List.cons_append, findAt_line hm hne (h l (by simp)),
      ih fun x hx => h x (by simp [hx])]
    congr 1
    simp; omega

theorem findAt_here {m u s : Str} (h : ∀ c, m.head? = some c → c ∉ u) (hne : m ≠ []) (i : Nat) :
    findAt m (u ++ (m ++ s)) i = some (i + u.length) := by
  obtain ⟨c, m, rfl⟩ : ∃ c m', m = c :: m' := by cases m with | nil => exact absurd rfl hne | cons c m => exact ⟨c, m, rfl⟩
  induction u generalizing i with
  | nil =>
    have : startsWith (c :: m) (c :: (m ++ s)) = true := by rw [startsWith_iff]; exact ⟨s, rfl⟩
    rw [List.nil_append, List.cons_append, findAt, if_pos this]; rfl
  | cons d u ih =>
    have hc := h c rfl
    simp only [List.mem_cons, not_or] at hc
    have : startsWith (c :: m) (d :: (u ++ (c :: m ++ s))) = false := by
      rw [Bool.eq_false_iff, Ne, startsWith_iff]
      rintro ⟨r, hr⟩
      simp only [List.cons_append, List.cons.injEq] at hr
      exact hc.1 hr.1
    rw [List.cons_append, findAt, this, if_neg (by simp),
      ih _ (fun c' hc' => by rw [List.head?_cons, Option.some.injEq] at hc'; exact hc' ▸ hc.2)]
    congr 1
    simp; omega

/-- The header is found in its line when no line before contains it. -/
theorem findString_header {m u s : Str} (hm : '\n' ∉ m) (hne : m ≠ []) (P : List Str)
    (h : ∀ l ∈ P, ¬ m <:+: l) (hu : ∀ c, m.head? = some c → c ∉ u) :
    findString (terminated P ++ (u ++ (m ++ s))) m = .ok ((terminated P).length + u.length) := by
  unfold findString mmFind
  rw [List.drop_zero, findAt_terminated hm hne P h, findAt_here hu hne]
  simp

theorem dropLine (l s : Str) (h : '\n' ∉ l) : ((l ++ '\n' :: s).dropWhile (· ≠ '\n')).drop 1 = s := by
  induction l with
  | nil => simp
  | cons c l ih =>
    have hc : c ≠ '\n' := fun e => h (by simp [e])
    have := ih (fun h' => h (by simp [h']))
    rw [List.cons_append, List.dropWhile_cons, if_pos (by simpa using hc)]
    exact this

theorem dropLines_terminated (hdr : List Str) (s : Str) (h : ∀ l ∈ hdr, '\n' ∉ l) :
    dropLines hdr.length (terminated hdr ++ s) = s := by
  induction hdr with
  | nil => rfl
  | cons l hdr ih =>
    rw [terminated_cons, List.append_assoc, List.cons_append, List.length_cons, dropLines,
      dropLine _ _ (h l (by simp)), ih fun x hx => h x (by simp [hx])]

/-- The text of a section. -/
theorem region_eq (P : List Str) (u b v : Str) (hdr D : List Str) (x e rest : Str)
    (hb : '\n' ∉ b) (hbne : b ≠ []) (he : '\n' ∉ e) (hene : e ≠ [])
    (hP : ∀ l ∈ P, ¬ b <:+: l) (hu : ∀ c, b.head? = some c → c ∉ u) (hv : '\n' ∉ v)
    (hhdr : ∀ l ∈ hdr, '\n' ∉ l)
    (heP : ∀ l ∈ P ++ (u ++ b ++ v) :: (hdr ++ D), ¬ e <:+: l)
    (hx : ∀ c, e.head? = some c → c ∉ x) :
    region (terminated (P ++ (u ++ b ++ v) :: (hdr ++ D)) ++ (x ++ (e ++ rest))) b e (hdr.length + 1) =
      .ok (terminated D ++ x) := by
  have hi : findString (terminated (P ++ (u ++ b ++ v) :: (hdr ++ D)) ++ (x ++ (e ++ rest))) b =
      .ok ((terminated P).length + u.length) := by
    rw [← findString_header (u := u) (s := v ++ '\n' :: (terminated (hdr ++ D) ++ (x ++ (e ++ rest)))) hb hbne P hP hu]
    congr 1
    rw [terminated_append, terminated_cons]
    simp
  have hj := findString_header (u := x) (s := rest) he hene _ heP hx
  unfold region
  rw [hi, hj]
  have hrest : dropLines (hdr.length + 1) ((terminated (P ++ (u ++ b ++ v) :: (hdr ++ D)) ++
      (x ++ (e ++ rest))).drop ((terminated P).length + u.length)) = terminated D ++ (x ++ (e ++ rest)) := by
    have e1 : terminated (P ++ (u ++ b ++ v) :: (hdr ++ D)) ++ (x ++ (e ++ rest)) =
        (terminated P ++ u) ++ ((b ++ v) ++ '\n' :: (terminated hdr ++ (terminated D ++ (x ++ (e ++ rest))))) := by
      rw [terminated_append, terminated_cons, terminated_append]
      simp
    rw [e1, ← List.length_append, List.drop_left, dropLines,
      dropLine _ _ (by simp only [List.mem_append, not_or]; exact ⟨hb, hv⟩), dropLines_terminated _ _ hhdr]
  simp only [bind, Except.bind, hrest]
  have hl : (terminated (P ++ (u ++ b ++ v) :: (hdr ++ D)) ++ (x ++ (e ++ rest))).length -
      (terminated D ++ (x ++ (e ++ rest))).length =
        (terminated (P ++ (u ++ b ++ v) :: (hdr ++ D))).length - (terminated D).length := by
    simp only [List.length_append]; omega
  have hle : (terminated D).length ≤ (terminated (P ++ (u ++ b ++ v) :: (hdr ++ D))).length := by
    rw [terminated_append, terminated_cons, terminated_append]
    simp only [List.length_append, List.length_cons]; omega
  rw [hl, if_pos (by omega)]
  congr 1
  have : (terminated (P ++ (u ++ b ++ v) :: (hdr ++ D))).length + x.length -
      ((terminated (P ++ (u ++ b ++ v) :: (hdr ++ D))).length - (terminated D).length) =
        (terminated D ++ x).length := by
    simp only [List.length_append]; omega
  rw [this, ← List.append_assoc, List.take_left]

/-! ### the lines of a section -/

theorem dropWhile_blankLines (D : List Str) (s : Str) (h : ∀ l ∈ D, l = [] ∨ ∃ c l', l = c :: l' ∧ isWs c = false)
    (hs : ∃ c s', s = c :: s' ∧ isWs c = false) :
    (terminated D ++ s).dropWhile isWs = terminated (D.dropWhile (· = [])) ++ s := by
  induction D with
  | nil =>
    obtain ⟨c, s', rfl, hc⟩ := hs
    simp [terminated, hc]
  | cons l D ih =>
    rcases h l (by simp) with rfl | ⟨c, l', rfl, hc⟩
    · rw [terminated_cons, List.nil_append, List.cons_append,
        List.dropWhile_cons_of_pos (by decide), ih fun x hx => h x (by simp [hx])]
      simp
    · rw [terminated_cons, List.cons_append, List.cons_append, List.dropWhile_cons_of_neg (by simp [hc]),
        List.dropWhile_cons_of_neg (by simp), terminated_cons]
      simp

theorem strip_eq {s t v b : Str} (h : s.dropWhile isWs = t) (ht : t = v ++ b) (hb : ∀ c ∈ b, isWs c = true)
    (hv : ∀ c, v.getLast? = some c → isWs c = false) : strip s = v := by
  unfold strip
  rw [h, ht, List.reverse_append]
  rw [dropWhile_all (by simpa using hb)]
  cases hv' : v.reverse with
  | nil => simpa using hv'.symm
  | cons c w =>
    have : v = w.reverse ++ [c] := by rw [← List.reverse_reverse v, hv']; simp
    have hc := hv c (by rw [this]; simp)
    rw [List.dropWhile_cons_of_neg (by simp [hc])]
    rw [this]; simp

/-- A section that ends with the mark of a comment. -/
theorem strip_marked (D : List Str) (b : Str) (h : ∀ l ∈ D, l = [] ∨ ∃ c l', l = c :: l' ∧ isWs c = false)
    (hb : ∀ c ∈ b, isWs c = true) :
    strip (terminated D ++ ('#' :: b)) = terminated (D.dropWhile (· = [])) ++ ['#'] :=
  strip_eq (dropWhile_blankLines D _ h ⟨'#', b, rfl, by decide⟩) (by simp) hb (by simp; decide)

theorem splitlines_append (ls : List Str) (h : ∀ l ∈ ls, '\n' ∉ l) (t : Str) :
    splitlines (terminated ls ++ t) = ls ++ splitlines t := by
  unfold splitlines
  rw [keepLines_terminated_append ls h, List.map_append, List.map_map]
  congr 1
  conv_rhs => rw [← List.map_id ls]
  apply List.map_congr_left
  intro l hl
  exact filter_line (h l hl)

/-- The filter on the lines. -/
def isData (l : Str) : Bool := !l.contains '#' && decide (l ≠ [])

theorem filter_dropWhile (D : List Str) (f : Str → Str) (hf : f [] = []) :
    ((D.dropWhile (· = [])).map f).filter isData = (D.map f).filter isData := by
  induction D with
  | nil => rfl
  | cons l D ih =>
    by_cases hl : l = []
    · subst hl
      rw [List.dropWhile_cons_of_pos (by simp), ih, List.map_cons, hf, List.filter_cons_of_neg (by simp [isData])]
    · rw [List.dropWhile_cons_of_neg (by simpa using hl)]

theorem dataLines_marked (D : List Str) (b : Str) (h : ∀ l ∈ D, l = [] ∨ ∃ c l', l = c :: l' ∧ isWs c = false)
    (hn : ∀ l ∈ D, '\n' ∉ l) (hb : ∀ c ∈ b, isWs c = true) :
    dataLines (strip (terminated D ++ ('#' :: b))) = D.filter isData := by
  rw [strip_marked D b h hb]
  unfold dataLines
  rw [splitlines_append _ fun l hl => hn l ((List.dropWhile_sublist _).subset hl)]
  have : splitlines ['#'] = [['#']] := by decide
  rw [this, List.filter_append]
  have e := filter_dropWhile D id rfl
  rw [List.map_id, List.map_id] at e
  rw [← e]
  exact List.append_nil _

/-! ### removing texts -/

theorem removeGo_skip (sub a s : Str) : removeGo sub (a ++ s) a.length = removeGo sub s 0 := by
  induction a with
  | nil => rfl
  | cons c a ih => rw [List.cons_append, List.length_cons, removeGo, ih]

theorem removeGo_hit (c : Char) (sub s : Str) :
    removeGo (c :: sub) (c :: sub ++ s) 0 = removeGo (c :: sub) s 0 := by
  have : startsWith (c :: sub) (c :: (sub ++ s)) = true := by rw [startsWith_iff]; exact ⟨s, rfl⟩
  rw [List.cons_append, removeGo, if_pos this, List.length_cons, Nat.add_sub_cancel, removeGo_skip]

theorem removeGo_pass (c : Char) (sub a s : Str) (h : c ∉ a) :
    removeGo (c :: sub) (a ++ s) 0 = a ++ removeGo (c :: sub) s 0 := by
  induction a with
  | nil => rfl
  | cons d a ih =>
    simp only [List.mem_cons, not_or] at h
    have : startsWith (c :: sub) (d :: (a ++ s)) = false := by
      rw [Bool.eq_false_iff, Ne, startsWith_iff]
      rintro ⟨r, hr⟩
      simp only [List.cons_append, List.cons.injEq] at hr
      exact h.1 hr.1
    rw [List.cons_append, removeGo, this, if_neg (by simp), ih h.2, List.cons_append]

theorem removeGo_free (c : Char) (sub a : Str) (h : c ∉ a) : removeGo (c :: sub) a 0 = a := by
  have := removeGo_pass c sub a [] h
  simpa [removeGo] using this

theorem startsWith_nl (sub l s : Str) (h : '\n' ∉ sub) : startsWith sub (l ++ '\n' :: s) = startsWith sub l := by
  rw [Bool.eq_iff_iff, startsWith_iff, startsWith_iff]
  constructor
  · rintro ⟨r, hr⟩
    rcases List.append_eq_append_iff.mp hr with ⟨x, h1, h2⟩ | ⟨x, h1, h2⟩
    · exact ⟨x, h1.symm⟩
    · cases x with
      | nil => exact ⟨[], by simpa using h1⟩
      | cons d x =>
        simp only [List.cons_append, List.cons.injEq] at h2
        exact absurd (by rw [h1, ← h2.1]; simp) h
  · exact fun h => h.trans (List.prefix_append _ _)

theorem removeGo_line (sub l s : Str) (h : '\n' ∉ sub) (hne : sub ≠ []) :
    ∀ k, k ≤ l.length → removeGo sub (l ++ '\n' :: s) k = removeGo sub l k ++ '\n' :: removeGo sub s 0 := by
  induction l with
  | nil =>
    intro k hk
    obtain rfl : k = 0 := by simpa using hk
    have : startsWith sub ('\n' :: s) = false := by
      have := startsWith_nl sub [] s h
      rw [List.nil_append] at this
      rw [this, Bool.eq_false_iff, Ne, startsWith_iff]
      simpa using hne
    simp [removeGo, this]
  | cons c l ih =>
    intro k hk
    cases k with
    | succ k =>
      rw [List.cons_append, removeGo, removeGo]
      exact ih k (by simpa using hk)
    | zero =>
      rw [List.cons_append, removeGo, removeGo]
      have e := startsWith_nl sub (c :: l) s h
      rw [List.cons_append] at e
      rw [e]
      split
      · next hp =>
        rw [startsWith_iff] at hp
        have := hp.length_le
        apply ih
        simp only [List.length_cons] at this
        omega
      · rw [ih 0 (Nat.zero_le _)]; rfl

theorem removeGo_terminated (sub s : Str) (h : '\n' ∉ sub) (hne : sub ≠ []) (ls : List Str) :
    removeGo sub (terminated ls ++ s) 0 = terminated (ls.map fun l => removeGo sub l 0) ++ removeGo sub s 0 := by
  induction ls with
  | nil => rfl
  | cons l ls ih =>
    rw [terminated_cons, List.append_assoc, List.cons_append, removeGo_line sub _ _ h hne 0 (Nat.zero_le _), ih,
      List.map_cons, terminated_cons]
    simp

theorem removeGo_mem {sub l : Str} {k : Nat} {c : Char} (h : c ∈ removeGo sub l k) : c ∈ l := by
  induction l generalizing k with
  | nil => cases k <;> simp [removeGo] at h
  | cons d l ih =>
    cases k with
    | succ k => rw [removeGo] at h; exact List.mem_cons_of_mem _ (ih h)
    | zero =>
      rw [removeGo] at h
      split at h
      · exact List.mem_cons_of_mem _ (ih h)
      · rcases List.mem_cons.mp h with rfl | h
        · simp
        · exact List.mem_cons_of_mem _ (ih h)

/-- Both replacements. -/
def clean (l : Str) : Str := removeGo c!", ev" (removeGo c!"=" l 0) 0

theorem clean_terminated (ls : List Str) (s : Str) :
    clean (terminated ls ++ s) = terminated (ls.map clean) ++ clean s := by
  unfold clean
  rw [removeGo_terminated _ _ (by decide) (by decide), removeGo_terminated _ _ (by decide) (by decide), List.map_map]
  rfl

theorem clean_no_nl {l : Str} (h : '\n' ∉ l) : '\n' ∉ clean l :=
  fun h' => h (removeGo_mem (removeGo_mem h'))

theorem couplingLines_marked (D : List Str) (b : Str) (h : ∀ l ∈ D, l = [] ∨ ∃ c l', l = c :: l' ∧ isWs c = false)
    (hn : ∀ l ∈ D, '\n' ∉ l) (hb : ∀ c ∈ b, isWs c = true) :
    couplingLines (terminated D ++ ('#' :: b)) = ((D.map clean).filter isData).map splitWs := by
  unfold couplingLines
  rw [strip_marked D b h hb]
  change (dataLines (clean _)).map splitWs = _
  rw [clean_terminated]
  unfold dataLines
  rw [splitlines_append]
  · have : splitlines (clean ['#']) = [['#']] := by decide
    rw [this, List.filter_append]
    rw [← filter_dropWhile D clean (by decide)]
    congr 1
    exact List.append_nil _
  · intro l hl
    obtain ⟨l', hl', rfl⟩ := List.mem_map.mp hl
    exact clean_no_nl (hn _ ((List.dropWhile_sublist _).subset hl'))

/-! ### words -/

theorem splitWs_blank (b s : Str) (hb : ∀ c ∈ b, isWs c = true) : splitWs (b ++ s) = splitWs s := by
  induction b with
  | nil => rfl
  | cons c b ih =>
    rw [List.cons_append]
    conv_lhs => unfold splitWs
    rw [if_pos (hb c (by simp)), ih fun x hx => hb x (by simp [hx])]

theorem splitWs_word_end (w : Str) (hne : w ≠ []) (hw : ∀ c ∈ w, isWs c = false) : splitWs w = [w] := by
  induction w with
  | nil => exact absurd rfl hne
  | cons c w ih =>
    unfold splitWs
    rw [if_neg (by simp [hw c (by simp)])]
    cases w with
    | nil => rfl
    | cons d w =>
      rw [ih (by simp) fun x hx => hw x (by simp [hx])]
      simp only [hw d (by simp)]; rfl

theorem splitWs_word (w : Str) (d : Char) (s : Str) (hne : w ≠ []) (hw : ∀ c ∈ w, isWs c = false)
    (hd : isWs d = true) : splitWs (w ++ d :: s) = w :: splitWs s := by
  induction w with
  | nil => exact absurd rfl hne
  | cons c w ih =>
    have hds : splitWs (d :: s) = splitWs s := by
      conv_lhs => unfold splitWs
      rw [if_pos hd]
    cases w with
    | nil =>
      change splitWs (c :: d :: s) = _
      conv_lhs => unfold splitWs
      rw [if_neg (by simp [hw c (by simp)]), hds]
      cases splitWs s <;> simp [hd]
    | cons e w =>
      rw [List.cons_append, List.cons_append]
      have := ih (by simp) fun x hx => hw x (by simp [hx])
      rw [List.cons_append] at this
      conv_lhs => unfold splitWs
      rw [if_neg (by simp [hw c (by simp)]), this]
      simp only [hw e (by simp)]; rfl

end Pibronic.OpFile
