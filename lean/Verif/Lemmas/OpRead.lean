import Verif.Lemmas.OpLines

set_option autoImplicit false
set_option linter.unusedSectionVars false

/-! Reading a file that follows the layout: the arrays before the two loops. -/
namespace Pibronic.OpFile
open Py Buffer Workflow Molecule Pibronic.Spec.OpFile

variable {K : Type}

/-! ### lines of the sections -/

/-- An ordinary line: no newline, no header, empty or not beginning with white space. -/
structure Plain (l : Str) : Prop where
  nl : '\n' ∉ l
  header : ∀ h ∈ headers, ¬ h <:+: l
  start : l = [] ∨ ∃ c l', l = c :: l' ∧ isWs c = false

theorem plain_line {name value : Str} {sp : Blanks} (hn : GoodName name) (hv : GoodValue value) :
    Plain (line name value sp) :=
  ⟨line_notMem hn hv (by decide), no_header_of_chars lineChars_headers (line_chars hn.chars hv.chars),
    Or.inr (line_head hn)⟩

theorem plain_nil : Plain [] := ⟨by simp, by decide +kernel, Or.inl rfl⟩

theorem plain_dec {l : Str} (h1 : '\n' ∉ l) (h2 : ∀ h ∈ headers, ¬ h <:+: l) (h3 : l.head? = some '#') : Plain l := by
  refine ⟨h1, h2, Or.inr ?_⟩
  cases l with
  | nil => simp at h3
  | cons c l => simp only [List.head?_cons, Option.some.injEq] at h3; exact ⟨c, l, rfl, by rw [h3]; decide⟩

/-- The name of a coupling of one mode. -/
def singleName (pre : Str) (a b i : Nat) : Str :=
  pre ++ c!"_s" ++ twoDigits a ++ c!"_s" ++ twoDigits b ++ c!"_v" ++ twoDigits i

/-- The name of a coupling of two modes. -/
def doubleName (pre : Str) (a b i j : Nat) : Str :=
  pre ++ c!"_s" ++ twoDigits a ++ c!"s" ++ twoDigits b ++ c!"_v" ++ twoDigits i ++ c!"v" ++ twoDigits j

theorem goodName_single {pre : Str} (h : GoodName pre) (a b i : Nat) : GoodName (singleName pre a b i) := by
  unfold singleName
  repeat' apply goodName_append
  all_goals first
    | exact h
    | exact twoDigits_chars _
    | decide

theorem goodName_double {pre : Str} (h : GoodName pre) (a b i j : Nat) : GoodName (doubleName pre a b i j) := by
  unfold doubleName
  repeat' apply goodName_append
  all_goals first
    | exact h
    | exact twoDigits_chars _
    | decide

theorem goodName_w (n : Nat) : GoodName (c!"w" ++ twoDigits n) :=
  goodName_append (goodName_dec (by decide)) (twoDigits_chars _)

theorem goodName_EH (n : Nat) : GoodName (c!"EH_s" ++ twoDigits n ++ c!"_s" ++ twoDigits n) :=
  goodName_append (goodName_append (goodName_append (goodName_dec (by decide)) (twoDigits_chars _)) (by decide))
    (twoDigits_chars _)

theorem goodName_C1 : GoodName c!"C1" := goodName_dec (by decide)
theorem goodName_C2 : GoodName c!"C2" := goodName_dec (by decide)
theorem goodName_C3 : GoodName c!"C3" := goodName_dec (by decide)
theorem goodName_C4 : GoodName c!"C4" := goodName_dec (by decide)
theorem goodName_B3 : GoodName c!"B3" := goodName_dec (by decide)
theorem goodName_AB4 (b : Bool) : GoodName (if b then c!"A4" else c!"B4") := by
  cases b
  · exact goodName_dec (by decide)
  · exact goodName_dec (by decide)

section
variable {num : Str → Option K} {f : Op}

theorem good_value (h : f.Ok num) {v : Value} (hv : v ∈ f.values) : GoodValue v.text :=
  ⟨(h.numbers v hv).1, (h.numbers v hv).2.1⟩

theorem plain_single (h : f.Ok num) {pre : Str} (hp : GoodName pre) {c : Coupling} (hc : c.value ∈ f.values) :
    Plain (single pre c) := plain_line (goodName_single hp _ _ _) (good_value h hc)

theorem plain_double (h : f.Ok num) {pre : Str} (hp : GoodName pre) {c : Coupling} (hc : c.value ∈ f.values) :
    Plain (double pre c) := plain_line (goodName_double hp _ _ _ _) (good_value h hc)

theorem mem_values_w {v : Value} (h : v ∈ f.frequencies) : v ∈ f.values := by simp [Op.values, h]
theorem mem_values_E {v : Value} (h : v ∈ f.energies) : v ∈ f.values := by simp [Op.values, h]
theorem mem_values {c : Coupling} (h : c ∈ f.linear ++ f.diagonal ++ f.offDiagonal ++ f.cubic ++ f.quartic ++ f.bicubic ++
    f.biquartic.map (·.2)) : c.value ∈ f.values := by
  unfold Op.values
  exact List.mem_append_right _ (List.mem_map_of_mem h)

theorem mem_zipIdx_fst {α : Type} {l : List α} {k : Nat} {p : α × Nat} (h : p ∈ l.zipIdx k) : p.1 ∈ l := by
  obtain ⟨x, n⟩ := p
  have := List.mem_zipIdx h
  rw [this.2.2]
  exact List.getElem_mem _

theorem plain_body (h : f.Ok num) : ∀ s ∈ f.sections, s.header ≠ c!"Electronic transition moments" →
    ∀ l ∈ s.body, Plain l := by
  intro s hs hne l hl
  simp only [Op.sections, List.mem_cons, List.not_mem_nil, or_false] at hs
  rcases hs with rfl | rfl | rfl | rfl | rfl | rfl | rfl | rfl | rfl | rfl | rfl <;>
    simp only [List.mem_append, List.mem_cons, List.not_mem_nil, or_false, List.mem_map] at hl
  · rcases hl with ((rfl | rfl) | ⟨p, hp, rfl⟩) | rfl
    · exact plain_dec (by decide) (by decide +kernel) rfl
    · exact plain_nil
    · exact plain_line (goodName_w _) (good_value h (mem_values_w (mem_zipIdx_fst hp)))
    · exact plain_nil
  · rw [hl]; exact plain_nil
  · rcases hl with ((rfl | rfl | rfl) | ⟨p, hp, rfl⟩) | rfl
    · exact plain_dec (by decide) (by decide +kernel) rfl
    · exact plain_dec (by decide) (by decide +kernel) rfl
    · exact plain_nil
    · exact plain_line (goodName_EH _) (good_value h (mem_values_E (mem_zipIdx_fst hp)))
    · exact plain_nil
  · exact absurd rfl hne
  · rcases hl with ((rfl | rfl) | ⟨c, hc, rfl⟩) | rfl
    · exact plain_dec (by decide) (by decide +kernel) rfl
    · exact plain_nil
    · exact plain_single h goodName_C1 (mem_values (by simp [hc]))
    · exact plain_nil
  · rcases hl with ((((rfl | rfl) | ⟨c, hc, rfl⟩) | (rfl | rfl | rfl | rfl)) | ⟨c, hc, rfl⟩) | rfl
    · exact plain_dec (by decide) (by decide +kernel) rfl
    · exact plain_nil
    · exact plain_double h goodName_C2 (mem_values (by simp [hc]))
    · exact plain_nil
    · exact plain_dec (by decide) (by decide +kernel) rfl
    · exact plain_dec (by decide) (by decide +kernel) rfl
    · exact plain_nil
    · exact plain_double h goodName_C2 (mem_values (by simp [hc]))
    · exact plain_nil
  · rcases hl with ((rfl | rfl) | ⟨c, hc, rfl⟩) | rfl
    · exact plain_dec (by decide) (by decide +kernel) rfl
    · exact plain_nil
    · exact plain_single h goodName_C3 (mem_values (by simp [hc]))
    · exact plain_nil
  · rcases hl with ((rfl | rfl) | ⟨c, hc, rfl⟩) | rfl
    · exact plain_dec (by decide) (by decide +kernel) rfl
    · exact plain_nil
    · exact plain_single h goodName_C4 (mem_values (by simp [hc]))
    · exact plain_nil
  · rcases hl with ((rfl | rfl) | ⟨c, hc, rfl⟩) | rfl
    · exact plain_dec (by decide) (by decide +kernel) rfl
    · exact plain_nil
    · exact plain_double h goodName_B3 (mem_values (by simp [hc]))
    · exact plain_nil
  · rcases hl with ((rfl | rfl) | ⟨c, hc, rfl⟩) | rfl
    · exact plain_dec (by decide) (by decide +kernel) rfl
    · exact plain_nil
    · exact plain_double h (goodName_AB4 _) (mem_values (by simp only [List.mem_append, List.mem_map]; exact Or.inr ⟨c, hc, rfl⟩))
    · exact plain_nil

theorem sections_good (h : f.Ok num) : Good f.before f.sections where
  before := fun l hl => (h.free l (by simp [hl])).2
  header := by
    intro s hs
    simp only [Op.sections, List.mem_cons, List.not_mem_nil, or_false] at hs
    rcases hs with rfl | rfl | rfl | rfl | rfl | rfl | rfl | rfl | rfl | rfl | rfl <;> (dsimp only; decide +kernel)
  mark := by
    intro s hs
    simp only [Op.sections, List.mem_cons, List.not_mem_nil, or_false] at hs
    rcases hs with rfl | rfl | rfl | rfl | rfl | rfl | rfl | rfl | rfl | rfl | rfl <;>
      (dsimp only; simp only [List.head?_cons, Option.some.injEq, forall_eq']; decide +kernel)
  rest := by
    intro s hs
    simp only [Op.sections, List.mem_cons, List.not_mem_nil, or_false] at hs
    rcases hs with rfl | rfl | rfl | rfl | rfl | rfl | rfl | rfl | rfl | rfl | rfl
    case inr.inl =>
      intro hc
      rcases h.zeroPoint _ hc with e | e
      · exact absurd e (by decide)
      · exact absurd e (by decide)
    all_goals (dsimp only; decide +kernel)
  line := by
    intro s hs
    simp only [Op.sections, List.mem_cons, List.not_mem_nil, or_false] at hs
    rcases hs with rfl | rfl | rfl | rfl | rfl | rfl | rfl | rfl | rfl | rfl | rfl
    case inr.inl =>
      intro g hg hne
      have hd : ∀ g ∈ headers, g ≠ c!"Zeropoint energy" → ∃ c ∈ g, c ∉ c!"#        Zeropoint energy" ++ numeral := by
        decide +kernel
      obtain ⟨c, h1, h2⟩ := hd g hg hne
      refine not_infix_of_char h1 fun hc => h2 ?_
      rw [List.mem_append] at hc
      rcases hc with hc | hc
      · exact List.mem_append_left _ hc
      · rcases h.zeroPoint c hc with rfl | e
        · decide
        · exact List.mem_append_right _ e
    all_goals (dsimp only; decide +kernel)
  body := by
    intro s hs l hl
    by_cases hm : s.header = c!"Electronic transition moments"
    · simp only [Op.sections, List.mem_cons, List.not_mem_nil, or_false] at hs
      rcases hs with rfl | rfl | rfl | rfl | rfl | rfl | rfl | rfl | rfl | rfl | rfl
      case inr.inr.inr.inl => exact h.free l (by simp at hl; simp [hl])
      all_goals (dsimp only at hm; exact absurd hm (by decide +kernel))
    · exact ⟨(plain_body h s hs hm l hl).nl, (plain_body h s hs hm l hl).header⟩
  nodup := by
    have : f.sections.map Section.header = headers := rfl
    rw [this]; decide +kernel

end

/-! ### energies and frequencies -/

theorem mapM_values {num : Str → Option K} {label : Nat → Str} {L : List Value} (v : Value → K)
    (hl : ∀ n, GoodName (label n)) (hv : ∀ x ∈ L, GoodValue x.text ∧ num x.text = some (v x)) (k : Nat) :
    (((L.zipIdx k).map fun p => line (label p.2) p.1.text p.1.sp).zipIdx k).mapM
      (fun p => valueLine num (label p.2) p.1) = .ok (L.map v) := by
  induction L generalizing k with
  | nil => rfl
  | cons x L ih =>
    have hx := hv x (by simp)
    have h1 : valueLine num (label k) (line (label k) x.text x.sp) = .ok (v x) := by
      unfold valueLine
      rw [line_words (hl k) hx.1]
      simp [item, toNum, hx.2, bind, Except.bind]
    rw [List.zipIdx_cons, List.map_cons, List.zipIdx_cons, List.mapM_cons, h1,
      ih (fun x hx => hv x (by simp [hx]))]
    rfl

theorem values_section {num : Str → Option K} {label : Nat → Str} {L : List Value} (v : Value → K)
    (hl : ∀ n, GoodName (label n)) (hv : ∀ x ∈ L, GoodValue x.text ∧ num x.text = some (v x)) (b : Str)
    (hb : ∀ c ∈ b, isWs c = true) :
    values num label (terminated ([[]] ++ L.zipIdx.map (fun p => line (label p.2) p.1.text p.1.sp) ++ [[]]) ++ ('#' :: b)) =
      .ok (L.map v) := by
  have hp : ∀ l ∈ [[]] ++ L.zipIdx.map (fun p => line (label p.2) p.1.text p.1.sp) ++ [[]], Plain l := by
    intro l h
    simp only [List.mem_append, List.mem_cons, List.not_mem_nil, or_false, List.mem_map] at h
    rcases h with (rfl | ⟨p, h, rfl⟩) | rfl
    · exact plain_nil
    · exact plain_line (hl _) (hv _ (mem_zipIdx_fst h)).1
    · exact plain_nil
  unfold values
  rw [dataLines_marked _ b (fun l h => (hp l h).start) (fun l h => (hp l h).nl) hb]
  have : ([[]] ++ L.zipIdx.map (fun p : Value × Nat => line (label p.2) p.1.text p.1.sp) ++ [[]]).filter isData =
      L.zipIdx.map (fun p : Value × Nat => line (label p.2) p.1.text p.1.sp) := by
    have h0 : ([[]] : List Str).filter isData = [] := by decide
    rw [List.filter_append, List.filter_append, h0, List.nil_append, List.append_nil, List.filter_eq_self.mpr]
    · intro l h
      simp only [List.mem_map] at h
      obtain ⟨p, h, rfl⟩ := h
      exact line_data (hl _) (hv _ (mem_zipIdx_fst h)).1
  rw [this]
  exact mapM_values v hl hv 0

section
variable {num : Str → Option K} {f : Op}

/-- The number that a text stands for. -/
def numD [Zero K] (num : Str → Option K) (s : Str) : K := (num s).getD 0

theorem num_eq [Zero K] (h : f.Ok num) {v : Value} (hv : v ∈ f.values) : num v.text = some (numD num v.text) := by
  have := (h.numbers v hv).2.2
  unfold numD
  cases hn : num v.text with
  | none => exact absurd hn this
  | some x => rfl

theorem frequencies_text [Zero K] (h : f.Ok num) :
    frequencies num f.text = .ok (f.frequencies.map fun v => numD num v.text) := by
  unfold frequencies
  have := section_region (sections_good h) f.after [] (f.sections.drop 2) _ _ rfl [c!"# ------------------------ "] _ rfl
  rw [show f.text = _ from rfl, show (2 : Nat) = [c!"# ------------------------ "].length + 1 from rfl]
  erw [this]
  exact values_section (fun v => numD num v.text) (fun n => goodName_w _)
    (fun x hx => ⟨good_value h (mem_values_w hx), num_eq h (mem_values_w hx)⟩) c!"        " (by decide)

theorem energies_text [Zero K] (h : f.Ok num) :
    energies num f.text = .ok (f.energies.map fun v => numD num v.text) := by
  unfold energies
  have := section_region (sections_good h) f.after (f.sections.take 2) (f.sections.drop 4) _ _ rfl
    [c!"#   Vertical energies - Zeropoint ", c!"# ------------------------------- "] _ rfl
  rw [show f.text = _ from rfl, show (3 : Nat) = [c!"#   Vertical energies - Zeropoint ",
    c!"# ------------------------------- "].length + 1 from rfl]
  erw [this]
  exact values_section (fun v => numD num v.text) (fun n => goodName_EH _)
    (fun x hx => ⟨good_value h (mem_values_E hx), num_eq h (mem_values_E hx)⟩) c!"     " (by decide)

end

/-! ### couplings: the words of the lines -/

section
variable {γ : Type} {n v : γ → Str} {sp : γ → Blanks}

theorem entries_words (cs : List γ) (hn : ∀ c ∈ cs, GoodName (n c)) (hv : ∀ c ∈ cs, GoodValue (v c)) :
    (((cs.map fun c => line (n c) (v c) (sp c)).map clean).filter isData).map splitWs = cs.map fun c => [n c, v c] := by
  rw [List.filter_eq_self.mpr]
  · rw [List.map_map, List.map_map]
    refine List.map_congr_left fun c hc => ?_
    exact clean_core_words (hn c hc) (hv c hc) _
  · intro l hl
    simp only [List.mem_map] at hl
    obtain ⟨_, ⟨c, hc, rfl⟩, rfl⟩ := hl
    exact clean_core_data (hn c hc) (hv c hc) _

theorem plain_entries {cs : List γ} (hn : ∀ c ∈ cs, GoodName (n c)) (hv : ∀ c ∈ cs, GoodValue (v c)) :
    ∀ l ∈ cs.map fun c => line (n c) (v c) (sp c), Plain l := by
  intro l hl
  obtain ⟨c, hc, rfl⟩ := List.mem_map.mp hl
  exact plain_line (hn c hc) (hv c hc)

theorem section_words (cs : List γ) (hn : ∀ c ∈ cs, GoodName (n c)) (hv : ∀ c ∈ cs, GoodValue (v c)) (b : Str)
    (hb : ∀ c ∈ b, isWs c = true) :
    couplingLines (terminated ([[]] ++ (cs.map fun c => line (n c) (v c) (sp c)) ++ [[]]) ++ ('#' :: b)) =
      cs.map fun c => [n c, v c] := by
  have hp : ∀ l ∈ [[]] ++ (cs.map fun c => line (n c) (v c) (sp c)) ++ [[]], Plain l := by
    intro l h
    simp only [List.mem_append, List.mem_cons, List.not_mem_nil, or_false] at h
    rcases h with (rfl | h) | rfl
    · exact plain_nil
    · exact plain_entries hn hv l h
    · exact plain_nil
  rw [couplingLines_marked _ b (fun l h => (hp l h).start) (fun l h => (hp l h).nl) hb]
  have h0 : (([[]] : List Str).map clean).filter isData = [] := by decide
  rw [List.map_append, List.map_append, List.filter_append, List.filter_append, h0, List.nil_append, List.append_nil,
    entries_words cs hn hv]

theorem section_words2 (cs ds : List γ) (hn : ∀ c ∈ cs ++ ds, GoodName (n c)) (hv : ∀ c ∈ cs ++ ds, GoodValue (v c))
    (m : List Str) (hm : ∀ l ∈ m, Plain l ∧ (l = [] ∨ '#' ∈ clean l)) (b : Str) (hb : ∀ c ∈ b, isWs c = true) :
    couplingLines (terminated ([[]] ++ (cs.map fun c => line (n c) (v c) (sp c)) ++ m ++
      (ds.map fun c => line (n c) (v c) (sp c)) ++ [[]]) ++ ('#' :: b)) =
      (cs ++ ds).map fun c => [n c, v c] := by
  have h1 := plain_entries (sp := sp) (cs := cs) (fun c hc => hn c (by simp [hc])) (fun c hc => hv c (by simp [hc]))
  have h2 := plain_entries (sp := sp) (cs := ds) (fun c hc => hn c (by simp [hc])) (fun c hc => hv c (by simp [hc]))
  have hp : ∀ l ∈ [[]] ++ (cs.map fun c => line (n c) (v c) (sp c)) ++ m ++
      (ds.map fun c => line (n c) (v c) (sp c)) ++ [[]], Plain l := by
    intro l h
    simp only [List.mem_append, List.mem_cons, List.not_mem_nil, or_false] at h
    rcases h with (((rfl | h) | h) | h) | rfl
    · exact plain_nil
    · exact h1 l h
    · exact (hm l h).1
    · exact h2 l h
    · exact plain_nil
  rw [couplingLines_marked _ b (fun l h => (hp l h).start) (fun l h => (hp l h).nl) hb]
  have h0 : (([[]] : List Str).map clean).filter isData = [] := by decide
  have h3 : (m.map clean).filter isData = [] := by
    rw [List.filter_eq_nil_iff]
    intro l hl
    obtain ⟨l, hl', rfl⟩ := List.mem_map.mp hl
    rcases (hm l hl').2 with rfl | h
    · decide
    · simp [isData, h]
  rw [List.map_append, List.map_append, List.map_append, List.map_append, List.filter_append, List.filter_append,
    List.filter_append, List.filter_append, h0, h3, List.nil_append, List.append_nil, List.append_nil, List.map_append,
    entries_words cs (fun c hc => hn c (by simp [hc])) (fun c hc => hv c (by simp [hc])),
    entries_words ds (fun c hc => hn c (by simp [hc])) (fun c hc => hv c (by simp [hc])), List.map_append]

/-- The last section is not followed by a comment. -/
theorem section_words_last (cs : List γ) (hn : ∀ c ∈ cs, GoodName (n c)) (hv : ∀ c ∈ cs, GoodValue (v c)) :
    couplingLines (terminated ([[]] ++ (cs.map fun c => line (n c) (v c) (sp c)) ++ [[]])) =
      cs.map fun c => [n c, v c] := by
  rcases List.eq_nil_or_concat' cs with rfl | ⟨ds, d, rfl⟩
  · change couplingLines (terminated [[], []]) = []
    decide +kernel
  have hd1 := hn d (by simp)
  have hd2 := hv d (by simp)
  have hn' : ∀ c ∈ ds, GoodName (n c) := fun c hc => hn c (by simp [hc])
  have hv' : ∀ c ∈ ds, GoodValue (v c) := fun c hc => hv c (by simp [hc])
  have hp : ∀ l ∈ [[]] ++ (ds.map fun c => line (n c) (v c) (sp c)), Plain l := by
    intro l h
    simp only [List.mem_append, List.mem_cons, List.not_mem_nil, or_false] at h
    rcases h with rfl | h
    · exact plain_nil
    · exact plain_entries hn' hv' l h
  have e : terminated ([[]] ++ ((ds ++ [d]).map fun c => line (n c) (v c) (sp c)) ++ [[]]) =
      terminated ([[]] ++ (ds.map fun c => line (n c) (v c) (sp c))) ++
        (core (n d) (v d) (sp d) ++ (blanks (sp d).tail ++ c!"\n\n")) := by
    rw [List.map_append, ← List.append_assoc, List.append_assoc, terminated_append]
    congr 1
    simp [terminated, line_core]
  obtain ⟨x, l', hx, hxw⟩ := line_head (value := v d) (sp := ⟨(sp d).name, (sp d).eq, (sp d).value, 0⟩) hd1
  have hx' : core (n d) (v d) (sp d) = x :: l' := by
    rw [← hx, line_core]
    simp [core, blanks]
  have hs : strip (terminated ([[]] ++ ((ds ++ [d]).map fun c => line (n c) (v c) (sp c)) ++ [[]])) =
      terminated (([[]] ++ (ds.map fun c => line (n c) (v c) (sp c))).dropWhile (· = [])) ++ core (n d) (v d) (sp d) := by
    rw [e]
    refine strip_eq (b := blanks (sp d).tail ++ c!"\n\n") (dropWhile_blankLines _ _ (fun l h => (hp l h).start)
      ⟨x, _, by rw [hx']; rfl, hxw⟩) (by simp [List.append_assoc]) ?_ ?_
    · intro c hc
      rcases List.mem_append.mp hc with hc | hc
      · exact blanks_ws _ c hc
      · exact (show ∀ c ∈ c!"\n\n", isWs c = true by decide) c hc
    · intro c hc
      have : (terminated (([[]] ++ (ds.map fun c => line (n c) (v c) (sp c))).dropWhile (· = [])) ++
          core (n d) (v d) (sp d)).getLast? = some 'v' := by
        unfold core
        rw [← List.append_assoc, List.getLast?_append]
        rfl
      rw [this] at hc
      cases hc; decide
  unfold couplingLines
  rw [hs]
  change (dataLines (clean _)).map splitWs = _
  rw [clean_terminated]
  unfold dataLines
  rw [splitlines_append]
  · have hcl := clean_core_data (sp := sp d) hd1 hd2 0
    have hcw := clean_core_words (sp := sp d) hd1 hd2 0
    simp only [blanks, List.replicate_zero, List.append_nil] at hcl hcw
    have hcn : '\n' ∉ clean (core (n d) (v d) (sp d)) := by
      refine clean_no_nl ?_
      have := line_notMem (sp := sp d) (c := '\n') hd1 hd2 (by decide)
      rw [line_core, List.mem_append, not_or] at this
      exact this.1
    have : splitlines (clean (core (n d) (v d) (sp d))) = [clean (core (n d) (v d) (sp d))] := by
      unfold splitlines
      rw [keepLines_open hcn (by intro h; rw [h] at hcl; exact absurd hcl (by decide)), List.map_cons, List.map_nil,
        List.filter_eq_self.mpr fun c hc => by simp; rintro rfl; exact hcn hc]
    rw [this, List.filter_append]
    change List.map splitWs (List.filter isData _ ++ List.filter isData _) = _
    rw [filter_dropWhile _ clean (by decide)]
    have h0 : (([[]] : List Str).map clean).filter isData = [] := by decide
    have h1 : ([clean (core (n d) (v d) (sp d))] : List Str).filter isData = [clean (core (n d) (v d) (sp d))] := by
      rw [List.filter_cons, if_pos hcl, List.filter_nil]
    rw [List.map_append, List.map_append, List.filter_append, h0, h1, List.nil_append, entries_words ds hn' hv',
      List.map_append, List.map_cons, hcw]
    rfl
  · intro l hl
    obtain ⟨l', hl', rfl⟩ := List.mem_map.mp hl
    exact clean_no_nl (hp _ ((List.dropWhile_sublist _).subset hl')).nl

end

end Pibronic.OpFile
