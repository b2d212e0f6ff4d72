import Verif.Lemmas.OpRead
import Verif.Lemmas.OpArrays

set_option autoImplicit false
set_option linter.unusedSectionVars false

/-! The arrays that are read from a file that follows the layout. -/
namespace Pibronic.OpFile
open Py Buffer Workflow Molecule Pibronic.Spec.OpFile

variable {K : Type}

theorem axis_succ {n l : Nat} (h : l < n) : axis n (l + 1) = .ok l := by
  unfold axis
  rw [if_neg (by omega), if_pos (by omega), Nat.add_sub_cancel]

section
variable [Zero K]

/-- The array after the given terms were written one after the other. -/
def put (num : Str → Option K) (l : List (List Nat × Nat × Nat × Str)) (g : Arr K) : Arr K :=
  l.foldl (fun g t => g.set t.1 t.2.1 t.2.2.1 (numD num t.2.2.2)) g

theorem put_append (num : Str → Option K) (l m : List (List Nat × Nat × Nat × Str)) (g : Arr K) :
    put num (l ++ m) g = put num m (put num l g) := by
  unfold put; rw [List.foldl_append]

theorem put_notMem (num : Str → Option K) (l : List (List Nat × Nat × Nat × Str)) (g : Arr K) {idx : List Nat}
    {a b : Nat} (h : ∀ s, (idx, a, b, s) ∉ l) : put num l g idx a b = g idx a b := by
  induction l generalizing g with
  | nil => rfl
  | cons t l ih =>
    have h1 := ih (g.set t.1 t.2.1 t.2.2.1 (numD num t.2.2.2)) (fun s hs => h s (by simp [hs]))
    refine h1.trans ?_
    unfold Arr.set
    rw [if_neg]
    rintro ⟨rfl, rfl, rfl⟩
    exact h t.2.2.2 (by simp)

theorem put_mem (num : Str → Option K) (l : List (List Nat × Nat × Nat × Str)) (g : Arr K) {idx : List Nat}
    {a b : Nat} {s : Str} (h : (idx, a, b, s) ∈ l) (hu : ∀ s', (idx, a, b, s') ∈ l → s' = s) :
    put num l g idx a b = numD num s := by
  induction l generalizing g with
  | nil => simp at h
  | cons t l ih =>
    by_cases hl : (idx, a, b, s) ∈ l
    · exact ih _ hl fun s' hs' => hu s' (by simp [hs'])
    · have ht : (idx, a, b, s) = t := by simpa [hl] using h
      have := put_notMem num l (g.set t.1 t.2.1 t.2.2.1 (numD num t.2.2.2)) (idx := idx) (a := a) (b := b)
        (fun s' hs' => hl (hu s' (by simp [hs']) ▸ hs'))
      refine Eq.trans this ?_
      rw [← ht]
      simp [Arr.set]

theorem assignAll_put {num : Str → Option K} {N A : Nat} {pre : Str} {pieces : List Str}
    {expand : List Nat → List Nat} {γ : Type} {n v : γ → Str} (t : γ → List Nat × Nat × Nat × Str) (cs : List γ) (g : Arr K)
    (h : ∀ c ∈ cs, startsWith pre (n c) = true → ∃ js, labels pieces (n c) = some (((t c).2.1 + 1) :: ((t c).2.2.1 + 1) :: js) ∧
      (expand js).mapM (axis N) = .ok (t c).1 ∧ (t c).2.1 < A ∧ (t c).2.2.1 < A ∧ v c = (t c).2.2.2 ∧
      num (t c).2.2.2 = some (numD num (t c).2.2.2)) :
    assignAll num N A pre pieces expand (cs.map fun c => [n c, v c]) g =
      .ok (put num ((cs.filter fun c => startsWith pre (n c)).map t) g) := by
  induction cs generalizing g with
  | nil => rfl
  | cons c cs ih =>
    have ih' := fun g => ih g fun c hc => h c (by simp [hc])
    unfold assignAll at ih' ⊢
    rw [List.map_cons, List.foldlM_cons]
    by_cases hs : startsWith pre (n c) = true
    · obtain ⟨js, h1, h2, h3, h4, h5, h6⟩ := h c (by simp) hs
      have : assign num N A pieces expand g [n c, v c] = .ok (g.set (t c).1 (t c).2.1 (t c).2.2.1 (numD num (t c).2.2.2)) := by
        unfold assign
        simp only [item, List.getElem?_cons_zero, List.getElem?_cons_succ, h1, h2, axis_succ h3, axis_succ h4, toNum, h5, h6,
          bind, Except.bind]
      rw [List.filter_cons, if_pos hs, List.map_cons]
      simp only [item, List.getElem?_cons_zero, hs, bind, Except.bind, if_true, this] at ih' ⊢
      exact ih' _
    · rw [List.filter_cons, if_neg hs]
      simp only [item, List.getElem?_cons_zero, hs, bind, Except.bind, if_false] at ih' ⊢
      exact ih' _

/-- The array holds the terms of the file and nothing else. -/
structure Listed (num : Str → Option K) (f : Op) (k : ModelIO.Key) (g : Arr K) : Prop where
  mem : ∀ idx a b s, (k, idx, a, b, s) ∈ f.terms → g idx a b = numD num s
  rest : ∀ idx a b, (∀ s, (k, idx, a, b, s) ∉ f.terms) → g idx a b = 0

variable {num : Str → Option K} {f : Op}

theorem terms_unique (h : f.Ok num) {k : ModelIO.Key} {idx : List Nat} {a b : Nat} {s s' : Str}
    (h1 : (k, idx, a, b, s) ∈ f.terms) (h2 : (k, idx, a, b, s') ∈ f.terms) : s = s' := by
  have := List.inj_on_of_nodup_map h.once h1 h2 rfl
  simpa using this

theorem put_listed (h : f.Ok num) {k : ModelIO.Key} {l : List (List Nat × Nat × Nat × Str)}
    (hl : ∀ t, t ∈ l ↔ (k, t) ∈ f.terms) : Listed num f k (put num l fun _ _ _ => 0) where
  mem := fun idx a b s ht => put_mem num l _ ((hl _).mpr ht) fun s' hs' => terms_unique h ((hl _).mp hs') ht
  rest := fun idx a b hs => put_notMem num l _ fun s hs' => hs s ((hl _).mp hs')

end

/-! ### the sections -/

section
variable [Zero K] {num : Str → Option K} {f : Op}

/-- The term of a coupling of one mode. -/
def term1 (m : Nat) (c : Coupling) : List Nat × Nat × Nat × Str :=
  (List.replicate m c.i, c.a, c.b, c.value.text)

theorem inside1 (h : f.Ok num) {k : ModelIO.Key} {idx : List Nat} {a b : Nat} {s : Str}
    (ht : (k, idx, a, b, s) ∈ f.terms) :
    (∀ i ∈ idx, i < f.frequencies.length) ∧ a < f.energies.length ∧ b < f.energies.length := by
  have := h.inside _ ht
  exact ⟨this.1, lt_of_le_of_lt this.2.1 this.2.2, this.2.2⟩

theorem filter_nil {γ : Type} (cs : List γ) (n : γ → Str) : (cs.filter fun c => startsWith [] (n c)) = cs := by
  rw [List.filter_eq_self]; intro c _; rfl

theorem linear_text (h : f.Ok num) (g : Arr K) :
    linear num f.frequencies.length f.energies.length f.text g =
      .ok (put num (f.linear.map fun c => ([c.i], c.a, c.b, c.value.text)) g) := by
  unfold linear
  have hr := section_region (sections_good h) f.after (f.sections.take 4) (f.sections.drop 6) _ _ rfl
    [c!"# -------------------------- "] _ rfl
  rw [show f.text = _ from rfl, show (2 : Nat) = [c!"# -------------------------- "].length + 1 from rfl]
  erw [hr]
  have hv : ∀ c ∈ f.linear, c.value ∈ f.values := fun c hc => mem_values (by simp [hc])
  have hw := section_words (n := fun c : Coupling => singleName c!"C1" (c.a + 1) (c.b + 1) (c.i + 1))
    (v := fun c : Coupling => c.value.text) (sp := fun c : Coupling => c.value.sp) f.linear
    (fun c _ => goodName_single goodName_C1 _ _ _) (fun c hc => good_value h (hv c hc)) c!"  " (by decide)
  have hw' := congrArg (fun l => assignAll num f.frequencies.length f.energies.length [] [c!"C1_s", c!"_s", c!"_v"] id l g) hw
  refine hw'.trans ?_
  have := assignAll_put (num := num) (N := f.frequencies.length) (A := f.energies.length) (pre := [])
    (pieces := [c!"C1_s", c!"_s", c!"_v"]) (expand := id)
    (n := fun c : Coupling => singleName c!"C1" (c.a + 1) (c.b + 1) (c.i + 1)) (v := fun c : Coupling => c.value.text)
    (fun c : Coupling => ([c.i], c.a, c.b, c.value.text)) f.linear g ?_
  · rw [filter_nil] at this; exact this
  · intro c hc _
    have hi := inside1 h (k := .G1) (idx := [c.i]) (a := c.a) (b := c.b) (s := c.value.text) (by
      simp only [Op.terms, List.mem_append, List.mem_map]; exact Or.inl (Or.inl (Or.inl (Or.inl (Or.inl ⟨c, hc, rfl⟩)))))
    refine ⟨[c.i + 1], labels_single c!"C1" _ _ _, ?_, hi.2.1, hi.2.2, rfl, num_eq h (hv c hc)⟩
    simp only [id, List.mapM_cons, List.mapM_nil, axis_succ (hi.1 c.i (by simp)), bind, Except.bind, pure, Except.pure]

end

section
variable [Zero K] {num : Str → Option K} {f : Op}

theorem optional_put {N A : Nat} {buf b e text : Str} {pieces : List Str} {expand : List Nat → List Nat} {γ : Type}
    {n v : γ → Str} (t : γ → List Nat × Nat × Nat × Str) (cs : List γ) (g : Arr K)
    (hr : region buf b e 2 = .ok text) (hw : couplingLines text = cs.map fun c => [n c, v c])
    (h : ∀ c ∈ cs, ∃ js, labels pieces (n c) = some (((t c).2.1 + 1) :: ((t c).2.2.1 + 1) :: js) ∧
      (expand js).mapM (axis N) = .ok (t c).1 ∧ (t c).2.1 < A ∧ (t c).2.2.1 < A ∧ v c = (t c).2.2.2 ∧
      num (t c).2.2.2 = some (numD num (t c).2.2.2)) :
    optional num N A buf b e pieces expand g = .ok (put num (cs.map t) g) := by
  unfold optional
  rw [hr]
  simp only
  rw [hw, assignAll_put t cs g fun c hc _ => h c hc, filter_nil]

theorem mapM_axis {N : Nat} {l : List Nat} (h : ∀ i ∈ l, i < N) : (l.map (· + 1)).mapM (axis N) = .ok l := by
  induction l with
  | nil => rfl
  | cons i l ih =>
    rw [List.map_cons, List.mapM_cons, axis_succ (h i (by simp)), ih fun j hj => h j (by simp [hj])]
    rfl

/-- A section of couplings of one mode. -/
theorem single_entry (h : f.Ok num) {pre : Str} {expand : List Nat → List Nat} {k : ModelIO.Key} {idx : List Nat}
    {c : Coupling} (ht : (k, idx, c.a, c.b, c.value.text) ∈ f.terms) (hc : c.value ∈ f.values)
    (he : expand [c.i + 1] = idx.map (· + 1)) :
    ∃ js, labels [pre ++ c!"_s", c!"_s", c!"_v"] (singleName pre (c.a + 1) (c.b + 1) (c.i + 1)) =
        some ((c.a + 1) :: (c.b + 1) :: js) ∧
      (expand js).mapM (axis f.frequencies.length) = .ok idx ∧ c.a < f.energies.length ∧ c.b < f.energies.length ∧
      c.value.text = c.value.text ∧ num c.value.text = some (numD num c.value.text) := by
  have hi := inside1 h ht
  exact ⟨[c.i + 1], labels_single pre _ _ _, by rw [he]; exact mapM_axis hi.1, hi.2.1, hi.2.2, rfl, num_eq h hc⟩

/-- A section of couplings of two modes. -/
theorem double_entry (h : f.Ok num) {pre : Str} {expand : List Nat → List Nat} {k : ModelIO.Key} {idx : List Nat}
    {c : Coupling} (ht : (k, idx, c.a, c.b, c.value.text) ∈ f.terms) (hc : c.value ∈ f.values)
    (he : expand [c.i + 1, c.j + 1] = idx.map (· + 1)) :
    ∃ js, labels [pre ++ c!"_s", c!"s", c!"_v", c!"v"] (doubleName pre (c.a + 1) (c.b + 1) (c.i + 1) (c.j + 1)) =
        some ((c.a + 1) :: (c.b + 1) :: js) ∧
      (expand js).mapM (axis f.frequencies.length) = .ok idx ∧ c.a < f.energies.length ∧ c.b < f.energies.length ∧
      c.value.text = c.value.text ∧ num c.value.text = some (numD num c.value.text) := by
  have hi := inside1 h ht
  exact ⟨[c.i + 1, c.j + 1], labels_double pre _ _ _ _, by rw [he]; exact mapM_axis hi.1, hi.2.1, hi.2.2, rfl, num_eq h hc⟩

theorem quadratic_text (h : f.Ok num) (g : Arr K) :
    quadratic num f.frequencies.length f.energies.length f.text g =
      .ok (put num ((f.diagonal ++ f.offDiagonal).map fun c => ([c.i, c.j], c.a, c.b, c.value.text)) g) := by
  have hv : ∀ c ∈ f.diagonal ++ f.offDiagonal, c.value ∈ f.values := fun c hc =>
    mem_values (by rcases List.mem_append.mp hc with hc | hc <;> simp [hc])
  have hr := section_region (sections_good h) f.after (f.sections.take 5) (f.sections.drop 7) _ _ rfl
    [c!"# -------------------------------------- "] _ rfl
  refine optional_put (n := fun c : Coupling => doubleName c!"C2" (c.a + 1) (c.b + 1) (c.i + 1) (c.j + 1))
    (v := fun c : Coupling => c.value.text) (fun c : Coupling => ([c.i, c.j], c.a, c.b, c.value.text)) _ g hr ?_ ?_
  · refine section_words2 (sp := fun c : Coupling => c.value.sp) f.diagonal f.offDiagonal
      (fun c _ => goodName_double goodName_C2 _ _ _ _) (fun c hc => good_value h (hv c hc))
      [[], c!"# Off_diagonal Quadratic Coupling Constants ", c!"# ----------------------------------------- ", []] ?_ c!"  "
      (by decide)
    intro l hl
    simp only [List.mem_cons, List.not_mem_nil, or_false] at hl
    rcases hl with rfl | rfl | rfl | rfl
    · exact ⟨plain_nil, Or.inl rfl⟩
    · exact ⟨plain_dec (by decide) (by decide +kernel) rfl, Or.inr (by decide +kernel)⟩
    · exact ⟨plain_dec (by decide) (by decide +kernel) rfl, Or.inr (by decide +kernel)⟩
    · exact ⟨plain_nil, Or.inl rfl⟩
  · intro c hc
    exact double_entry (pre := c!"C2") (k := .G2) h (by
      simp only [Op.terms, List.mem_append, List.mem_map]
      exact Or.inl (Or.inl (Or.inl (Or.inl (Or.inr ⟨c, by simpa using hc, rfl⟩))))) (hv c hc) rfl

theorem cubic_text (h : f.Ok num) (g : Arr K) :
    cubic num f.frequencies.length f.energies.length f.text g =
      .ok (put num (f.cubic.map fun c => ([c.i, c.i, c.i], c.a, c.b, c.value.text)) g) := by
  have hv : ∀ c ∈ f.cubic, c.value ∈ f.values := fun c hc => mem_values (by simp [hc])
  have hr := section_region (sections_good h) f.after (f.sections.take 6) (f.sections.drop 8) _ _ rfl
    [c!"# -------------------------- "] _ rfl
  refine optional_put (n := fun c : Coupling => singleName c!"C3" (c.a + 1) (c.b + 1) (c.i + 1))
    (v := fun c : Coupling => c.value.text) (fun c : Coupling => ([c.i, c.i, c.i], c.a, c.b, c.value.text)) _ g hr ?_ ?_
  · exact section_words (sp := fun c : Coupling => c.value.sp) f.cubic
      (fun c _ => goodName_single goodName_C3 _ _ _) (fun c hc => good_value h (hv c hc)) c!"  " (by decide)
  · intro c hc
    exact single_entry (pre := c!"C3") (k := .G3) h (by
      simp only [Op.terms, List.mem_append, List.mem_map]
      exact Or.inl (Or.inl (Or.inl (Or.inr ⟨c, hc, rfl⟩)))) (hv c hc) rfl

theorem quartic_text (h : f.Ok num) (g : Arr K) :
    quartic num f.frequencies.length f.energies.length f.text g =
      .ok (put num (f.quartic.map fun c => ([c.i, c.i, c.i, c.i], c.a, c.b, c.value.text)) g) := by
  have hv : ∀ c ∈ f.quartic, c.value ∈ f.values := fun c hc => mem_values (by simp [hc])
  have hr := section_region (sections_good h) f.after (f.sections.take 7) (f.sections.drop 9) _ _ rfl
    [c!"# -------------------------- "] _ rfl
  refine optional_put (n := fun c : Coupling => singleName c!"C4" (c.a + 1) (c.b + 1) (c.i + 1))
    (v := fun c : Coupling => c.value.text) (fun c : Coupling => ([c.i, c.i, c.i, c.i], c.a, c.b, c.value.text)) _ g hr ?_ ?_
  · exact section_words (sp := fun c : Coupling => c.value.sp) f.quartic
      (fun c _ => goodName_single goodName_C4 _ _ _) (fun c hc => good_value h (hv c hc)) c!"  " (by decide)
  · intro c hc
    exact single_entry (pre := c!"C4") (k := .G4) h (by
      simp only [Op.terms, List.mem_append, List.mem_map]
      exact Or.inl (Or.inr ⟨c, hc, rfl⟩)) (hv c hc) rfl

theorem bicubic_text (h : f.Ok num) (g : Arr K) :
    bicubic num f.frequencies.length f.energies.length f.text g =
      .ok (put num (f.bicubic.map fun c => ([c.i, c.j, c.j], c.a, c.b, c.value.text)) g) := by
  have hv : ∀ c ∈ f.bicubic, c.value ∈ f.values := fun c hc => mem_values (by simp [hc])
  have hr := section_region (sections_good h) f.after (f.sections.take 8) (f.sections.drop 10) _ _ rfl
    [c!"# -------------------------- "] _ rfl
  refine optional_put (n := fun c : Coupling => doubleName c!"B3" (c.a + 1) (c.b + 1) (c.i + 1) (c.j + 1))
    (v := fun c : Coupling => c.value.text) (fun c : Coupling => ([c.i, c.j, c.j], c.a, c.b, c.value.text)) _ g hr ?_ ?_
  · exact section_words (sp := fun c : Coupling => c.value.sp) f.bicubic
      (fun c _ => goodName_double goodName_B3 _ _ _ _) (fun c hc => good_value h (hv c hc)) c!"  " (by decide)
  · intro c hc
    exact double_entry (pre := c!"B3") (k := .G3) h (by
      simp only [Op.terms, List.mem_append, List.mem_map]
      exact Or.inl (Or.inl (Or.inr ⟨c, hc, rfl⟩))) (hv c hc) rfl

/-- The term of a coupling of the last section. -/
def term4 (p : Bool × Coupling) : List Nat × Nat × Nat × Str :=
  (if p.1 then [p.2.i, p.2.i, p.2.j, p.2.j] else [p.2.i, p.2.j, p.2.j, p.2.j], p.2.a, p.2.b, p.2.value.text)

/-- The name of a coupling of the last section. -/
def name4 (p : Bool × Coupling) : Str :=
  doubleName (if p.1 then c!"A4" else c!"B4") (p.2.a + 1) (p.2.b + 1) (p.2.i + 1) (p.2.j + 1)

theorem name4_A (p : Bool × Coupling) : startsWith c!"A4" (name4 p) = p.1 := by
  obtain ⟨b, c⟩ := p
  cases b <;> rfl

theorem name4_B (p : Bool × Coupling) : startsWith c!"B4" (name4 p) = !p.1 := by
  obtain ⟨b, c⟩ := p
  cases b <;> rfl

theorem biquartic_text (h : f.Ok num) (g : Arr K) :
    biquartic num f.frequencies.length f.energies.length f.text g =
      .ok (put num ((f.biquartic.filter fun p => !p.1).map term4 ++ (f.biquartic.filter fun p => p.1).map term4) g) := by
  have hv : ∀ p ∈ f.biquartic, p.2.value ∈ f.values := fun p hp =>
    mem_values (by simp only [List.mem_append, List.mem_map]; exact Or.inr ⟨p, hp, rfl⟩)
  have ht : ∀ p ∈ f.biquartic, (ModelIO.Key.G4, (term4 p).1, p.2.a, p.2.b, p.2.value.text) ∈ f.terms := fun p hp => by
    simp only [Op.terms, List.mem_append, List.mem_map]
    exact Or.inr ⟨p, hp, rfl⟩
  have hr := section_region (sections_good h) f.after (f.sections.take 9) (f.sections.drop 11) _ _ rfl
    [c!"# -------------------------- "] _ rfl
  have hr' : region f.text c!"Bi-Quartic Constants" c!"end-parameter-section" 2 = _ := hr
  unfold biquartic
  rw [hr']
  simp only
  have hw := section_words_last (n := name4) (v := fun p : Bool × Coupling => p.2.value.text)
    (sp := fun p : Bool × Coupling => p.2.value.sp) f.biquartic (fun p _ => goodName_double (goodName_AB4 _) _ _ _ _)
    (fun p hp => good_value h (hv p hp))
  rw [← List.append_nil (terminated _)] at hw
  have hw' : couplingLines _ = _ := hw
  erw [hw']
  have h1 := assignAll_put (num := num) (N := f.frequencies.length) (A := f.energies.length) (pre := c!"B4")
    (pieces := [c!"B4_s", c!"s", c!"_v", c!"v"]) (expand := expandB4) (n := name4)
    (v := fun p : Bool × Coupling => p.2.value.text) term4 f.biquartic g (fun p hp hs => by
      rw [name4_B] at hs
      obtain ⟨b, c⟩ := p
      cases b with
      | true => simp at hs
      | false => exact double_entry (pre := c!"B4") h (ht _ hp) (hv _ hp) rfl)
  have h2 := fun g => assignAll_put (num := num) (N := f.frequencies.length) (A := f.energies.length) (pre := c!"A4")
    (pieces := [c!"A4_s", c!"s", c!"_v", c!"v"]) (expand := expandA4) (n := name4)
    (v := fun p : Bool × Coupling => p.2.value.text) term4 f.biquartic g (fun p hp hs => by
      rw [name4_A] at hs
      obtain ⟨b, c⟩ := p
      cases b with
      | false => simp at hs
      | true => exact double_entry (pre := c!"A4") h (ht _ hp) (hv _ hp) rfl)
  simp only [name4_A, name4_B] at h1 h2
  rw [h1]
  simp only [bind, Except.bind]
  rw [h2, put_append]

end

section

/-- What is read from a file that follows the layout. -/
theorem readArrays_text [Field K] {num : Str → Option K} {f : Op} (h : f.Ok num) :
    ∃ r : Arrays K, readArrays num f.text = .ok r ∧ r.w = (f.frequencies.map fun v => numD num v.text) ∧
      r.E = (f.energies.map fun v => numD num v.text) ∧ Listed num f .G1 r.g1 ∧ Listed num f .G2 r.g2 ∧
      Listed num f .G3 r.g3 ∧ Listed num f .G4 r.g4 := by
  unfold readArrays
  rw [frequencies_text h, energies_text h]
  simp only [bind, Except.bind, List.length_map]
  rw [linear_text h, quadratic_text h, cubic_text h, quartic_text h]
  simp only
  rw [bicubic_text h, biquartic_text h]
  simp only [← put_append]
  refine ⟨_, rfl, rfl, rfl, put_listed h ?_, put_listed h ?_, put_listed h ?_, put_listed h ?_⟩
  all_goals
    intro t
    simp only [Op.terms, List.mem_append, List.mem_map, List.mem_filter]
  · simp
  · simp
  · simp
  · constructor
    · rintro (⟨c, h1, rfl⟩ | ⟨p, h1, rfl⟩ | ⟨p, h1, rfl⟩)
      · exact Or.inl (Or.inr ⟨c, h1, rfl⟩)
      · exact Or.inr ⟨p, h1.1, rfl⟩
      · exact Or.inr ⟨p, h1.1, rfl⟩
    · rintro (((((⟨c, _, h2⟩ | ⟨c, _, h2⟩) | ⟨c, _, h2⟩) | ⟨c, _, h2⟩) | ⟨c, h1, h2⟩) | ⟨p, h1, h2⟩)
      · simp at h2
      · simp at h2
      · simp at h2
      · simp at h2
      · exact Or.inl ⟨c, h1, by simpa using h2⟩
      · cases hp : p.1 with
        | false => exact Or.inr (Or.inl ⟨p, ⟨h1, by simp [hp]⟩, by simpa [term4] using h2⟩)
        | true => exact Or.inr (Or.inr ⟨p, ⟨h1, hp⟩, by simpa [term4] using h2⟩)

end

end Pibronic.OpFile
