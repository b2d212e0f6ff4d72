import Verif.Lemmas.OpAssign
import Verif.Lemmas.ModelEntries
import Mathlib.Tactic.LinearCombination
import Mathlib.Algebra.Ring.CharZero

set_option autoImplicit false
set_option linter.unusedSectionVars false

/-! Operator files: the checks and the entries of the result. -/
namespace Pibronic.OpFile
open Py Pibronic.Spec.OpFile

variable {K : Type} [Field K]

/-! ### entries of the result -/

/-- An index within a shape. -/
def Inside : List Nat → List Nat → Prop
  | [], [] => True
  | n :: s, i :: is => i < n ∧ Inside s is
  | _, _ => False

theorem at_ofIndex (s : List Nat) (f : List Nat → K) (idx : List Nat) :
    (Inside s idx → Spec.ModelIO.at_ s (ofIndex s f) idx = f idx) ∧
      (¬ Inside s idx → Spec.ModelIO.at_ s (ofIndex s f) idx = 0) := by
  induction s generalizing f idx with
  | nil => cases idx <;> simp [Inside, Spec.ModelIO.at_, ofIndex]
  | cons n s ih =>
    cases idx with
    | nil => simp [Inside, Spec.ModelIO.at_]
    | cons i is =>
      simp only [Inside, Spec.ModelIO.at_]
      by_cases hi : i < n
      · simp only [hi, true_and, dite_true, ofIndex]
        exact ih (fun is => f (i :: is)) is
      · simp [hi]

variable [DecidableEq K]

theorem at_not_nonzero (s : List Nat) (t : Tensor K s) (h : Tensor.nonzero s t = false) (idx : List Nat) :
    Spec.ModelIO.at_ s t idx = 0 := by
  induction s generalizing idx with
  | nil =>
    cases idx with
    | nil => simpa [Tensor.nonzero, Spec.ModelIO.at_] using h
    | cons => rfl
  | cons n s ih =>
    cases idx with
    | nil => rfl
    | cons i is =>
      simp only [Spec.ModelIO.at_]
      split
      · next hi =>
        refine ih _ ?_ _
        rw [Tensor.nonzero, List.any_eq_false] at h
        simpa using h ⟨i, hi⟩ (List.mem_finRange _)
      · rfl

theorem entry_toDict (r : Arrays K) (k : ModelIO.Key) (idx : List Nat) :
    (Inside (ModelIO.shape .coupled r.E.length r.w.length k) idx → Spec.ModelIO.entry r.toDict k idx = r.array k idx) ∧
      (¬ Inside (ModelIO.shape .coupled r.E.length r.w.length k) idx → Spec.ModelIO.entry r.toDict k idx = 0) := by
  unfold Spec.ModelIO.entry Arrays.toDict keepNonzero
  simp only
  split
  · next h =>
    split at h
    · cases h
    · next hn =>
      have hn' : Tensor.nonzero _ (ofIndex (ModelIO.shape .coupled r.E.length r.w.length k) (r.array k)) = false := by
        simpa using hn
      refine ⟨fun hi => ?_, fun _ => rfl⟩
      rw [← (at_ofIndex _ (r.array k) idx).1 hi, at_not_nonzero _ _ hn']
  · next a h =>
    split at h
    · cases h
      exact at_ofIndex _ (r.array k) idx
    · cases h

theorem wellFormed_toDict (r : Arrays K) (hN : r.w ≠ []) (hA : r.E ≠ []) : Spec.ModelIO.WellFormed .coupled r.toDict := by
  have hN' : r.w.length ≠ 0 := by simpa using hN
  have hA' : r.E.length ≠ 0 := by simpa using hA
  refine ⟨r.E.length, r.w.length, by simp [Arrays.toDict, hA], by simp [Arrays.toDict, hN], ?_⟩
  intro k a h
  simp only [Arrays.toDict, keepNonzero] at h
  split at h
  · cases h; cases k <;> rfl
  · cases h

theorem inside_append (N A : Nat) (idx : List Nat) (a b : Nat) (m : Nat) (h : idx.length = m) :
    Inside (List.replicate m N ++ [A, A]) (idx ++ [a, b]) ↔ (∀ i ∈ idx, i < N) ∧ a < A ∧ b < A := by
  induction m generalizing idx with
  | zero =>
    obtain rfl : idx = [] := by simpa using h
    simp [Inside]
  | succ m ih =>
    cases idx with
    | nil => simp at h
    | cons i is =>
      simp only [List.replicate_succ, List.cons_append, Inside, ih is (by simpa using h), List.mem_cons, forall_eq_or_imp]
      tauto

theorem shape_couplings (A N : Nat) {k : ModelIO.Key} (h1 : k ≠ .w) (h2 : k ≠ .E) :
    ModelIO.shape .coupled A N k = List.replicate (Spec.ModelIO.order k) N ++ [A, A] := by
  cases k <;> first | rfl | contradiction

/-- The array of a parameter. -/
def Arrays.g (r : Arrays K) : ModelIO.Key → Arr K
  | .G2 => r.g2
  | .G3 => r.g3
  | .G4 => r.g4
  | _ => r.g1

omit [DecidableEq K] in
theorem flat_append (g : Arr K) (idx : List Nat) (a b m : Nat) (h : idx.length = m) :
    g.flat m (idx ++ [a, b]) = g idx a b := by
  subst h
  simp [Arr.flat]

theorem array_couplings (r : Arrays K) {k : ModelIO.Key} (h1 : k ≠ .w) (h2 : k ≠ .E) {idx : List Nat} (a b : Nat)
    (h : idx.length = Spec.ModelIO.order k) : r.array k (idx ++ [a, b]) = r.g k idx a b := by
  cases k
  case E => contradiction
  case w => contradiction
  all_goals exact flat_append _ idx a b _ h

/-! ### the two loops -/

section
variable {num : Str → Option K} {f : Op} {g : Arr K} {k : ModelIO.Key}

theorem term_length {idx : List Nat} {a b : Nat} {s : Str} (h : (k, idx, a, b, s) ∈ f.terms) :
    k ≠ .w ∧ k ≠ .E ∧ idx.length = Spec.ModelIO.order k := by
  simp only [Op.terms, List.mem_append, List.mem_map] at h
  rcases h with ((((⟨c, _, h⟩ | ⟨c, _, h⟩) | ⟨c, _, h⟩) | ⟨c, _, h⟩) | ⟨c, _, h⟩) | ⟨⟨_ | _, c⟩, _, h⟩
  all_goals
    simp only [Prod.mk.injEq] at h
    obtain ⟨rfl, rfl, _⟩ := h
    exact ⟨by decide, by decide, rfl⟩

/-- The last two modes of a listed cubic or quartic coupling are the same. -/
theorem term_last {idx : List Nat} {a b : Nat} {s : Str} (h : (k, idx, a, b, s) ∈ f.terms) (hk : k = .G3 ∨ k = .G4) :
    ∃ p l, idx.reverse = p :: p :: l := by
  simp only [Op.terms, List.mem_append, List.mem_map] at h
  rcases h with ((((⟨c, _, h⟩ | ⟨c, _, h⟩) | ⟨c, _, h⟩) | ⟨c, _, h⟩) | ⟨c, _, h⟩) | ⟨⟨_ | _, c⟩, _, h⟩
  all_goals
    simp only [Prod.mk.injEq] at h
    obtain ⟨rfl, rfl, _⟩ := h
    first
    | (rcases hk with hk | hk <;> cases hk; done)
    | exact ⟨_, _, rfl⟩

theorem term_lower (hf : f.Ok num) {p q a b : Nat} {s : Str} (h : (ModelIO.Key.G2, [p, q], a, b, s) ∈ f.terms) : q ≤ p := by
  simp only [Op.terms, List.mem_append, List.mem_map] at h
  rcases h with ((((⟨c, _, h⟩ | ⟨c, hc, h⟩) | ⟨c, _, h⟩) | ⟨c, _, h⟩) | ⟨c, _, h⟩) | ⟨⟨_ | _, c⟩, _, h⟩
  all_goals
    simp only [Prod.mk.injEq, reduceCtorEq, false_and] at h
  simp only [List.cons.injEq, true_and, and_true] at h
  have := hf.lower c (by simpa using hc)
  omega

theorem order_two (h1 : k ≠ .w) (h2 : k ≠ .E) (h3 : k ≠ .G1) : k = .G2 ∨ k = .G3 ∨ k = .G4 := by
  cases k <;> simp_all

theorem whole_zero (hg : Listed num f k g) (h1 : k ≠ .w) (h2 : k ≠ .E) (h3 : k ≠ .G1) {i : List Nat} {a b : Nat}
    (h : ∀ s, (k, i, a, b, s) ∉ f.terms) (h' : k = .G2 → ∀ s, (k, i.reverse, a, b, s) ∉ f.terms) :
    whole g a b i = 0 := by
  unfold whole
  rw [hg.rest i a b h, zero_add]
  unfold mirror
  split
  · next p q is =>
    split
    · next hpq =>
      refine hg.rest _ _ _ fun s hs => ?_
      rcases order_two h1 h2 h3 with hk | hk
      · exact h' hk s hs
      · obtain ⟨p', l, hl⟩ := term_last hs hk
        rw [List.reverse_reverse] at hl
        simp only [List.cons.injEq] at hl
        omega
    · rfl
  · rfl

theorem whole_value (hf : f.Ok num) (hg : Listed num f k g) (h3 : k ≠ .G1) {i i' : List Nat} {a b : Nat} {s : Str}
    (h : (k, i', a, b, s) ∈ f.terms) (h' : i' = i ∨ k = .G2 ∧ i' = i.reverse) : whole g a b i = numD num s := by
  obtain ⟨h1, h2, hlen⟩ := term_length h
  have direct : ∀ {i'}, (k, i', a, b, s) ∈ f.terms → whole g a b i' = numD num s := by
    intro i' h
    unfold whole
    rw [hg.mem _ _ _ _ h]
    suffices mirror (fun i => g i a b) i' = 0 by rw [this, add_zero]
    unfold mirror
    split
    · next p q is =>
      split
      · next hpq =>
        refine hg.rest _ _ _ fun s' hs' => ?_
        rcases order_two h1 h2 h3 with rfl | hk
        · obtain ⟨_, _, hl⟩ := term_length h
          obtain rfl : is = [] := by simpa [Spec.ModelIO.order] using hl
          have := term_lower hf h
          omega
        · obtain ⟨p', l, hl⟩ := term_last hs' hk
          rw [List.reverse_reverse] at hl
          simp only [List.cons.injEq] at hl
          omega
      · rfl
    · rfl
  rcases h' with rfl | ⟨rfl, rfl⟩
  · exact direct h
  · rw [List.length_reverse] at hlen
    obtain ⟨p, q, rfl⟩ : ∃ p q, i = [p, q] := by
      match i, hlen with
      | [p, q], _ => exact ⟨p, q, rfl⟩
    have h' : (ModelIO.Key.G2, [q, p], a, b, s) ∈ f.terms := h
    have hl := term_lower hf h'
    rcases Nat.lt_or_eq_of_le hl with hpq | rfl
    · unfold whole
      rw [hg.rest _ _ _ fun s' hs' => absurd (term_lower hf hs') (by omega)]
      simp only [mirror, hpq, if_true, zero_add]
      exact hg.mem _ _ _ _ h
    · exact direct h'

/-- There is nothing below the diagonal of the surfaces. -/
theorem below (hf : f.Ok num) (hg : Listed num f k g) {a b : Nat} (h : b < a) (i : List Nat) : g i a b = 0 :=
  hg.rest _ _ _ fun s hs => by have := (hf.inside _ hs).2.1; simp only at this; omega

theorem whole_below (hf : f.Ok num) (hg : Listed num f k g) {a b : Nat} (h : b < a) (i : List Nat) : whole g a b i = 0 := by
  unfold whole
  have : (fun i => g i a b) = fun _ => (0 : K) := funext fun i => below hf hg h i
  rw [below hf hg h, this, zero_add]
  unfold mirror
  split <;> simp

theorem whole_swap2 (hf : f.Ok num) (hg : Listed num f .G2 g) (a b : Nat) (p q : Nat) :
    whole g a b [p, q] = whole g a b [q, p] := by
  by_cases h : ∃ s, (ModelIO.Key.G2, [p, q], a, b, s) ∈ f.terms ∨ (ModelIO.Key.G2, [q, p], a, b, s) ∈ f.terms
  · obtain ⟨s, h | h⟩ := h
    · rw [whole_value hf hg (by decide) h (Or.inl rfl), whole_value hf hg (by decide) h (Or.inr ⟨rfl, rfl⟩)]
    · rw [whole_value hf hg (by decide) h (Or.inl rfl), whole_value hf hg (by decide) h (Or.inr ⟨rfl, rfl⟩)]
  · push Not at h
    rw [whole_zero hg (by decide) (by decide) (by decide) (fun s => (h s).1) (fun _ s => (h s).2),
      whole_zero hg (by decide) (by decide) (by decide) (fun s => (h s).2) (fun _ s => (h s).1)]

/-! The array after the loops. -/

theorem fixed_diag (g : Arr K) {A a : Nat} (ha : a + 1 < A) (i : List Nat) :
    fixHigher A g i a a = 2 * whole g a a i := by
  rw [fixHigher_apply, if_neg (by omega), sym_diag g (by omega)]
  ring

variable [CharZero K]

theorem fixed_last (g : Arr K) {A : Nat} (hA : 0 < A) (i : List Nat) :
    fixHigher A g i (A - 1) (A - 1) = whole g (A - 1) (A - 1) i := by
  rw [fixHigher_apply, if_pos ⟨by omega, rfl⟩, sym_diag g (by omega), ← two_mul, mul_div_cancel_left₀ _ two_ne_zero]

theorem fixed_upper (hf : f.Ok num) (hg : Listed num f k g) {A a b : Nat} (hab : a < b) (hb : b + 1 < A) (i : List Nat) :
    fixHigher A g i a b = whole g a b i := by
  rw [fixHigher_apply, if_neg (by omega), sym_lt g hab (by omega), below hf hg hab, add_zero]

theorem fixed_lower (hf : f.Ok num) (hg : Listed num f k g) {A a b : Nat} (hab : a < b) (hb : b < A) (i : List Nat) :
    fixHigher A g i b a = whole g a b i := by
  rw [fixHigher_apply, if_neg (by omega), sym_gt g hab hb, whole_below hf hg hab, below hf hg hab, add_zero, zero_add]

theorem fixed_column (hf : f.Ok num) (hg : Listed num f k g) {A a : Nat} (hab : a + 1 < A) (i : List Nat) :
    fixHigher A g i a (A - 1) = whole g a (A - 1) i / 2 := by
  rw [fixHigher_apply, if_pos ⟨by omega, rfl⟩, sym_lt g (by omega) (by omega), below hf hg (by omega), add_zero]

/-- Every coupling of the last surface to another one is close to its half and the half to it. -/
def NearColumn [AllClose K] (A : Nat) (g : Arr K) (N r : Nat) : Prop :=
  ∀ i ∈ modeTuples N r, ∀ a, a + 1 < A →
    Close (whole g a (A - 1) i / 2) (whole g a (A - 1) i) ∧ Close (whole g a (A - 1) i) (whole g a (A - 1) i / 2)

theorem surfacesOk_iff [AllClose K] (hf : f.Ok num) (hg : Listed num f k g) (N A r : Nat) :
    SurfacesOk N A r (fixHigher A g) ↔ NearColumn A g N r := by
  constructor
  · intro h i hi a ha
    have h1 := h i hi a (by simp; omega) (A - 1) (by simp; omega)
    have h2 := h i hi (A - 1) (by simp; omega) a (by simp; omega)
    rw [fixed_column hf hg ha, fixed_lower hf hg (by omega) (by omega)] at h1 h2
    exact ⟨h1, h2⟩
  · intro h i hi
    have key : ∀ a b, a < b → b < A → Close (fixHigher A g i a b) (fixHigher A g i b a) ∧
        Close (fixHigher A g i b a) (fixHigher A g i a b) := by
      intro a b hab hb
      rw [fixed_lower hf hg hab hb]
      rcases Nat.lt_or_eq_of_le (Nat.succ_le_of_lt hb) with h' | h'
      · rw [fixed_upper hf hg hab h']
        exact ⟨AllClose.refl _, AllClose.refl _⟩
      · obtain rfl : b = A - 1 := by omega
        rw [fixed_column hf hg (by omega)]
        exact h i hi a (by omega)
    intro a ha b hb
    rw [List.mem_range] at ha hb
    rcases Nat.lt_trichotomy a b with hab | rfl | hab
    · exact (key a b hab hb).1
    · exact AllClose.refl _
    · exact (key b a hab ha).2

theorem close_of_eq [AllClose K] {x y : K} (h : x = y) : Close x y := h ▸ AllClose.refl _

theorem fixed_same (hf : f.Ok num) (hg : Listed num f k g) {A a b : Nat} (ha : a < A) (hb : b < A) (i j : List Nat)
    (h : ∀ a b, whole g a b i = whole g a b j) : fixHigher A g i a b = fixHigher A g j a b := by
  rcases Nat.lt_trichotomy a b with hab | rfl | hab
  · rcases Nat.lt_or_eq_of_le (Nat.succ_le_of_lt hb) with h' | h'
    · rw [fixed_upper hf hg hab h', fixed_upper hf hg hab h', h]
    · obtain rfl : b = A - 1 := by omega
      rw [fixed_column hf hg (by omega), fixed_column hf hg (by omega), h]
  · rcases Nat.lt_or_eq_of_le (Nat.succ_le_of_lt ha) with h' | h'
    · rw [fixed_diag g h', fixed_diag g h', h]
    · obtain rfl : a = A - 1 := by omega
      rw [fixed_last g (by omega), fixed_last g (by omega), h]
  · rw [fixed_lower hf hg hab ha, fixed_lower hf hg hab ha, h]

theorem modesOk2 [AllClose K] (hf : f.Ok num) (hg : Listed num f .G2 g) (N A : Nat) : ModesOk N A 2 swap2 (fixHigher A g) := by
  intro i hi a ha b hb
  rw [List.mem_range] at ha hb
  obtain ⟨hl, _⟩ := mem_modeTuples.mp hi
  match i, hl with
  | [p, q], _ => exact close_of_eq <| fixed_same hf hg ha hb _ _ fun a b => whole_swap2 hf hg a b p q

theorem whole_unequal (hg : Listed num f k g) (hk : k = .G3 ∨ k = .G4) {i : List Nat} {p q : Nat} {l : List Nat}
    (h : i.reverse = p :: q :: l) (hpq : p ≠ q) (a b : Nat) : whole g a b i = 0 := by
  have h1 : k ≠ .w ∧ k ≠ .E ∧ k ≠ .G1 ∧ k ≠ .G2 := by rcases hk with rfl | rfl <;> decide
  refine whole_zero hg h1.1 h1.2.1 h1.2.2.1 (fun s hs => ?_) (fun h => absurd h h1.2.2.2)
  obtain ⟨p', l', hl⟩ := term_last hs hk
  rw [h] at hl
  simp only [List.cons.injEq] at hl
  omega

theorem modesOk3 [AllClose K] (hf : f.Ok num) (hg : Listed num f .G3 g) (N A : Nat) : ModesOk N A 3 swap3 (fixHigher A g) := by
  intro i hi a ha b hb
  rw [List.mem_range] at ha hb
  obtain ⟨hl, _⟩ := mem_modeTuples.mp hi
  match i, hl with
  | [p, q, r], _ =>
    refine close_of_eq <| fixed_same hf hg ha hb _ _ fun a b => ?_
    by_cases h : q = r
    · rw [h]; rfl
    · rw [whole_unequal hg (Or.inl rfl) (i := [p, q, r]) rfl (Ne.symm h),
        whole_unequal hg (Or.inl rfl) (i := swap3 [p, q, r]) rfl h]

theorem modesOk4 [AllClose K] (hf : f.Ok num) (hg : Listed num f .G4 g) (N A : Nat) : ModesOk N A 4 swap4 (fixHigher A g) := by
  intro i hi a ha b hb
  rw [List.mem_range] at ha hb
  obtain ⟨hl, _⟩ := mem_modeTuples.mp hi
  match i, hl with
  | [p, q, r, t], _ =>
    refine close_of_eq <| fixed_same hf hg ha hb _ _ fun a b => ?_
    by_cases h : r = t
    · rw [h]; rfl
    · rw [whole_unequal hg (Or.inr rfl) (i := [p, q, r, t]) rfl (Ne.symm h),
        whole_unequal hg (Or.inr rfl) (i := swap4 [p, q, r, t]) rfl h]

theorem fixLinear_symm (A : Nat) (g : Arr K) (i : List Nat) {a b : Nat} (ha : a < A) (hb : b < A) :
    fixLinear A g i a b = fixLinear A g i b a := by
  rw [fixLinear_apply, fixLinear_apply]
  by_cases h : b = a
  · subst h; rfl
  · rw [if_neg (by tauto), if_neg (by omega), add_comm]

theorem surfacesOk1 [AllClose K] (N A : Nat) (g : Arr K) : SurfacesOk N A 1 (fixLinear A g) :=
  fun i _ _ ha _ hb => close_of_eq (fixLinear_symm A g i (List.mem_range.mp ha) (List.mem_range.mp hb))

end

end Pibronic.OpFile
