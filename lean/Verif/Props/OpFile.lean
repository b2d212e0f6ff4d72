import Verif.Lemmas.OpFinish
import Verif.Props.ModelFiles
import Mathlib.Tactic.IntervalCases
import Mathlib.Data.List.TakeWhile

set_option autoImplicit false
set_option linter.unusedSectionVars false

/-!
Theorems about operator files of MCTDH (C12).
-/
namespace Pibronic.Props.OpFile
open Py Buffer Pibronic.OpFile Pibronic.Spec.OpFile Spec.ModelIO

variable {K : Type} [Field K] [LinearOrder K] [IsStrictOrderedRing K]

/-! ### helpers -/

private theorem numD_eq {num : Str → Option K} {s : Str} {x : K} (h : num s = some x) : numD num s = x := by
  simp [numD, h]

private theorem mem_values_terms {f : Op} {k : ModelIO.Key} {idx : List Nat} {a b : Nat} {s : Str}
    (h : (k, idx, a, b, s) ∈ f.terms) : ∃ v ∈ f.values, v.text = s := by
  simp only [Op.terms, List.mem_append, List.mem_map] at h
  rcases h with ((((⟨c, hc, h⟩ | ⟨c, hc, h⟩) | ⟨c, hc, h⟩) | ⟨c, hc, h⟩) | ⟨c, hc, h⟩) | ⟨c, hc, h⟩
  case inr =>
    simp only [Prod.mk.injEq] at h
    exact ⟨c.2.value, mem_values (by simp only [List.mem_append, List.mem_map]; exact Or.inr ⟨c, hc, rfl⟩), h.2.2.2.2⟩
  case inl.inl.inl.inl.inr =>
    simp only [Prod.mk.injEq] at h
    exact ⟨c.value, mem_values (by rcases hc with hc | hc <;> simp [hc]), h.2.2.2.2⟩
  all_goals
    simp only [Prod.mk.injEq] at h
    exact ⟨c.value, mem_values (by simp [hc]), h.2.2.2.2⟩

/-- A number passes for its half in numpy's comparisons exactly when it is tiny. -/
private theorem half_close (x : K) : Close (x / 2) x ∧ Close x (x / 2) ↔ |x| ≤ 2 / (10 ^ 8 - 10 ^ 3) := by
  rw [close_iff, close_iff, show x / 2 - x = -(x / 2) by ring, show x - x / 2 = x / 2 by ring, abs_neg, abs_div,
    abs_two, le_div_iff₀ (by norm_num)]
  have := abs_nonneg x
  constructor
  · rintro ⟨_, h⟩
    linarith
  · intro h
    constructor <;> linarith

/-- The outcome of the checks: the file is rejected exactly when a coupling of second or higher order
between the last surface and another one is not tiny. -/
private theorem noColumn_iff {num : Str → Option K} {f : Op} (hf : f.Ok num) {k : ModelIO.Key} {g : Arr K}
    (hg : Listed num f k g) (h1 : k ≠ .w) (h2 : k ≠ .E) (h3 : k ≠ .G1) :
    NearColumn f.energies.length g f.frequencies.length (order k) ↔
      ∀ idx a b s, (k, idx, a, b, s) ∈ f.terms → a < b → b + 1 = f.energies.length →
        |numD num s| ≤ 2 / (10 ^ 8 - 10 ^ 3) := by
  constructor
  · intro h idx a b s ht hab hb
    obtain ⟨_, _, hl⟩ := term_length ht
    have hi := hf.inside _ ht
    have := h idx (mem_modeTuples.mpr ⟨hl, hi.1⟩) a (by omega)
    obtain rfl : b = f.energies.length - 1 := by omega
    rwa [whole_value hf hg h3 ht (Or.inl rfl), half_close] at this
  · intro h i _ a ha
    rw [half_close]
    by_cases hs : ∃ s i', (k, i', a, f.energies.length - 1, s) ∈ f.terms ∧ (i' = i ∨ k = .G2 ∧ i' = i.reverse)
    · obtain ⟨s, i', ht, hi⟩ := hs
      rw [whole_value hf hg h3 ht hi]
      exact h _ _ _ _ ht (by omega) (by omega)
    · push Not at hs
      rw [whole_zero hg h1 h2 h3 (fun s ht => (hs s i ht).1 rfl) (fun hk s ht => (hs s _ ht).2 hk rfl), abs_zero]
      norm_num

private theorem read_eq {num : Str → Option K} {f : Op} {r : Arrays K} (hr : readArrays num f.text = .ok r)
    (hne : f.text ≠ []) : readOp num (some f.text) = finish r := by
  unfold readOp
  split
  · next h => cases h
  · next h => injection h with h; exact absurd h hne
  · next buf _ h =>
    injection h with h
    subst h
    rw [hr]; rfl

private theorem text_ne (f : Op) : f.text ≠ [] := by
  intro h
  unfold Op.text at h
  rw [terminated_append] at h
  simp only [List.append_eq_nil_iff] at h
  have h2 := h.1.2
  rw [show f.sections.flatMap Section.lines = _ :: _ from rfl, terminated_cons] at h2
  exact absurd (List.append_eq_nil_iff.mp h2).2 (List.cons_ne_nil _ _)

/-! ### C12 -/

/-- C12, what really happens: a file in which every coupling of second or higher order between the last
surface and another one is zero or too small for numpy's comparisons is read; energies, frequencies and
linear couplings are those of the file, every coupling is at all its positions and everything else is
zero, but the couplings of second or higher order of one surface, other than the last one, are doubled,
and those of the last surface with another one are halved in the upper triangle. -/
theorem C12_outcome_partial (num : Str → Option K) (f : Op) (hf : f.Ok num)
    (h : ∀ k idx a b s x, (k, idx, a, b, s) ∈ f.terms → k ≠ .G1 → a < b → b + 1 = f.energies.length →
      num s = some x → |x| ≤ 2 / (10 ^ 8 - 10 ^ 3)) :
    ∃ d, readOp num (some f.text) = .ok d ∧
      f.ReadAs num (fun k a b => if k ≠ .G1 ∧ a = b ∧ a + 1 < f.energies.length then 2
        else if k ≠ .G1 ∧ a < b ∧ b + 1 = f.energies.length then 1 / 2 else 1) d := by
  obtain ⟨r, hr, hw, hE, h1, h2, h3, h4⟩ := readArrays_text hf
  have hN : r.w.length = f.frequencies.length := by simp [hw]
  have hA : r.E.length = f.energies.length := by simp [hE]
  have col : ∀ {k : ModelIO.Key} {g : Arr K}, Listed num f k g → k ≠ .w → k ≠ .E → k ≠ .G1 →
      NearColumn f.energies.length g f.frequencies.length (order k) := fun hg a b c =>
    (noColumn_iff hf hg a b c).mpr fun idx a b s ht hab hb => by
      obtain ⟨v, hv, rfl⟩ := mem_values_terms ht
      cases hy : num v.text with
      | none => exact absurd hy (hf.numbers v hv).2.2
      | some y => rw [numD_eq hy]; exact h _ idx a b _ y ht c hab hb hy
  have hfin : finish r = .ok (Arrays.toDict { r with
      g1 := fixLinear f.energies.length r.g1, g2 := fixHigher f.energies.length r.g2
      g3 := fixHigher f.energies.length r.g3, g4 := fixHigher f.energies.length r.g4 }) := by
    unfold finish
    rw [if_pos]
    · rw [hA]
    · rw [hN, hA]
      exact ⟨surfacesOk1 _ _ _,
        (surfacesOk_iff hf h2 _ _ _).mpr (col h2 (by decide) (by decide) (by decide)),
        (surfacesOk_iff hf h3 _ _ _).mpr (col h3 (by decide) (by decide) (by decide)),
        (surfacesOk_iff hf h4 _ _ _).mpr (col h4 (by decide) (by decide) (by decide)),
        modesOk2 hf h2 _ _, modesOk3 hf h3 _ _, modesOk4 hf h4 _ _⟩
  refine ⟨_, (read_eq hr (text_ne f)).trans hfin, ?_⟩
  generalize hr' : ({ r with
      g1 := fixLinear f.energies.length r.g1, g2 := fixHigher f.energies.length r.g2
      g3 := fixHigher f.energies.length r.g3, g4 := fixHigher f.energies.length r.g4 } : Arrays K) = r'
  have hw' : r'.w = r.w := by rw [← hr']
  have hE' : r'.E = r.E := by rw [← hr']
  have hN' : r'.w.length = f.frequencies.length := by rw [hw', hN]
  have hA' : r'.E.length = f.energies.length := by rw [hE', hA]
  have hNne : f.frequencies.length ≠ 0 := by simpa using hf.modes
  have hAne : f.energies.length ≠ 0 := by simpa using hf.surfaces
  -- the entries of the couplings
  have ent : ∀ k idx a b, k ≠ .w → k ≠ .E → idx.length = order k →
      (((∀ i ∈ idx, i < f.frequencies.length) ∧ a < f.energies.length ∧ b < f.energies.length) →
        entry r'.toDict k (idx ++ [a, b]) = r'.g k idx a b) ∧
      (¬ ((∀ i ∈ idx, i < f.frequencies.length) ∧ a < f.energies.length ∧ b < f.energies.length) →
        entry r'.toDict k (idx ++ [a, b]) = 0) := by
    intro k idx a b hk1 hk2 hl
    have e := entry_toDict r' k (idx ++ [a, b])
    rw [hN', hA', shape_couplings _ _ hk1 hk2, inside_append _ _ _ _ _ _ hl, array_couplings r' hk1 hk2 a b hl] at e
    exact e
  -- linear couplings
  have lin : ∀ idx a b, a < f.energies.length → r'.g .G1 idx a b =
      if b = a then (r.g1 idx a b + r.g1 idx b a) / 2 else r.g1 idx a b + r.g1 idx b a := by
    intro idx a b ha
    rw [← hr']
    change fixLinear _ r.g1 idx a b = _
    rw [fixLinear_apply]
    simp [ha]
  -- the other couplings
  have hig : ∀ k, k ≠ .w → k ≠ .E → k ≠ .G1 →
      ∃ g, Listed num f k g ∧ r'.g k = fixHigher f.energies.length g := by
    intro k hk1 hk2 hk3
    rcases order_two hk1 hk2 hk3 with rfl | rfl | rfl
    · exact ⟨r.g2, h2, by rw [← hr']; rfl⟩
    · exact ⟨r.g3, h3, by rw [← hr']; rfl⟩
    · exact ⟨r.g4, h4, by rw [← hr']; rfl⟩
  constructor
  · simp [Arrays.toDict, hN', hf.modes]
  · simp [Arrays.toDict, hA', hf.surfaces]
  · intro i v x hv hx
    have hi : i < f.frequencies.length := by
      by_contra hi
      rw [List.getElem?_eq_none (by omega)] at hv
      cases hv
    rw [(entry_toDict r' .w [i]).1 (by rw [hN']; exact ⟨hi, trivial⟩)]
    change r'.w.getD i 0 = x
    rw [hw', hw, List.getD_eq_getElem?_getD, List.getElem?_map, hv]
    exact numD_eq hx
  · intro a v x hv hx
    have hi : a < f.energies.length := by
      by_contra hi
      rw [List.getElem?_eq_none (by omega)] at hv
      cases hv
    rw [(entry_toDict r' .E [a, a]).1 (by rw [hA']; exact ⟨hi, hi, trivial⟩)]
    change (if a = a then r'.E.getD a 0 else 0) = x
    rw [if_pos rfl, hE', hE, List.getD_eq_getElem?_getD, List.getElem?_map, hv]
    exact numD_eq hx
  · intro a b hab
    by_cases hi : Inside (ModelIO.shape .coupled r'.E.length r'.w.length .E) [a, b]
    · rw [(entry_toDict r' .E [a, b]).1 hi]
      simp [Arrays.array, hab]
    · exact (entry_toDict r' .E [a, b]).2 hi
  · rintro k idx a b s x ⟨idx', a', b', ht, hidx, hab⟩ hx
    obtain ⟨hk1, hk2, hl⟩ := term_length ht
    have hin := hf.inside _ ht
    simp only at hin
    have hl' : idx.length = order k := by
      rcases hidx with rfl | ⟨_, rfl⟩
      · exact hl
      · simpa using hl
    have hi' : ∀ i ∈ idx, i < f.frequencies.length := by
      intro i hi
      rcases hidx with rfl | ⟨_, rfl⟩
      · exact hin.1 i hi
      · exact hin.1 i (by simpa using hi)
    rw [(ent k idx a b hk1 hk2 hl').1 ⟨hi', by omega, by omega⟩]
    by_cases hk3 : k = .G1
    · subst hk3
      have hidx : idx' = idx := by simpa using hidx
      subst hidx
      rw [lin _ _ _ (by omega)]
      simp only [ne_eq, not_true, false_and, if_false, one_mul]
      rw [← numD_eq hx]
      rcases hab with ⟨rfl, rfl⟩ | ⟨rfl, rfl⟩
      · split
        · next e => subst e; rw [h1.mem _ _ _ _ ht, ← two_mul, mul_div_cancel_left₀ _ two_ne_zero]
        · rw [h1.mem _ _ _ _ ht, below hf h1 (by omega), add_zero]
      · split
        · next e => subst e; rw [h1.mem _ _ _ _ ht, ← two_mul, mul_div_cancel_left₀ _ two_ne_zero]
        · rw [h1.mem _ _ _ _ ht, below hf h1 (by omega), zero_add]
    · obtain ⟨g, hg, hge⟩ := hig k hk1 hk2 hk3
      rw [hge]
      have hwv := whole_value hf hg hk3 ht hidx
      rw [numD_eq hx] at hwv
      rcases Nat.lt_or_eq_of_le hin.2.1 with hlt | heq
      · rw [if_neg (by omega)]
        rcases hab with ⟨rfl, rfl⟩ | ⟨rfl, rfl⟩
        · by_cases hb : b' + 1 = f.energies.length
          · rw [if_pos ⟨hk3, hlt, hb⟩]
            obtain rfl : b' = f.energies.length - 1 := by omega
            rw [fixed_column hf hg (by omega), hwv]
            ring
          · rw [if_neg (by omega), one_mul, fixed_upper hf hg hlt (by omega), hwv]
        · rw [if_neg (by omega), one_mul, fixed_lower hf hg hlt hin.2.2, hwv]
      · subst heq
        obtain ⟨e1, e2⟩ : a' = a ∧ b = a := by omega
        subst e1 e2
        by_cases hb : b + 1 < f.energies.length
        · rw [if_pos ⟨hk3, rfl, hb⟩, fixed_diag g hb, hwv]
        · obtain rfl : b = f.energies.length - 1 := by omega
          rw [if_neg (by omega), if_neg (by omega), one_mul, fixed_last g (by omega), hwv]
  · intro k idx a b hk1 hk2 hl hno
    by_cases hi : (∀ i ∈ idx, i < f.frequencies.length) ∧ a < f.energies.length ∧ b < f.energies.length
    swap
    · exact (ent k idx a b hk1 hk2 hl).2 hi
    rw [(ent k idx a b hk1 hk2 hl).1 hi]
    have no1 : ∀ s, (k, idx, a, b, s) ∉ f.terms := fun s hs => hno s ⟨idx, a, b, hs, Or.inl rfl, Or.inl ⟨rfl, rfl⟩⟩
    have no2 : ∀ s, (k, idx, b, a, s) ∉ f.terms := fun s hs => hno s ⟨idx, b, a, hs, Or.inl rfl, Or.inr ⟨rfl, rfl⟩⟩
    by_cases hk3 : k = .G1
    · subst hk3
      rw [lin _ _ _ hi.2.1, h1.rest _ _ _ no1, h1.rest _ _ _ no2]
      simp
    · obtain ⟨g, hg, hge⟩ := hig k hk1 hk2 hk3
      rw [hge]
      have no3 : k = .G2 → ∀ s, (k, idx.reverse, a, b, s) ∉ f.terms := fun hk s hs =>
        hno s ⟨_, a, b, hs, Or.inr ⟨hk, rfl⟩, Or.inl ⟨rfl, rfl⟩⟩
      have no4 : k = .G2 → ∀ s, (k, idx.reverse, b, a, s) ∉ f.terms := fun hk s hs =>
        hno s ⟨_, b, a, hs, Or.inr ⟨hk, rfl⟩, Or.inr ⟨rfl, rfl⟩⟩
      have z1 : whole g a b idx = 0 := whole_zero hg hk1 hk2 hk3 no1 no3
      have z2 : whole g b a idx = 0 := whole_zero hg hk1 hk2 hk3 no2 no4
      rcases Nat.lt_trichotomy a b with hab | rfl | hab
      · by_cases hb : b + 1 < f.energies.length
        · rw [fixed_upper hf hg hab hb, z1]
        · obtain rfl : b = f.energies.length - 1 := by omega
          rw [fixed_column hf hg (by omega), z1, zero_div]
      · by_cases hb : a + 1 < f.energies.length
        · rw [fixed_diag g hb, z1, mul_zero]
        · obtain rfl : a = f.energies.length - 1 := by omega
          rw [fixed_last g (by omega), z1]
      · rw [fixed_lower hf hg hab hi.2.1, z2]

/-- C12, partial: a file in which no coupling of second or higher order couples the last surface to another
one or belongs to a single surface other than the last one is read faithfully.  Missing: all other files,
see the two refutations. -/
theorem C12_faithful_partial (num : Str → Option K) (f : Op) (hf : f.Ok num)
    (h : ∀ k idx a b s, (k, idx, a, b, s) ∈ f.terms → k ≠ .G1 →
      a < b ∧ b + 1 < f.energies.length ∨ a = b ∧ b + 1 = f.energies.length) :
    ∃ d, readOp num (some f.text) = .ok d ∧ f.Faithful num d := by
  obtain ⟨d, hd, hr⟩ := C12_outcome_partial num f hf fun k idx a b s x ht hk hab hb => by
    have := h k idx a b s ht hk
    omega
  refine ⟨d, hd, { hr with listed := ?_ }⟩
  rintro k idx a b s x ⟨idx', a', b', ht, hidx, hab⟩ hx
  rw [hr.listed k idx a b s x ⟨idx', a', b', ht, hidx, hab⟩ hx]
  by_cases hk : k = .G1
  · simp [hk]
  · have := h k idx' a' b' s ht hk
    rw [if_neg (by omega), if_neg (by omega)]

/-- C12: a file with only energies, frequencies and linear couplings is read faithfully, for any number of
surfaces. -/
theorem C12_linear (num : Str → Option K) (f : Op) (hf : f.Ok num)
    (h : f.diagonal = [] ∧ f.offDiagonal = [] ∧ f.cubic = [] ∧ f.quartic = [] ∧ f.bicubic = [] ∧ f.biquartic = []) :
    ∃ d, readOp num (some f.text) = .ok d ∧ f.Faithful num d := by
  refine C12_faithful_partial num f hf fun k idx a b s ht hk => ?_
  simp only [Op.terms, h.1, h.2.1, h.2.2.1, h.2.2.2.1, h.2.2.2.2.1, h.2.2.2.2.2, List.append_nil, List.map_nil, List.mem_map,
    Prod.mk.injEq] at ht
  obtain ⟨c, _, rfl, _⟩ := ht
  exact absurd rfl hk

/-- C12: a file with one surface is read faithfully, with couplings of any order. -/
theorem C12_one_surface (num : Str → Option K) (f : Op) (hf : f.Ok num) (h : f.energies.length = 1) :
    ∃ d, readOp num (some f.text) = .ok d ∧ f.Faithful num d := by
  refine C12_faithful_partial num f hf fun k idx a b s ht _ => ?_
  have := (hf.inside _ ht).2
  simp only at this
  omega

/-- C12: every dictionary that is read follows the conventions of the model files, unless there are no modes or no
surfaces. -/
theorem C12_wellFormed (num : Str → Option K) (file : Option Str) {d : ModelIO.Dict K} (h : readOp num file = .ok d)
    (hN : d.N ≠ none) (hA : d.A ≠ none) : WellFormed .coupled d := by
  unfold readOp at h
  split at h
  · cases h
  · cases h
  · next buf _ =>
    cases hr : readArrays num buf with
    | error e => rw [hr] at h; cases h
    | ok r =>
      rw [hr] at h
      change finish r = _ at h
      unfold finish at h
      simp only at h
      split at h
      · cases h
        refine wellFormed_toDict _ ?_ ?_
        · rintro e
          simp only at e
          exact hN (by simp [Arrays.toDict, e])
        · rintro e
          simp only at e
          exact hA (by simp [Arrays.toDict, e])
      · cases h

/-- C12: whatever the file contains, the linear couplings of a dictionary that is read are symmetric in the surfaces;
those of higher order are symmetric in the surfaces and in the last two modes, to numpy's precision. -/
theorem C12_symmetric (num : Str → Option K) (file : Option Str) {d : ModelIO.Dict K} (h : readOp num file = .ok d) :
    (∀ i a b, entry d .G1 [i, a, b] = entry d .G1 [i, b, a]) ∧
    (∀ i j a b, Near (entry d .G2 [i, j, a, b]) (entry d .G2 [i, j, b, a]) ∧
      Near (entry d .G2 [i, j, a, b]) (entry d .G2 [j, i, a, b])) ∧
    (∀ i j k a b, Near (entry d .G3 [i, j, k, a, b]) (entry d .G3 [i, j, k, b, a]) ∧
      Near (entry d .G3 [i, j, k, a, b]) (entry d .G3 [i, k, j, a, b])) ∧
    (∀ i j k l a b, Near (entry d .G4 [i, j, k, l, a, b]) (entry d .G4 [i, j, k, l, b, a]) ∧
      Near (entry d .G4 [i, j, k, l, a, b]) (entry d .G4 [i, j, l, k, a, b])) := by
  unfold readOp at h
  split at h
  · cases h
  · cases h
  · next buf _ =>
    cases hr : readArrays num buf with
    | error e => rw [hr] at h; cases h
    | ok r =>
      rw [hr] at h
      change finish r = _ at h
      unfold finish at h
      simp only at h
      split at h
      · next hok =>
        obtain ⟨s1, s2, s3, s4, m2, m3, m4⟩ := hok
        cases h
        have key' : ∀ (k : ModelIO.Key) (x y : List Nat) (r' : Arrays K),
            (Inside (ModelIO.shape .coupled r'.E.length r'.w.length k) x ↔
              Inside (ModelIO.shape .coupled r'.E.length r'.w.length k) y) →
            (Inside (ModelIO.shape .coupled r'.E.length r'.w.length k) x → r'.array k x = r'.array k y) →
            entry r'.toDict k x = entry r'.toDict k y := by
          intro k x y r' hxy he
          by_cases hx : Inside (ModelIO.shape .coupled r'.E.length r'.w.length k) x
          · rw [(entry_toDict r' k x).1 hx, (entry_toDict r' k y).1 (hxy.1 hx), he hx]
          · rw [(entry_toDict r' k x).2 hx, (entry_toDict r' k y).2 (fun hy => hx (hxy.2 hy))]
        have key : ∀ (k : ModelIO.Key) (x y : List Nat) (r' : Arrays K),
            (Inside (ModelIO.shape .coupled r'.E.length r'.w.length k) x ↔
              Inside (ModelIO.shape .coupled r'.E.length r'.w.length k) y) →
            (Inside (ModelIO.shape .coupled r'.E.length r'.w.length k) x → Close (r'.array k x) (r'.array k y)) →
            Near (entry r'.toDict k x) (entry r'.toDict k y) := by
          intro k x y r' hxy he
          refine (close_iff _ _).mp ?_
          by_cases hx : Inside (ModelIO.shape .coupled r'.E.length r'.w.length k) x
          · rw [(entry_toDict r' k x).1 hx, (entry_toDict r' k y).1 (hxy.1 hx)]
            exact he hx
          · rw [(entry_toDict r' k x).2 hx, (entry_toDict r' k y).2 (fun hy => hx (hxy.2 hy))]
            exact AllClose.refl _
        simp only [SurfacesOk, ModesOk, mem_modeTuples, List.mem_range] at s1 s2 s3 s4 m2 m3 m4
        refine ⟨fun i a b => key' _ _ _ _ ?_ ?_, fun i j a b => ⟨key _ _ _ _ ?_ ?_, key _ _ _ _ ?_ ?_⟩,
          fun i j k a b => ⟨key _ _ _ _ ?_ ?_, key _ _ _ _ ?_ ?_⟩,
          fun i j k l a b => ⟨key _ _ _ _ ?_ ?_, key _ _ _ _ ?_ ?_⟩⟩
        · simp [Inside, ModelIO.shape, ModelIO.modes, ModelIO.surf]; tauto
        · simp only [Inside, ModelIO.shape, ModelIO.modes, ModelIO.surf]
          rintro hx
          simp [Inside] at hx
          exact fixLinear_symm _ _ [i] hx.2.1 hx.2.2
        · simp [Inside, ModelIO.shape, ModelIO.modes, ModelIO.surf]; tauto
        · simp only [Inside, ModelIO.shape, ModelIO.modes, ModelIO.surf]
          rintro hx
          simp [Inside] at hx
          exact s2 [i, j] (by simp; omega) a (by omega) b (by omega)
        · simp [Inside, ModelIO.shape, ModelIO.modes, ModelIO.surf]; tauto
        · simp only [Inside, ModelIO.shape, ModelIO.modes, ModelIO.surf]
          rintro hx
          simp [Inside] at hx
          exact m2 [i, j] (by simp; omega) a (by omega) b (by omega)
        · simp [Inside, ModelIO.shape, ModelIO.modes, ModelIO.surf]; tauto
        · simp only [Inside, ModelIO.shape, ModelIO.modes, ModelIO.surf]
          rintro hx
          simp [Inside] at hx
          exact s3 [i, j, k] (by simp; omega) a (by omega) b (by omega)
        · simp [Inside, ModelIO.shape, ModelIO.modes, ModelIO.surf]; tauto
        · simp only [Inside, ModelIO.shape, ModelIO.modes, ModelIO.surf]
          rintro hx
          simp [Inside] at hx
          exact m3 [i, j, k] (by simp; omega) a (by omega) b (by omega)
        · simp [Inside, ModelIO.shape, ModelIO.modes, ModelIO.surf]; tauto
        · simp only [Inside, ModelIO.shape, ModelIO.modes, ModelIO.surf]
          rintro hx
          simp [Inside] at hx
          exact s4 [i, j, k, l] (by simp; omega) a (by omega) b (by omega)
        · simp [Inside, ModelIO.shape, ModelIO.modes, ModelIO.surf]; tauto
        · simp only [Inside, ModelIO.shape, ModelIO.modes, ModelIO.surf]
          rintro hx
          simp [Inside] at hx
          exact m4 [i, j, k, l] (by simp; omega) a (by omega) b (by omega)
      · cases h

/-- C12: a file that is read faithfully can be turned into a model file, which is loaded as the model of the
operator file; no other file changes. -/
theorem C12_create (num : Str → Option K) (f : Op) (path : Str) (disk : ModelIO.Disk K) {d : ModelIO.Dict K}
    (h : readOp num (some f.text) = .ok d) (hd : f.Faithful num d) :
    (createCoupling num (some f.text) path disk).1 = .ok () ∧
      (∃ v, ModelIO.load .coupled path (createCoupling num (some f.text) path disk).2 = .ok v ∧
        f.Faithful num v.model.toDict) ∧
      ∀ p, p ≠ path → (createCoupling num (some f.text) path disk).2 p = disk p := by
  have e : createCoupling num (some f.text) path disk = ModelIO.save .coupled path d disk := by
    unfold createCoupling; rw [h]
  rw [e]
  have hw : WellFormed .coupled d := C12_wellFormed num _ h (by rw [hd.modes]; simp) (by rw [hd.surfaces]; simp)
  have hs := (ModelFiles.C03_accepted_iff_wellFormed .coupled path d disk).mpr hw
  refine ⟨hs, ?_, fun p hp => ModelFiles.C03_other_files_unchanged .coupled path d disk p hp⟩
  obtain ⟨v, hv, hsame, -⟩ := ModelFiles.C01_round_trip path d disk hs
  refine ⟨v, hv, ?_⟩
  obtain ⟨h1, h2, h3⟩ := hsame
  exact ⟨h2.trans hd.modes, h1.trans hd.surfaces, fun i w x a b => (h3 _ _).trans (hd.frequency i w x a b),
    fun i w x a b => (h3 _ _).trans (hd.energy i w x a b), fun a b c => (h3 _ _).trans (hd.noMixing a b c),
    fun k idx a b s x l n => (h3 _ _).trans (hd.listed k idx a b s x l n),
    fun k idx a b k1 k2 l n => (h3 _ _).trans (hd.rest k idx a b k1 k2 l n)⟩

/-- C12, refuted: a file with a coupling of second or higher order between the last surface and another one that is not
zero to numpy's precision is rejected (`AssertionError`), because only one of the two symmetric entries is divided by
two. -/
theorem C12_last_surface_refuted (num : Str → Option K) (f : Op) (hf : f.Ok num) (k : ModelIO.Key) (idx : List Nat)
    (a b : Nat) (s : Str) (x : K) (ht : (k, idx, a, b, s) ∈ f.terms) (hk : k ≠ .G1) (hab : a < b)
    (hb : b + 1 = f.energies.length) (hx : num s = some x) (hne : 2 / (10 ^ 8 - 10 ^ 3) < |x|)
    (path : Str) (disk : ModelIO.Disk K) :
    readOp num (some f.text) = .error .assertion ∧
      createCoupling num (some f.text) path disk = (.error .assertion, disk) := by
  obtain ⟨r, hr, hw, hE, h1, h2, h3, h4⟩ := readArrays_text hf
  have hN : r.w.length = f.frequencies.length := by simp [hw]
  have hA : r.E.length = f.energies.length := by simp [hE]
  obtain ⟨hk1, hk2, _⟩ := term_length ht
  have no : ∀ {g : Arr K}, Listed num f k g → ¬ SurfacesOk f.frequencies.length f.energies.length (order k)
      (fixHigher f.energies.length g) := by
    intro g hg hs
    have := (noColumn_iff hf hg hk1 hk2 hk).mp ((surfacesOk_iff hf hg _ _ _).mp hs) idx a b s ht hab hb
    rw [numD_eq hx] at this
    exact absurd this (not_le.mpr hne)
  have e : readOp num (some f.text) = .error .assertion := by
    rw [read_eq hr (text_ne f)]
    unfold finish
    rw [if_neg]
    rw [hN, hA]
    rintro ⟨_, c2, c3, c4, _⟩
    rcases order_two hk1 hk2 hk with rfl | rfl | rfl
    · exact no h2 c2
    · exact no h3 c3
    · exact no h4 c4
  exact ⟨e, by unfold createCoupling; rw [e]⟩

/-- C12, refuted: a file with a coupling of second or higher order of a single surface, other than the last one, that is
not zero is not read faithfully: when it is read, the value is doubled. -/
theorem C12_doubled_refuted (num : Str → Option K) (f : Op) (hf : f.Ok num) (k : ModelIO.Key) (idx : List Nat)
    (a : Nat) (s : Str) (x : K) (ht : (k, idx, a, a, s) ∈ f.terms) (hk : k ≠ .G1)
    (ha : a + 1 < f.energies.length) (hx : num s = some x) (d : ModelIO.Dict K) (hd : readOp num (some f.text) = .ok d) :
    entry d k (idx ++ [a, a]) = 2 * x ∧ (x ≠ 0 → ¬ f.Faithful num d) := by
  have hz : ∀ k idx a b s y, (k, idx, a, b, s) ∈ f.terms → k ≠ .G1 → a < b → b + 1 = f.energies.length →
      num s = some y → |y| ≤ 2 / (10 ^ 8 - 10 ^ 3) := by
    intro k idx a b s y ht hk hab hb hy
    by_contra hne
    rw [(C12_last_surface_refuted num f hf k idx a b _ y ht hk hab hb hy (not_le.mp hne) [] (fun _ => none)).1] at hd
    cases hd
  obtain ⟨d', hd', hr⟩ := C12_outcome_partial num f hf hz
  rw [hd] at hd'
  cases hd'
  have hl : f.Lists k idx a a s := ⟨idx, a, a, ht, Or.inl rfl, Or.inl ⟨rfl, rfl⟩⟩
  have he := hr.listed k idx a a s x hl hx
  rw [if_pos ⟨hk, rfl, ha⟩] at he
  refine ⟨he, fun hne hfa => hne ?_⟩
  have := hfa.listed k idx a a s x hl hx
  rw [he] at this
  linear_combination this

/-- C12, refuted: a coupling of second or higher order between the last surface and another one that is not zero is
never read faithfully: if it is so small that the file is accepted, one of its two positions has half the value. -/
theorem C12_halved_refuted (num : Str → Option K) (f : Op) (hf : f.Ok num) (k : ModelIO.Key) (idx : List Nat)
    (a b : Nat) (s : Str) (x : K) (ht : (k, idx, a, b, s) ∈ f.terms) (hk : k ≠ .G1) (hab : a < b)
    (hb : b + 1 = f.energies.length) (hx : num s = some x) (d : ModelIO.Dict K)
    (hd : readOp num (some f.text) = .ok d) :
    entry d k (idx ++ [a, b]) = x / 2 ∧ entry d k (idx ++ [b, a]) = x ∧ (x ≠ 0 → ¬ f.Faithful num d) := by
  have hz : ∀ k idx a b s y, (k, idx, a, b, s) ∈ f.terms → k ≠ .G1 → a < b → b + 1 = f.energies.length →
      num s = some y → |y| ≤ 2 / (10 ^ 8 - 10 ^ 3) := by
    intro k idx a b s y ht hk hab hb hy
    by_contra hne
    rw [(C12_last_surface_refuted num f hf k idx a b _ y ht hk hab hb hy (not_le.mp hne) [] (fun _ => none)).1] at hd
    cases hd
  obtain ⟨d', hd', hr⟩ := C12_outcome_partial num f hf hz
  rw [hd] at hd'
  cases hd'
  have hl : f.Lists k idx a b s := ⟨idx, a, b, ht, Or.inl rfl, Or.inl ⟨rfl, rfl⟩⟩
  have he := hr.listed k idx a b s x hl hx
  have he' := hr.listed k idx b a s x ⟨idx, a, b, ht, Or.inl rfl, Or.inr ⟨rfl, rfl⟩⟩ hx
  rw [if_neg (by omega), if_pos ⟨hk, hab, hb⟩] at he
  rw [if_neg (by omega), if_neg (by omega), one_mul] at he'
  refine ⟨by rw [he]; ring, he', fun hne hfa => hne ?_⟩
  have := hfa.listed k idx a b s x hl hx
  rw [he] at this
  linear_combination -2 * this

/-- C12: without the file or with an empty file nothing is read; a file without one of the headers of the frequencies,
the energies or the linear couplings, or of the section that follows one of them, is rejected. -/
theorem C12_rejected (num : Str → Option K) :
    readOp num none = .error .os ∧ readOp num (some []) = .error .value ∧
    ∀ buf header, header ∈ [c!"Frequencies", c!"Zeropoint energy", c!"Electronic Hamitonian",
      c!"Electronic transition moments", c!"Linear Coupling Constants", c!"Diagonal Quadratic Coupling Constants"] →
      ¬ header <:+: buf → ∃ e, readOp num (some buf) = .error e := by
  refine ⟨rfl, rfl, fun buf header hh hno => ?_⟩
  by_cases hb : buf = []
  · subst hb; exact ⟨_, rfl⟩
  have miss : ∀ {b e : Str} {n : Nat}, header = b ∨ header = e → ∃ er, region buf b e n = .error er := by
    intro b e n h
    have hf : findString buf header = .error .exception := by
      unfold findString mmFind
      rw [List.drop_zero, findAt_none.mpr hno]
    unfold region
    rcases h with rfl | rfl
    · rw [hf]; exact ⟨_, rfl⟩
    · cases findString buf b with
      | error er => exact ⟨er, rfl⟩
      | ok i => rw [hf]; exact ⟨_, rfl⟩
  have key : ∃ e, readArrays num buf = .error e := by
    unfold readArrays
    cases hw : frequencies num buf with
    | error e => exact ⟨e, rfl⟩
    | ok w =>
    cases hE : energies num buf with
    | error e => exact ⟨e, rfl⟩
    | ok E =>
    cases hl : linear num w.length E.length buf (fun _ _ _ => 0) with
    | error e =>
      refine ⟨e, ?_⟩
      simp only [bind, Except.bind, hl]
    | ok g1 =>
    exfalso
    simp only [List.mem_cons, List.not_mem_nil, or_false] at hh
    have c1 : ¬ (header = c!"Frequencies" ∨ header = c!"Zeropoint energy") := fun h => by
      obtain ⟨er, he⟩ := miss (n := 2) h
      unfold frequencies at hw; rw [he] at hw; cases hw
    have c2 : ¬ (header = c!"Electronic Hamitonian" ∨ header = c!"Electronic transition moments") := fun h => by
      obtain ⟨er, he⟩ := miss (n := 3) h
      unfold energies at hE; rw [he] at hE; cases hE
    have c3 : ¬ (header = c!"Linear Coupling Constants" ∨ header = c!"Diagonal Quadratic Coupling Constants") := fun h => by
      obtain ⟨er, he⟩ := miss (n := 2) h
      unfold linear at hl; rw [he] at hl; cases hl
    tauto
  obtain ⟨e, he⟩ := key
  refine ⟨e, ?_⟩
  unfold readOp
  split
  · next h => cases h
  · next h => injection h with h; exact absurd h hb
  · next buf' _ h =>
    injection h with h
    subst h
    rw [he]; rfl

private theorem bind_ok {α β : Type} {x : Except Err α} {f : α → Except Err β} {b : β} :
    (x >>= f) = .ok b ↔ ∃ a, x = .ok a ∧ f a = .ok b := by
  cases x with
  | error e => simp [bind, Except.bind]
  | ok a => simp [bind, Except.bind]

private theorem digit_mem {c : Char} (h : (digitVal c).isSome = true) : c ∈ c!"0123456789" := by
  have h' : 48 ≤ c.toNat ∧ c.toNat ≤ 57 := by
    unfold digitVal at h
    split at h
    · next h' => exact ⟨by omega, by omega⟩
    · cases h
  have hc : c = Char.ofNat c.toNat := (Char.ofNat_toNat c).symm
  obtain ⟨h1, h2⟩ := h'
  rw [hc]
  generalize c.toNat = n at h1 h2
  interval_cases n <;> decide

private theorem named_of_labels : ∀ (pieces : List Str) (w : Str) (ns : List Nat),
    labels pieces w = some ns → Named pieces w
  | [], w, ns, h => by
    unfold labels at h
    split at h
    · next hw => exact hw
    · cases h
  | p :: ps, w, ns, h => by
    unfold labels at h
    split at h
    · cases h
    · next r hr =>
      simp only at h
      split at h
      · cases h
      · next hne =>
        split at h
        · next n ms h1 h2 =>
          refine ⟨_, _, ?_, hne, ?_, named_of_labels ps _ _ h2⟩
          · rw [List.append_assoc, List.takeWhile_append_dropWhile]
            exact dropPrefix_eq hr
          · intro c hc
            exact digit_mem (List.mem_takeWhile_imp (p := fun c => (digitVal c).isSome) hc)
        · cases h

private theorem couplings_named (num : Str → Option K) (N A : Nat) (pre : Str) (pieces : List Str)
    (expand : List Nat → List Nat) : ∀ (lines : List (List Str)) (g g' : Arr K),
    OpFile.assignAll num N A pre pieces expand lines g = .ok g' →
    ∀ words ∈ lines, ∃ w ws, words = w :: ws ∧ (pre <+: w → Named pieces w)
  | [], _, _, _ => by simp
  | l :: ls, g, g', h => by
    unfold OpFile.assignAll at h
    rw [List.foldlM_cons] at h
    obtain ⟨g1, h1, h2⟩ := bind_ok.1 h
    obtain ⟨w0, h3, h4⟩ := bind_ok.1 h1
    have hl : ∃ ws, l = w0 :: ws := by
      cases l with
      | nil => cases h3
      | cons a l => cases h3; exact ⟨l, rfl⟩
    intro words hw
    rcases List.mem_cons.1 hw with rfl | hw
    · obtain ⟨ws, hws⟩ := hl
      refine ⟨w0, ws, hws, fun hpre => ?_⟩
      rw [if_pos ((startsWith_iff).mpr hpre)] at h4
      unfold assign at h4
      obtain ⟨w1, h5, h6⟩ := bind_ok.1 h4
      rw [h3] at h5
      cases h5
      split at h6
      · next a1 a2 js hlab => exact named_of_labels _ _ _ hlab
      · cases h6
    · exact couplings_named num N A pre pieces expand ls g1 g' h2 words hw

private theorem mapM_getElem {α β : Type} {f : α → Except Err β} : ∀ {l : List α} {ys : List β} {j : Nat} {a : α},
    l.mapM f = .ok ys → l[j]? = some a → ∃ b, f a = .ok b ∧ ys[j]? = some b
  | [], _, _, _, _, ha => by simp at ha
  | x :: l, ys, j, a, h, ha => by
    rw [List.mapM_cons] at h
    obtain ⟨b, h1, h⟩ := bind_ok.1 h
    obtain ⟨bs, h2, h⟩ := bind_ok.1 h
    cases h
    cases j with
    | zero => simp only [List.getElem?_cons_zero, Option.some.injEq] at ha; subst ha; exact ⟨b, h1, rfl⟩
    | succ j =>
      obtain ⟨y, hy, hj⟩ := mapM_getElem (l := l) (j := j) h2 (by simpa using ha)
      exact ⟨y, hy, by simpa using hj⟩

private theorem values_checked (num : Str → Option K) (label : Nat → Str) (text : Str) (xs : List K)
    (h : values num label text = .ok xs) (j : Nat) (l : Str) (hl : (dataLines (Workflow.strip text))[j]? = some l) :
    (splitWs l)[0]? = some (label j) ∧ (splitWs l).getLast? = some c!"ev" ∧
      ∃ v, (splitWs l)[2]? = some v ∧ num v = xs[j]? ∧ num v ≠ none := by
  unfold values at h
  have hz : ((dataLines (Workflow.strip text)).zipIdx)[j]? = some (l, j) := by
    rw [List.getElem?_zipIdx, hl]; simp
  obtain ⟨x, h1, h2⟩ := mapM_getElem h hz
  simp only at h1
  unfold valueLine at h1
  obtain ⟨w0, h3, h4⟩ := bind_ok.1 h1
  have item_some : ∀ {i : Nat} {w : Str}, item (splitWs l) i = .ok w → (splitWs l)[i]? = some w := by
    intro i w hi
    unfold item at hi
    split at hi
    · next w' hw' => cases hi; exact hw'
    · cases hi
  split at h4
  · cases h4
  · next hname =>
    rw [not_not] at hname
    split at h4
    · cases h4
    · next last hlast =>
      split at h4
      · cases h4
      · next hev =>
        rw [not_not] at hev
        obtain ⟨v, h5, h6⟩ := bind_ok.1 h4
        refine ⟨hname ▸ item_some h3, hev ▸ hlast, v, item_some h5, ?_⟩
        unfold toNum at h6
        split at h6
        · cases h6
        · next y hy => cases h6; exact ⟨by rw [hy, h2], by simp [hy]⟩

/-- C12: a file is only read if every line of the frequencies and of the energies has the name that
belongs to its place and ends in the unit, the value being its third word, and if the name of every
coupling has the form that belongs to its section. -/
theorem C12_names_checked (num : Str → Option K) (buf : Str) (d : ModelIO.Dict K)
    (h : readOp num (some buf) = .ok d) :
    (∀ s ∈ [(c!"Frequencies", c!"Zeropoint energy", 2, fun j => c!"w" ++ twoDigits (j + 1)),
        (c!"Electronic Hamitonian", c!"Electronic transition moments", 3,
          fun j => c!"EH_s" ++ twoDigits (j + 1) ++ c!"_s" ++ twoDigits (j + 1))],
      ∃ text, region buf s.1 s.2.1 s.2.2.1 = .ok text ∧
        ∀ j l, (dataLines (Workflow.strip text))[j]? = some l → (splitWs l)[0]? = some (s.2.2.2 j) ∧
          (splitWs l).getLast? = some c!"ev" ∧ ∃ v, (splitWs l)[2]? = some v ∧ num v ≠ none) ∧
    (∀ s ∈ [(c!"Linear Coupling Constants", c!"Diagonal Quadratic Coupling Constants", [c!"C1_s", c!"_s", c!"_v"]),
        (c!"Diagonal Quadratic Coupling Constants", c!"Cubic Coupling Constants", [c!"C2_s", c!"s", c!"_v", c!"v"]),
        (c!"Cubic Coupling Constants", c!"Quartic Coupling Constants", [c!"C3_s", c!"_s", c!"_v"]),
        (c!"Quartic Coupling Constants", c!"Bi-Cubic Constants", [c!"C4_s", c!"_s", c!"_v"]),
        (c!"Bi-Cubic Constants", c!"Bi-Quartic Constants", [c!"B3_s", c!"s", c!"_v", c!"v"])],
      ∀ text, region buf s.1 s.2.1 2 = .ok text →
        ∀ words ∈ couplingLines text, ∃ w ws, words = w :: ws ∧ Named s.2.2 w) ∧
    (∀ text, region buf c!"Bi-Quartic Constants" c!"end-parameter-section" 2 = .ok text →
      ∀ words ∈ couplingLines text, ∃ w ws, words = w :: ws ∧
        (c!"B4" <+: w → Named [c!"B4_s", c!"s", c!"_v", c!"v"] w) ∧
        (c!"A4" <+: w → Named [c!"A4_s", c!"s", c!"_v", c!"v"] w)) := by
  unfold readOp at h
  split at h
  · cases h
  · cases h
  · next buf' _ hb =>
    injection hb with hb
    subst hb
    obtain ⟨r, hr, -⟩ := bind_ok.1 h
    unfold readArrays at hr
    obtain ⟨w, hw, hr⟩ := bind_ok.1 hr
    obtain ⟨E, hE, hr⟩ := bind_ok.1 hr
    obtain ⟨g1, h1, hr⟩ := bind_ok.1 hr
    obtain ⟨g2, h2, hr⟩ := bind_ok.1 hr
    obtain ⟨g3, h3, hr⟩ := bind_ok.1 hr
    obtain ⟨g4, h4, hr⟩ := bind_ok.1 hr
    obtain ⟨g5, h5, hr⟩ := bind_ok.1 hr
    obtain ⟨g6, h6, hr⟩ := bind_ok.1 hr
    have all : ∀ {pieces : List Str} {expand : List Nat → List Nat} {lines : List (List Str)} {g g' : Arr K},
        OpFile.assignAll num w.length E.length [] pieces expand lines g = .ok g' →
        ∀ words ∈ lines, ∃ w ws, words = w :: ws ∧ Named pieces w := by
      intro pieces expand lines g g' hg words hwords
      obtain ⟨v, vs, e, hn⟩ := couplings_named num _ _ _ _ _ _ _ _ hg words hwords
      exact ⟨v, vs, e, hn List.nil_prefix⟩
    have opt : ∀ {b e : Str} {pieces : List Str} {expand : List Nat → List Nat} {g g' : Arr K},
        OpFile.optional num w.length E.length buf b e pieces expand g = .ok g' →
        ∀ text, region buf b e 2 = .ok text →
          ∀ words ∈ couplingLines text, ∃ w ws, words = w :: ws ∧ Named pieces w := by
      intro b e pieces expand g g' hg text ht
      unfold OpFile.optional at hg
      rw [ht] at hg
      exact all hg
    refine ⟨?_, ?_, ?_⟩
    · intro s hs
      simp only [List.mem_cons, List.not_mem_nil, or_false] at hs
      rcases hs with rfl | rfl
      · obtain ⟨text, ht, hv⟩ := bind_ok.1 hw
        refine ⟨text, ht, fun j l hl => ?_⟩
        obtain ⟨a, b, v, c, -, e⟩ := values_checked num _ text _ hv j l hl
        exact ⟨a, b, v, c, e⟩
      · obtain ⟨text, ht, hv⟩ := bind_ok.1 hE
        refine ⟨text, ht, fun j l hl => ?_⟩
        obtain ⟨a, b, v, c, -, e⟩ := values_checked num _ text _ hv j l hl
        exact ⟨a, b, v, c, e⟩
    · intro s hs
      simp only [List.mem_cons, List.not_mem_nil, or_false] at hs
      rcases hs with rfl | rfl | rfl | rfl | rfl
      · intro text ht
        obtain ⟨text', ht', hv⟩ := bind_ok.1 h1
        rw [ht] at ht'
        cases ht'
        exact all hv
      · exact opt h2
      · exact opt h3
      · exact opt h4
      · exact opt h5
    · intro text ht words hwords
      unfold biquartic at h6
      rw [ht] at h6
      obtain ⟨g7, h7, h8⟩ := bind_ok.1 h6
      obtain ⟨v, vs, e, hn⟩ := couplings_named num _ _ _ _ _ _ _ _ h7 words hwords
      obtain ⟨v', vs', e', hn'⟩ := couplings_named num _ _ _ _ _ _ _ _ h8 words hwords
      rw [e] at e'
      cases e'
      exact ⟨v, vs, e, hn, hn'⟩

/-- A line that gives the value called `name`: the name is its first word, the unit its last, and its third
word is a number. -/
def Gives (num : Str → Option K) (name line : Str) : Prop :=
  (splitWs line)[0]? = some name ∧ (splitWs line).getLast? = some c!"ev" ∧
    ∃ v, (splitWs line)[2]? = some v ∧ num v ≠ none

private theorem gives_ok {num : Str → Option K} {name line : Str} (h : Gives num name line) :
    ∃ x, valueLine num name line = .ok x := by
  obtain ⟨h1, h2, v, h3, h4⟩ := h
  obtain ⟨x, hx⟩ := Option.ne_none_iff_exists'.1 h4
  refine ⟨x, ?_⟩
  unfold valueLine item toNum
  simp [h1, h2, h3, hx, bind, Except.bind]

/-- What a line of values that cannot be read raises. -/
private theorem line_error {num : Str → Option K} {name line : Str} :
    (∀ n, (splitWs line)[0]? = some n → n ≠ name → valueLine num name line = .error .assertion) ∧
    (∀ u, (splitWs line)[0]? = some name → (splitWs line).getLast? = some u → u ≠ c!"ev" →
      valueLine num name line = .error .assertion) ∧
    ((splitWs line)[0]? = some name → (splitWs line).getLast? = some c!"ev" → (splitWs line)[2]? = none →
      valueLine num name line = .error .index) ∧
    (∀ v, (splitWs line)[0]? = some name → (splitWs line).getLast? = some c!"ev" →
      (splitWs line)[2]? = some v → num v = none → valueLine num name line = .error .value) := by
  refine ⟨fun n h1 h2 => ?_, fun u h1 h2 h3 => ?_, fun h1 h2 h3 => ?_, fun v h1 h2 h3 h4 => ?_⟩
  · unfold valueLine item
    simp [h1, h2, bind, Except.bind]
  · unfold valueLine item
    simp only [h1, h2, bind, Except.bind, ne_eq, not_true_eq_false, if_false]
    rw [if_pos h3]
  · unfold valueLine item
    simp [h1, h2, h3, bind, Except.bind]
  · unfold valueLine item toNum
    simp [h1, h2, h3, h4, bind, Except.bind]

private theorem values_error {num : Str → Option K} {label : Nat → Str} {text : Str} {pre post : List Str}
    {line : Str} (h : dataLines (Workflow.strip text) = pre ++ line :: post)
    (hpre : ∀ j l, pre[j]? = some l → Gives num (label j) l) {e : Err}
    (he : valueLine num (label pre.length) line = .error e) : values num label text = .error e := by
  unfold values
  rw [h, List.zipIdx_append, List.mapM_append]
  have hok : ∃ xs, pre.zipIdx.mapM (fun p => valueLine num (label p.2) p.1) = .ok xs := by
    have : ∀ (l : List (Str × Nat)), (∀ p ∈ l, ∃ x, valueLine num (label p.2) p.1 = .ok x) →
        ∃ xs, l.mapM (fun p => valueLine num (label p.2) p.1) = .ok xs := by
      intro l
      induction l with
      | nil => intro _; exact ⟨[], rfl⟩
      | cons p l ih =>
        intro hl
        obtain ⟨x, hx⟩ := hl p (by simp)
        obtain ⟨xs, hxs⟩ := ih fun q hq => hl q (by simp [hq])
        exact ⟨x :: xs, by rw [List.mapM_cons, hx, hxs]; rfl⟩
    refine this _ fun p hp => gives_ok (hpre _ _ ?_)
    exact List.mem_zipIdx_iff_getElem?.1 hp
  obtain ⟨xs, hxs⟩ := hok
  rw [hxs]
  simp only [List.zipIdx_cons, List.mapM_cons, zero_add]
  rw [he]
  rfl

private theorem readOp_error {num : Str → Option K} {buf : Str} {e : Err} (hb : buf ≠ [])
    (h : readArrays num buf = .error e) : readOp num (some buf) = .error e := by
  unfold readOp
  split
  · next h => cases h
  · next h => injection h with h; exact absurd h hb
  · next buf' _ h' =>
    injection h' with h'
    subst h'
    rw [h]; rfl

/-- C12: the first line of the frequencies, or of the energies once the frequencies are read, that does not
give the value of its place decides how the file is rejected: a wrong name or unit fails the check, a
missing third word is an `IndexError`, a third word that is no number a `ValueError`. -/
theorem C12_first_bad_line (num : Str → Option K) (buf text line : Str) (pre post : List Str)
    (name : Nat → Str) (h : dataLines (Workflow.strip text) = pre ++ line :: post)
    (hpre : ∀ j l, pre[j]? = some l → Gives num (name j) l)
    (hs : (region buf c!"Frequencies" c!"Zeropoint energy" 2 = .ok text ∧
        name = fun j => c!"w" ++ twoDigits (j + 1)) ∨
      (region buf c!"Electronic Hamitonian" c!"Electronic transition moments" 3 = .ok text ∧
        (name = fun j => c!"EH_s" ++ twoDigits (j + 1) ++ c!"_s" ++ twoDigits (j + 1)) ∧
        ∃ t, region buf c!"Frequencies" c!"Zeropoint energy" 2 = .ok t ∧
          ∀ j l, (dataLines (Workflow.strip t))[j]? = some l → Gives num (c!"w" ++ twoDigits (j + 1)) l)) :
    (∀ n, (splitWs line)[0]? = some n → n ≠ name pre.length →
      readOp num (some buf) = .error .assertion) ∧
    (∀ u, (splitWs line)[0]? = some (name pre.length) → (splitWs line).getLast? = some u → u ≠ c!"ev" →
      readOp num (some buf) = .error .assertion) ∧
    ((splitWs line)[0]? = some (name pre.length) → (splitWs line).getLast? = some c!"ev" →
      (splitWs line)[2]? = none → readOp num (some buf) = .error .index) ∧
    (∀ v, (splitWs line)[0]? = some (name pre.length) → (splitWs line).getLast? = some c!"ev" →
      (splitWs line)[2]? = some v → num v = none → readOp num (some buf) = .error .value) := by
  have hb : buf ≠ [] := by
    rintro rfl
    rcases hs with ⟨h1, -⟩ | ⟨h1, -⟩ <;> cases h1
  have key : ∀ e, valueLine num (name pre.length) line = .error e → readOp num (some buf) = .error e := by
    intro e he
    have hv := values_error h hpre he
    refine readOp_error hb ?_
    unfold readArrays
    rcases hs with ⟨h1, rfl⟩ | ⟨h1, rfl, t, h2, h3⟩
    · have : frequencies num buf = .error e := by
        unfold frequencies
        rw [h1]
        exact hv
      rw [this]; rfl
    · have hf : ∃ w, frequencies num buf = .ok w := by
        unfold frequencies
        rw [h2]
        have : ∃ xs, values num (fun j => c!"w" ++ pad2 (j + 1)) t = .ok xs := by
          unfold values
          have : ∀ (l : List (Str × Nat)), (∀ p ∈ l, ∃ x, valueLine num (c!"w" ++ pad2 (p.2 + 1)) p.1 = .ok x) →
              ∃ xs, l.mapM (fun p => valueLine num (c!"w" ++ pad2 (p.2 + 1)) p.1) = .ok xs := by
            intro l
            induction l with
            | nil => intro _; exact ⟨[], rfl⟩
            | cons p l ih =>
              intro hl
              obtain ⟨x, hx⟩ := hl p (by simp)
              obtain ⟨xs, hxs⟩ := ih fun q hq => hl q (by simp [hq])
              exact ⟨x :: xs, by rw [List.mapM_cons, hx, hxs]; rfl⟩
          exact this _ fun p hp => gives_ok (h3 _ _ (List.mem_zipIdx_iff_getElem?.1 hp))
        exact this
      obtain ⟨w, hw⟩ := hf
      have : energies num buf = .error e := by
        unfold energies
        rw [h1]
        exact hv
      rw [hw, this]; rfl
  obtain ⟨e1, e2, e3, e4⟩ := line_error (num := num) (name := name pre.length) (line := line)
  exact ⟨fun n a b => key _ (e1 n a b), fun u a b c => key _ (e2 u a b c), fun a b c => key _ (e3 a b c),
    fun v a b c d => key _ (e4 v a b c d)⟩

/-- C12, refuted for files that end after the quadratic couplings: without the header of the cubic couplings all quadratic
couplings of the file are silently lost. -/
theorem C12_quadratic_lost_refuted (num : Str → Option K) (buf : Str) (d : ModelIO.Dict K)
    (hno : ¬ c!"Cubic Coupling Constants" <:+: buf) (h : readOp num (some buf) = .ok d) (idx : List Nat) :
    entry d .G2 idx = 0 := by
  unfold readOp at h
  split at h
  · cases h
  · cases h
  · next buf' _ hb =>
    injection hb with hb
    subst hb
    cases hr : readArrays num buf with
    | error e => rw [hr] at h; cases h
    | ok r =>
      rw [hr] at h
      change finish r = _ at h
      unfold finish at h
      simp only at h
      split at h
      swap
      · cases h
      have hg2 : r.g2 = fun _ _ _ => 0 := by
        unfold readArrays at hr
        cases hw : frequencies num buf with
        | error e => rw [hw] at hr; cases hr
        | ok w =>
        rw [hw] at hr
        cases hE : energies num buf with
        | error e => rw [hE] at hr; cases hr
        | ok E =>
        rw [hE] at hr
        simp only [bind, Except.bind] at hr
        have hq : quadratic num w.length E.length buf (fun _ _ _ => 0) = .ok fun _ _ _ => 0 := by
          have hf : findString buf c!"Cubic Coupling Constants" = .error .exception := by
            unfold findString mmFind
            rw [List.drop_zero, findAt_none.mpr hno]
          unfold quadratic Pibronic.OpFile.optional region
          cases findString buf c!"Diagonal Quadratic Coupling Constants" with
          | error e => rfl
          | ok i => rw [hf]; rfl
        rw [hq] at hr
        simp only at hr
        split at hr <;> try cases hr
        split at hr <;> try cases hr
        split at hr <;> try cases hr
        split at hr <;> try cases hr
        split at hr <;> try cases hr
        rfl
      injection h with h
      obtain ⟨r', hr', hg'⟩ : ∃ r' : Arrays K, r'.toDict = d ∧ r'.g2 = fixHigher r.E.length r.g2 := ⟨_, h, rfl⟩
      rw [← hr']
      have hz : ∀ i a b, fixHigher r.E.length r.g2 i a b = 0 := by
        have hs : ∀ ps : List (Nat × Nat), ps.foldl symStep (fun _ _ _ => (0 : K)) = fun _ _ _ => 0 := by
          intro ps
          induction ps with
          | nil => rfl
          | cons p ps ih =>
            rw [List.foldl_cons]
            have : symStep (fun _ _ _ => (0 : K)) p = fun _ _ _ => 0 := by
              funext i a b
              simp only [symStep, Arr.setBlock]
              have hm : ∀ i, mirror (fun _ => (0 : K)) i = 0 := fun i => by unfold mirror; split <;> simp
              simp [hm]
            rw [this, ih]
        intro i a b
        rw [fixHigher_apply, hg2, hs]
        simp
      by_cases hi : Inside (ModelIO.shape .coupled r'.E.length r'.w.length .G2) idx
      · rw [(entry_toDict r' .G2 idx).1 hi]
        change r'.g2 _ _ _ = 0
        rw [hg', hz]
      · exact (entry_toDict _ .G2 idx).2 hi

/-- How the mode labels of a line become the mode indices of a term, in the sections of a file. -/
def expansions : List (List Nat → List Nat) :=
  [id, fun js => js.flatMap fun j => [j, j, j], fun js => js.flatMap fun j => [j, j, j, j], expandB3, expandB4, expandA4]

/-- The label of the last one of `n` things instead of the label 0. -/
def lastForZero (n l : Nat) : Nat := if l = 0 then n else l

private theorem expand_map {expand : List Nat → List Nat} (h : expand ∈ expansions) (f : Nat → Nat) (js : List Nat) :
    expand (js.map f) = (expand js).map f := by
  simp only [expansions, List.mem_cons, List.not_mem_nil, or_false] at h
  rcases h with rfl | rfl | rfl | rfl | rfl | rfl
  · rfl
  · simp [List.map_flatMap, List.flatMap_map]
  · simp [List.map_flatMap, List.flatMap_map]
  all_goals
    rcases js with _ | ⟨a, _ | ⟨b, _ | ⟨c, js⟩⟩⟩ <;> rfl

private theorem axis_last {n : Nat} (hn : 0 < n) (l : Nat) : axis n (lastForZero n l) = axis n l := by
  unfold axis lastForZero
  by_cases h : l = 0
  · simp [h, hn.ne']
  · simp [h]

/-- C12, refuted for labels that do not exist: a coupling with the label 00 of a surface or of a mode is not
rejected but taken for a coupling of the last surface or the last mode. -/
theorem C12_label_zero_refuted (num : Str → Option K) (N A : Nat) (hN : 0 < N) (hA : 0 < A) (pieces : List Str)
    (expand : List Nat → List Nat) (he : expand ∈ expansions) (g : Arr K) (w w' : Str) (ws : List Str)
    (a b : Nat) (js : List Nat) (hw : labels pieces w = some (a :: b :: js))
    (hw' : labels pieces w' = some (lastForZero A a :: lastForZero A b :: js.map (lastForZero N))) :
    assign num N A pieces expand g (w :: ws) = assign num N A pieces expand g (w' :: ws) := by
  have hm : ∀ l : List Nat, (l.map (lastForZero N)).mapM (axis N) = l.mapM (axis N) := by
    intro l
    induction l with
    | nil => rfl
    | cons x l ih => simp only [List.map_cons, List.mapM_cons, axis_last hN, ih]
  simp only [assign, item, List.getElem?_cons_zero, show ∀ x : Str, (x :: ws)[1]? = ws[0]? from fun _ => rfl, bind,
    Except.bind, hw, hw', expand_map he, hm, axis_last hA]

/-- C12: a line of a section of couplings whose first word is not the name of a coupling is a `TypeError`. -/
theorem C12_no_label (num : Str → Option K) (N A : Nat) (pieces : List Str) (expand : List Nat → List Nat) (g : Arr K)
    (w : Str) (ws : List Str) (hw : labels pieces w = none) :
    assign num N A pieces expand g (w :: ws) = .error .type := by
  simp [assign, item, hw, bind, Except.bind]

/-- C12: a coupling of a surface or a mode beyond the last one is rejected. -/
theorem C12_label_beyond (num : Str → Option K) (N A : Nat) (pieces : List Str)
    (expand : List Nat → List Nat) (he : expand ∈ expansions) (g : Arr K) (w v : Str) (ws : List Str)
    (a b i j : Nat) (hw : labels pieces w = some [a, b, i] ∧ N < i ∨
      labels pieces w = some [a, b, i, j] ∧ (N < i ∨ N < j) ∨
      (labels pieces w = some [a, b, i] ∨ labels pieces w = some [a, b, i, j]) ∧ (A < a ∨ A < b)) :
    assign num N A pieces expand g (w :: v :: ws) = .error .index := by
  have hax : ∀ n l, n < l → axis n l = .error .index := by
    intro n l h
    unfold axis
    rw [if_neg (by omega), if_neg (by omega)]
  have hcase : ∀ n l, (∃ k, axis n l = .ok k) ∨ axis n l = .error .index := by
    intro n l
    unfold axis
    split
    · split
      · exact Or.inr rfl
      · exact Or.inl ⟨_, rfl⟩
    · split
      · exact Or.inl ⟨_, rfl⟩
      · exact Or.inr rfl
  simp only [expansions, List.mem_cons, List.not_mem_nil, or_false] at he
  rcases hcase N i with ⟨ki, hi⟩ | hi <;> rcases hcase N j with ⟨kj, hj⟩ | hj <;>
  rcases hcase A a with ⟨ka, ha⟩ | ha <;> rcases hcase A b with ⟨kb, hb⟩ | hb <;>
  · rcases hw with ⟨h1, h2⟩ | ⟨h1, h2 | h2⟩ | ⟨h1 | h1, h2 | h2⟩ <;>
    first
    | (rw [hax _ _ h2] at hi; cases hi; done)
    | (rw [hax _ _ h2] at hj; cases hj; done)
    | (rw [hax _ _ h2] at ha; cases ha; done)
    | (rw [hax _ _ h2] at hb; cases hb; done)
    | (rcases he with rfl | rfl | rfl | rfl | rfl | rfl <;>
        simp [assign, item, h1, bind, Except.bind, List.mapM_cons, expandB3, expandB4, expandA4, hi, hj, ha, hb, pure,
          Except.pure])

/-- Witnesses: names with a label 00 and the names they are taken for (two surfaces, three modes). -/
example : labels [c!"C1_s", c!"_s", c!"_v"] c!"C1_s00_s01_v00" = some [0, 1, 0] ∧
    labels [c!"C1_s", c!"_s", c!"_v"] c!"C1_s02_s01_v03" = some [2, 1, 3] := by decide

/-! ### examples -/

/-- `float` of a text of digits (enough for the examples). -/
private def digitsNum (s : Str) : Option ℚ := (digitsVal 0 s).map fun n => (n : ℚ)

/-- A value without additional blanks. -/
private def val (s : Str) : Value := ⟨s, ⟨0, 0, 0, 0⟩⟩

/-- Three surfaces, two modes, linear couplings and a quadratic coupling between the first two surfaces. -/
private def sample (quad : List Coupling) : Op where
  before := [c!"OP_DEFINE-SECTION"]
  frequencies := [val c!"1", val c!"2"]
  zeroPoint := c!" 3"
  energies := [val c!"5", val c!"6", val c!"7"]
  moments := [[]]
  linear := [⟨0, 0, 1, 0, val c!"4"⟩, ⟨0, 2, 0, 0, val c!"3"⟩]
  diagonal := []
  offDiagonal := quad
  cubic := []
  quartic := []
  bicubic := []
  biquartic := []
  after := []

private theorem sample_ok {quad : List Coupling} (h : ∀ v ∈ (sample quad).values, IsNumber digitsNum v.text)
    (hq : ∀ c ∈ quad, c.i < 2 ∧ c.j ≤ c.i ∧ c.a ≤ c.b ∧ c.b < 3) (hn : quad.length ≤ 1) : (sample quad).Ok digitsNum where
  free := by change ∀ l ∈ [c!"OP_DEFINE-SECTION", []], _; decide +kernel
  zeroPoint := by change ∀ c ∈ c!" 3", _; decide
  numbers := h
  modes := by simp [sample]
  surfaces := by simp [sample]
  inside := by
    intro t ht
    simp only [Op.terms, sample, List.map_cons, List.map_nil, List.mem_append, List.mem_cons, List.not_mem_nil, or_false,
      List.mem_map, List.nil_append] at ht
    rcases ht with (rfl | rfl) | ⟨c, hc, rfl⟩
    · change (∀ i ∈ [1], i < 2) ∧ 0 ≤ 0 ∧ 0 < 3; decide
    · change (∀ i ∈ [0], i < 2) ∧ 0 ≤ 2 ∧ 2 < 3; decide
    · have := hq c hc
      simp only [List.mem_cons, List.not_mem_nil, or_false, sample, List.length_cons, List.length_nil]
      refine ⟨?_, this.2.2.1, this.2.2.2⟩
      rintro i (rfl | rfl) <;> omega
  lower := fun c hc => (hq c (by simpa [sample] using hc)).2.1
  once := by
    match quad, hn with
    | [], _ => change List.Nodup [(ModelIO.Key.G1, [1], 0, 0), (ModelIO.Key.G1, [0], 0, 2)]; decide
    | [c], _ =>
      change List.Nodup [(ModelIO.Key.G1, [1], 0, 0), (ModelIO.Key.G1, [0], 0, 2), (ModelIO.Key.G2, [c.i, c.j], c.a, c.b)]
      simp

private theorem number_digits {s : Str} (h : s ≠ [] ∧ (∀ c ∈ s, c ∈ numeral) ∧ (digitsVal 0 s).isSome = true) :
    IsNumber digitsNum s := by
  refine ⟨h.1, h.2.1, ?_⟩
  unfold digitsNum
  obtain ⟨n, hn⟩ := Option.isSome_iff_exists.mp h.2.2
  rw [hn]; simp

private theorem sample_numbers (a b : Nat) : ∀ v ∈ (sample [⟨a, b, 1, 0, val c!"8"⟩]).values, IsNumber digitsNum v.text := by
  intro v hv
  have : v.text ∈ [c!"1", c!"2", c!"5", c!"6", c!"7", c!"4", c!"3", c!"8"] := by
    simp only [Op.values, sample, val, List.cons_append, List.nil_append, List.map_cons, List.map_nil, List.append_nil, List.mem_cons,
      List.not_mem_nil, or_false] at hv
    rcases hv with rfl | rfl | rfl | rfl | rfl | rfl | rfl | rfl <;> simp
  refine number_digits ?_
  revert this
  generalize v.text = s
  intro h
  simp only [List.mem_cons, List.not_mem_nil, or_false] at h
  rcases h with rfl | rfl | rfl | rfl | rfl | rfl | rfl | rfl <;> decide

/-- A file with a quadratic coupling of the first two of three surfaces meets the hypotheses of the faithful case. -/
example : ∃ f : Op, f.Ok digitsNum ∧ f.offDiagonal ≠ [] ∧ f.energies.length = 3 ∧
    ∀ k idx a b s, (k, idx, a, b, s) ∈ f.terms → k ≠ .G1 →
      a < b ∧ b + 1 < f.energies.length ∨ a = b ∧ b + 1 = f.energies.length := by
  refine ⟨sample [⟨0, 1, 1, 0, val c!"8"⟩], sample_ok (sample_numbers 0 1) (by simp) (by simp), by simp [sample], rfl, ?_⟩
  intro k idx a b s h hk
  simp only [Op.terms, sample, List.map_cons, List.map_nil, List.nil_append, List.append_nil, List.cons_append, List.mem_cons,
    List.not_mem_nil, or_false, Prod.mk.injEq] at h
  rcases h with ⟨rfl, _⟩ | ⟨rfl, _⟩ | ⟨rfl, rfl, rfl, rfl, rfl⟩
  · exact absurd rfl hk
  · exact absurd rfl hk
  · exact Or.inl ⟨by decide, by decide⟩

/-- Such a file, with energies that are not zero. -/
theorem faithful_file : ∃ (num : Str → Option ℚ) (f : Op), f.Ok num ∧
    (∀ k idx a b s, (k, idx, a, b, s) ∈ f.terms → k ≠ .G1 →
      a < b ∧ b + 1 < f.energies.length ∨ a = b ∧ b + 1 = f.energies.length) ∧
    (∃ v ∈ f.energies, ∃ x, num v.text = some x ∧ x ≠ 0) ∧ f.offDiagonal ≠ [] := by
  refine ⟨digitsNum, sample [⟨0, 1, 1, 0, val c!"8"⟩], sample_ok (sample_numbers 0 1) (by simp) (by simp), ?_,
    ⟨val c!"5", by simp [sample], 5, by simp [val, digitsNum, digitsVal, digitVal], by norm_num⟩, by simp [sample]⟩
  intro k idx a b s h hk
  simp only [Op.terms, sample, List.map_cons, List.map_nil, List.nil_append, List.append_nil, List.cons_append, List.mem_cons,
    List.not_mem_nil, or_false, Prod.mk.injEq] at h
  rcases h with ⟨rfl, _⟩ | ⟨rfl, _⟩ | ⟨rfl, rfl, rfl, rfl, rfl⟩
  · exact absurd rfl hk
  · exact absurd rfl hk
  · exact Or.inl ⟨by decide, by decide⟩

/-- A file that is rejected although it follows the layout. -/
example : readOp digitsNum (some (sample [⟨0, 2, 1, 0, val c!"8"⟩]).text) = .error .assertion := by
  refine (C12_last_surface_refuted digitsNum _ (sample_ok (sample_numbers 0 2) (by simp) (by simp)) .G2 [1, 0] 0 2 c!"8" 8
    (by simp [Op.terms, sample, val]) (by decide) (by decide) rfl ?_ (by norm_num) [] (fun _ => none)).1
  simp [digitsNum, digitsVal, digitVal]

/-- A file that is read, with the wrong value: 16 instead of 8. -/
example : ∃ d, readOp digitsNum (some (sample [⟨1, 1, 1, 0, val c!"8"⟩]).text) = .ok d ∧ entry d .G2 [0, 1, 1, 1] = 16 := by
  have hf := sample_ok (sample_numbers 1 1) (by simp) (by simp)
  obtain ⟨d, hd, hr⟩ := C12_outcome_partial digitsNum _ hf (by
    intro k idx a b s x h hk hab
    simp only [Op.terms, sample, List.map_cons, List.map_nil, List.nil_append, List.append_nil, List.cons_append, List.mem_cons,
      List.not_mem_nil, or_false, Prod.mk.injEq] at h
    rcases h with ⟨rfl, _⟩ | ⟨rfl, _⟩ | ⟨rfl, rfl, rfl, rfl, rfl⟩
    · exact absurd rfl hk
    · exact absurd rfl hk
    · omega)
  refine ⟨d, hd, ?_⟩
  have := hr.listed .G2 [0, 1] 1 1 c!"8" 8 ⟨[1, 0], 1, 1, by simp [Op.terms, sample, val], Or.inr ⟨rfl, rfl⟩, Or.inl ⟨rfl, rfl⟩⟩
    (by simp [digitsNum, digitsVal, digitVal])
  rw [if_pos (by decide)] at this
  rw [show ([0, 1, 1, 1] : List Nat) = [0, 1] ++ [1, 1] from rfl, this]
  norm_num

/-- Digits as billionths. -/
private def tinyNum (s : Str) : Option ℚ := (digitsNum s).map fun x => x / 10 ^ 9

/-- A coupling to the last surface, so small that the file is accepted, is read with two different values. -/
example : ∃ d, readOp tinyNum (some (sample [⟨0, 2, 1, 0, val c!"8"⟩]).text) = .ok d ∧
    entry d .G2 [1, 0, 0, 2] = 4 / 10 ^ 9 ∧ entry d .G2 [1, 0, 2, 0] = 8 / 10 ^ 9 := by
  have h := sample_ok (sample_numbers 0 2) (by simp) (by simp)
  have hf : (sample [⟨0, 2, 1, 0, val c!"8"⟩]).Ok tinyNum := ⟨h.free, h.zeroPoint,
    fun v hv => ⟨(h.numbers v hv).1, (h.numbers v hv).2.1, by simpa [tinyNum] using (h.numbers v hv).2.2⟩,
    h.modes, h.surfaces, h.inside, h.lower, h.once⟩
  have h8 : tinyNum c!"8" = some (8 / 10 ^ 9) := by simp [tinyNum, digitsNum, digitsVal, digitVal]
  obtain ⟨d, hd, -⟩ := C12_outcome_partial tinyNum _ hf (by
    intro k idx a b s x h hk hab _ hx
    simp only [Op.terms, sample, List.map_cons, List.map_nil, List.nil_append, List.append_nil, List.cons_append, List.mem_cons,
      List.not_mem_nil, or_false, Prod.mk.injEq] at h
    rcases h with ⟨rfl, _⟩ | ⟨rfl, _⟩ | ⟨rfl, rfl, rfl, rfl, rfl⟩
    · exact absurd rfl hk
    · exact absurd rfl hk
    · obtain rfl : x = 8 / 10 ^ 9 := Option.some.inj (hx.symm.trans h8)
      norm_num)
  obtain ⟨h1, h2, -⟩ := C12_halved_refuted tinyNum _ hf .G2 [1, 0] 0 2 c!"8" (8 / 10 ^ 9)
    (by simp [Op.terms, sample, val]) (by decide) (by decide) rfl h8 d hd
  refine ⟨d, hd, h1.trans (by norm_num), h2⟩

end Pibronic.Props.OpFile
