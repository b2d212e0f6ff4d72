import Verif.Spec.Grids
import Verif.Lemmas.Str
import Verif.Lemmas.Postprocessing

set_option autoImplicit false
set_option linter.unusedSectionVars false

/-!
Theorems about the figures with a square for each pair of surfaces (C85).  `Shows`, `MarksCorrect` and
the names of the figures are defined in `Spec/Grids.lean`.
-/
namespace Pibronic.Props.Grids
open Py Pibronic.FileStructure Pibronic.Grids Spec.Grids Pibronic.Postprocessing

section
variable {K : Type} [LinearOrder K] [Zero K]

/-! ### helpers -/

theorem join_inj {dir a b : Str} (ha : a.head? ≠ some '/') (hb : b.head? ≠ some '/')
    (h : join dir a = join dir b) : a = b := by
  have e : ∀ a : Str, a.head? ≠ some '/' → join dir a =
      if dir = [] ∨ dir.getLast? = some '/' then dir ++ a else dir ++ '/' :: a := by
    intro a ha
    unfold join
    split
    · simp at ha
    · rfl
  rw [e a ha, e b hb] at h
  split at h
  · exact List.append_cancel_left h
  · have := List.append_cancel_left h
    exact (List.cons.inj this).2

theorem saveAll_ok (gs : List (Grid K)) : saveAll (gs.map Except.ok) = (gs, none) := by
  induction gs with
  | nil => rfl
  | cons g gs ih => simp [saveAll, ih]

theorem saveAll_of {α : Type} (f : α → Except Err (Grid K)) (g : α → Grid K) (l : List α)
    (h : ∀ a ∈ l, f a = .ok (g a)) : saveAll (l.map f) = (l.map g, none) := by
  rw [← saveAll_ok, List.map_map]
  congr 1
  exact List.map_congr_left h

/-- The marks when the sampling model has at most as many surfaces. -/
def allMarks (A : Nat) (data : Nat → Nat → Option K) : List Mark :=
  (List.range A).flatMap fun a => (List.range A).map fun b => ⟨a, b, signMark (data a b)⟩

theorem mem_allMarks (A : Nat) (data : Nat → Nat → Option K) (m : Mark) :
    m ∈ allMarks A data ↔ m.x < A ∧ m.y < A ∧ m.text = signMark (data m.x m.y) := by
  obtain ⟨x, y, t⟩ := m
  simp only [allMarks, List.mem_flatMap, List.mem_map, List.mem_range, Mark.mk.injEq]
  constructor
  · rintro ⟨a, ha, b, hb, rfl, rfl, rfl⟩; exact ⟨ha, hb, rfl⟩
  · rintro ⟨ha, hb, rfl⟩; exact ⟨x, ha, y, hb, rfl, rfl, rfl⟩

/-- The figure of a matrix. -/
def gridOf (A : Nat) (s : FS) (n : Nat) (data : Nat → Nat → Option K) (name : Str) : Grid K :=
  ⟨join s.pathVibPlots name, n, fun x y => data y x, allMarks A data⟩

theorem singleGrid_eq {A N : Nat} (s : FS) {n : Nat} (hA : A ≤ n) (data : Nat → Nat → Option K)
    (name : Str) : singleGrid (.ok (A, N)) s n data name = .ok (gridOf A s n data name) := by
  simp [singleGrid, bind, Except.bind, annotate, hA, gridOf, allMarks]

theorem isSign_signMark (v : Option K) : IsSign v (signMark v) := by
  unfold IsSign signMark
  cases v with
  | none => simp
  | some x =>
    rcases lt_trichotomy x 0 with h | h | h
    · have : ¬ 0 < x := not_lt.2 h.le
      simp [h, this]
    · subst h; simp
    · simp [h]

theorem isSign_unique {v : Option K} {c c' : Char} (h : IsSign v c) (h' : IsSign v c') : c = c' := by
  unfold IsSign at h h'
  rcases h with ⟨rfl, x, rfl, hx⟩ | ⟨rfl, x, rfl, hx⟩ | ⟨rfl, rfl⟩ | ⟨rfl, rfl⟩ <;>
  rcases h' with ⟨rfl, y, hy, hy'⟩ | ⟨rfl, y, hy, hy'⟩ | ⟨rfl, hy⟩ | ⟨rfl, hy⟩ <;>
  first
  | rfl
  | (exfalso; cases hy; first | exact lt_asymm hx hy' | exact lt_irrefl _ hx | exact lt_irrefl _ hy')
  | (exfalso; cases hy)

theorem gridOf_shows (A : Nat) (s : FS) (n : Nat) (data : Nat → Nat → Option K) (name : Str) :
    (gridOf A s n data name).path = join s.pathVibPlots name ∧ Shows (gridOf A s n data name) n data :=
  ⟨rfl, rfl, fun _ _ _ _ => rfl⟩

/-- C85: every text is the sign of an entry of the matrix: the one with row and column exchanged. -/
theorem C85_marks {dims : Nat × Nat} {s : FS} {n : Nat} {data : Nat → Nat → Option K} {name : Str}
    {g : Grid K} (h : singleGrid (.ok dims) s n data name = .ok g) (m : Mark) :
    m ∈ g.marks ↔ m.x < dims.1 ∧ m.y < dims.1 ∧ IsSign (g.square m.y m.x) m.text := by
  obtain ⟨A, N⟩ := dims
  have hA : A ≤ n := by
    by_contra hA
    simp [singleGrid, bind, Except.bind, annotate, hA] at h
  rw [singleGrid_eq s hA] at h
  cases h
  simp only [gridOf]
  rw [mem_allMarks]
  constructor
  · rintro ⟨h1, h2, h3⟩
    refine ⟨h1, h2, ?_⟩
    rw [h3]
    exact isSign_signMark _
  · rintro ⟨h1, h2, h3⟩
    exact ⟨h1, h2, isSign_unique h3 (isSign_signMark _)⟩

/-- C85: for a symmetric matrix, and a sampling model with the same number of surfaces, every square has
the sign of its own number. -/
theorem C85_marks_partial {n N : Nat} {s : FS} {data : Nat → Nat → Option K} {name : Str} {g : Grid K}
    (h : singleGrid (.ok (n, N)) s n data name = .ok g) (hsym : ∀ i < n, ∀ j < n, data i j = data j i) :
    MarksCorrect g := by
  have hm := C85_marks h
  rw [singleGrid_eq s le_rfl] at h
  cases h
  refine ⟨fun x hx y hy => ⟨_, (hm ⟨x, y, signMark (data x y)⟩).2 ⟨hx, hy, isSign_signMark _⟩⟩,
    fun m hmm => ?_⟩
  obtain ⟨h1, h2, h3⟩ := (hm m).1 hmm
  refine ⟨h1, h2, ?_⟩
  simp only [gridOf] at h3 ⊢
  rw [hsym m.y h2 m.x h1]
  exact h3

/-- C85, refuted: if two opposite entries of the matrix have different signs, squares have wrong
signs. -/
theorem C85_marks_refuted {n N : Nat} {s : FS} {data : Nat → Nat → Option K} {name : Str} {g : Grid K}
    (h : singleGrid (.ok (n, N)) s n data name = .ok g) {i j : Nat} (hi : i < n) (hj : j < n)
    (hne : signMark (data i j) ≠ signMark (data j i)) : ¬ MarksCorrect g := by
  have hm := C85_marks h
  rw [singleGrid_eq s le_rfl] at h
  cases h
  rintro ⟨h1, h2⟩
  obtain ⟨t, ht⟩ := h1 i hi j hj
  obtain ⟨-, -, h3⟩ := h2 _ ht
  obtain ⟨-, -, h4⟩ := (hm _).1 ht
  simp only [gridOf] at h3 h4
  exact hne ((isSign_unique (isSign_signMark _) h4).trans (isSign_unique h3 (isSign_signMark _)))

/-- C85, refuted: with fewer surfaces in the sampling model the last square has no sign, with more
nothing is saved. -/
theorem C85_surfaces_refuted {A N n : Nat} (s : FS) (data : Nat → Nat → Option K) (name : Str)
    (hne : A ≠ n) : (A < n → ∃ g, singleGrid (.ok (A, N)) s n data name = .ok g ∧ ¬ MarksCorrect g) ∧
      (n < A → singleGrid (.ok (A, N)) s n data name = .error .index) := by
  constructor
  · intro hlt
    refine ⟨_, singleGrid_eq s hlt.le data name, ?_⟩
    rintro ⟨h1, -⟩
    obtain ⟨t, ht⟩ := h1 A hlt A hlt
    have := ((mem_allMarks A data ⟨A, A, t⟩).1 ht).1
    simp at this
  · intro hlt
    simp [singleGrid, bind, Except.bind, annotate, Nat.not_le.2 hlt]

/-! ### all figures -/

theorem natStr_pdf {a b : Nat} (h : natStr a ++ c!".pdf" = natStr b ++ c!".pdf") : a = b :=
  natStr_injective (List.append_cancel_right h)

/-- Names of figures of linear terms are different for different modes and models. -/
theorem linearName_inj {kind kind' : Str} (hk : kind = c!"original" ∨ kind = c!"coupled")
    (hk' : kind' = c!"original" ∨ kind' = c!"coupled") {d j j' : Nat}
    (h : linearName kind d j = linearName kind' d j') : kind = kind' ∧ j = j' := by
  unfold linearName at h
  rcases hk with rfl | rfl <;> rcases hk' with rfl | rfl
  · simp only [List.append_assoc, List.append_cancel_left_eq] at h
    exact ⟨rfl, natStr_pdf h⟩
  · simp at h
  · simp at h
  · simp only [List.append_assoc, List.append_cancel_left_eq] at h
    exact ⟨rfl, natStr_pdf h⟩

theorem quadraticName_inj {kind kind' : Str} (hk : kind = c!"original" ∨ kind = c!"coupled")
    (hk' : kind' = c!"original" ∨ kind' = c!"coupled") {d i j i' j' : Nat}
    (h : quadraticName kind d i j = quadraticName kind' d i' j') : kind = kind' ∧ i = i' ∧ j = j' := by
  have key : ∀ i j i' j', natStr i ++ (c!"_N" ++ (natStr j ++ c!".pdf")) =
      natStr i' ++ (c!"_N" ++ (natStr j' ++ c!".pdf")) → i = i' ∧ j = j' := by
    intro i j i' j' h
    have h3 := append_cons_inj (notMem_natStr (c := '_') (by decide) i) (notMem_natStr (c := '_') (by decide) i') h
    refine ⟨natStr_injective h3.1, ?_⟩
    have h4 : natStr j ++ c!".pdf" = natStr j' ++ c!".pdf" := by simpa using h3.2
    exact natStr_pdf h4
  unfold quadraticName at h
  rcases hk with rfl | rfl <;> rcases hk' with rfl | rfl
  · simp only [List.append_assoc, List.append_cancel_left_eq] at h
    exact ⟨rfl, key _ _ _ _ h⟩
  · simp at h
  · simp at h
  · simp only [List.append_assoc, List.append_cancel_left_eq] at h
    exact ⟨rfl, key _ _ _ _ h⟩

/-- C85: for models with the dimensions of the sampling model, plotting the linear terms saves one figure
for each mode of the original and of the coupled model: under its own name, which no other figure has,
and showing the linear terms of that mode. -/
theorem C85_linear {A N : Nat} {s : FS} {orig coup : ModelFile K}
    {o c : Nat → Nat → Nat → Option K} (ho : orig.linear = some o) (hc : coup.linear = some c)
    (hAo : orig.A = A ∧ orig.N = N) (hAc : coup.A = A ∧ coup.N = N) :
    ∃ figs, plotLinear (.ok (A, N)) s orig coup = (figs, none) ∧ figs.length = 2 * N ∧
      (figs.map Grid.path).Nodup ∧ ∀ j < N,
        (∃ g ∈ figs, g.path = join s.pathVibPlots (linearName c!"original" s.idData (j + 1)) ∧
          Shows g A (o j)) ∧
        (∃ g ∈ figs, g.path = join s.pathVibPlots (linearName c!"coupled" s.idData (j + 1)) ∧
          Shows g A (c j)) := by
  have ht : ∀ (kind : Str) (m : ModelFile K) (data : Nat → Nat → Nat → Option K), m.A = A ∧ m.N = N →
      linearTasks (.ok (A, N)) s kind m data = ((List.range N).map fun j =>
        gridOf A s A (data j) (linearName kind s.idData (j + 1))).map Except.ok := by
    rintro kind m data ⟨rfl, rfl⟩
    unfold linearTasks
    rw [List.map_map]
    refine List.map_congr_left fun j hj => ?_
    rw [List.mem_range] at hj
    simp only [if_pos hj]
    rw [singleGrid_eq s le_rfl]
    rfl
  refine ⟨((List.range N).map fun j => gridOf A s A (o j) (linearName c!"original" s.idData (j + 1))) ++
    ((List.range N).map fun j => gridOf A s A (c j) (linearName c!"coupled" s.idData (j + 1))), ?_, ?_, ?_, ?_⟩
  · unfold plotLinear
    rw [ho, hc]
    simp only [ht _ _ _ hAo, ht _ _ _ hAc]
    rw [← List.map_append, saveAll_ok]
  · simp; omega
  · have inj : ∀ kind kind' : Str, (kind = c!"original" ∨ kind = c!"coupled") →
        (kind' = c!"original" ∨ kind' = c!"coupled") → ∀ j j',
        join s.pathVibPlots (linearName kind s.idData j) =
          join s.pathVibPlots (linearName kind' s.idData j') → kind = kind' ∧ j = j' := by
      intro kind kind' hk hk' j j' h
      refine linearName_inj hk hk' (join_inj ?_ ?_ h)
      · rcases hk with rfl | rfl <;> simp [linearName]
      · rcases hk' with rfl | rfl <;> simp [linearName]
    rw [List.map_append, List.nodup_append]
    simp only [List.map_map, Function.comp_def, gridOf]
    refine ⟨List.Nodup.map_on (fun a _ b _ h => ?_) List.nodup_range,
      List.Nodup.map_on (fun a _ b _ h => ?_) List.nodup_range, ?_⟩
    · have := (inj _ _ (.inl rfl) (.inl rfl) _ _ h).2; omega
    · have := (inj _ _ (.inr rfl) (.inr rfl) _ _ h).2; omega
    · intro a ha b hb hab
      obtain ⟨i, -, rfl⟩ := List.mem_map.1 ha
      obtain ⟨j, -, rfl⟩ := List.mem_map.1 hb
      exact absurd (inj _ _ (.inl rfl) (.inr rfl) _ _ hab).1 (by decide)
  · intro j hj
    refine ⟨⟨_, List.mem_append_left _ (List.mem_map.2 ⟨j, List.mem_range.2 hj, rfl⟩),
      gridOf_shows _ _ _ _ _⟩, ⟨_, List.mem_append_right _ (List.mem_map.2 ⟨j, List.mem_range.2 hj, rfl⟩),
      gridOf_shows _ _ _ _ _⟩⟩

/-- C85: the same for the quadratic terms and every pair of modes. -/
theorem C85_quadratic {A N : Nat} {s : FS} {orig coup : ModelFile K}
    {o c : Nat → Nat → Nat → Nat → Option K} (ho : orig.quadratic = some o) (hc : coup.quadratic = some c)
    (hAo : orig.A = A ∧ orig.N = N) (hAc : coup.A = A ∧ coup.N = N) :
    ∃ figs, plotQuadratic (.ok (A, N)) s orig coup = (figs, none) ∧ figs.length = 2 * (N * N) ∧
      (figs.map Grid.path).Nodup ∧ ∀ i < N, ∀ j < N,
        (∃ g ∈ figs, g.path = join s.pathVibPlots (quadraticName c!"original" s.idData (i + 1) (j + 1)) ∧
          Shows g A (o i j)) ∧
        (∃ g ∈ figs, g.path = join s.pathVibPlots (quadraticName c!"coupled" s.idData (i + 1) (j + 1)) ∧
          Shows g A (c i j)) := by
  let pairs := (List.range N).flatMap fun i => (List.range N).map fun j => (i, j)
  have hpairs : ∀ p : Nat × Nat, p ∈ pairs ↔ p.1 < N ∧ p.2 < N := by
    rintro ⟨i, j⟩
    simp only [pairs, List.mem_flatMap, List.mem_map, List.mem_range, Prod.mk.injEq]
    constructor
    · rintro ⟨a, ha, b, hb, rfl, rfl⟩; exact ⟨ha, hb⟩
    · rintro ⟨ha, hb⟩; exact ⟨i, ha, j, hb, rfl, rfl⟩
  have hnd : pairs.Nodup := by
    rw [List.nodup_flatMap]
    refine ⟨fun i _ => List.Nodup.map_on (fun a _ b _ h => (Prod.mk.inj h).2) List.nodup_range, ?_⟩
    refine List.Pairwise.imp ?_ List.nodup_range
    intro a b hab
    rw [Function.onFun, List.disjoint_left]
    intro p hp hq
    obtain ⟨_, -, rfl⟩ := List.mem_map.1 hp
    obtain ⟨_, -, e⟩ := List.mem_map.1 hq
    exact hab (Prod.mk.inj e).1.symm
  have hlen : pairs.length = N * N := by simp [pairs, List.length_flatMap]
  have ht : ∀ (kind : Str) (m : ModelFile K) (data : Nat → Nat → Nat → Nat → Option K),
      m.A = A ∧ m.N = N → quadraticTasks (.ok (A, N)) s kind m data = (pairs.map fun p =>
        gridOf A s A (data p.1 p.2) (quadraticName kind s.idData (p.1 + 1) (p.2 + 1))).map Except.ok := by
    rintro kind m data ⟨rfl, rfl⟩
    unfold quadraticTasks
    simp only [pairs, List.map_flatMap, List.map_map]
    refine List.flatMap_congr fun i hi => List.map_congr_left fun j hj => ?_
    rw [List.mem_range] at hi hj
    simp only [if_pos (And.intro hi hj)]
    rw [singleGrid_eq s le_rfl]
    rfl
  refine ⟨(pairs.map fun p => gridOf A s A (o p.1 p.2)
      (quadraticName c!"original" s.idData (p.1 + 1) (p.2 + 1))) ++
    (pairs.map fun p => gridOf A s A (c p.1 p.2)
      (quadraticName c!"coupled" s.idData (p.1 + 1) (p.2 + 1))), ?_, ?_, ?_, ?_⟩
  · unfold plotQuadratic
    rw [ho, hc]
    simp only [ht _ _ _ hAo, ht _ _ _ hAc]
    rw [← List.map_append, saveAll_ok]
  · simp [hlen]; omega
  · have inj : ∀ kind kind' : Str, (kind = c!"original" ∨ kind = c!"coupled") →
        (kind' = c!"original" ∨ kind' = c!"coupled") → ∀ i j i' j',
        join s.pathVibPlots (quadraticName kind s.idData i j) =
          join s.pathVibPlots (quadraticName kind' s.idData i' j') → kind = kind' ∧ i = i' ∧ j = j' := by
      intro kind kind' hk hk' i j i' j' h
      refine quadraticName_inj hk hk' (join_inj ?_ ?_ h)
      · rcases hk with rfl | rfl <;> simp [quadraticName]
      · rcases hk' with rfl | rfl <;> simp [quadraticName]
    rw [List.map_append, List.nodup_append]
    simp only [List.map_map, Function.comp_def, gridOf]
    refine ⟨List.Nodup.map_on (fun a _ b _ h => ?_) hnd, List.Nodup.map_on (fun a _ b _ h => ?_) hnd, ?_⟩
    · have := (inj _ _ (.inl rfl) (.inl rfl) _ _ _ _ h).2
      exact Prod.ext (by omega) (by omega)
    · have := (inj _ _ (.inr rfl) (.inr rfl) _ _ _ _ h).2
      exact Prod.ext (by omega) (by omega)
    · intro a ha b hb hab
      obtain ⟨i, -, rfl⟩ := List.mem_map.1 ha
      obtain ⟨j, -, rfl⟩ := List.mem_map.1 hb
      exact absurd (inj _ _ (.inl rfl) (.inr rfl) _ _ _ _ hab).1 (by decide)
  · intro i hi j hj
    have hm : (i, j) ∈ pairs := (hpairs (i, j)).2 ⟨hi, hj⟩
    exact ⟨⟨_, List.mem_append_left _ (List.mem_map.2 ⟨(i, j), hm, rfl⟩), gridOf_shows _ _ _ _ _⟩,
      ⟨_, List.mem_append_right _ (List.mem_map.2 ⟨(i, j), hm, rfl⟩), gridOf_shows _ _ _ _ _⟩⟩

/-- C85: the energies of the original and of the coupled model are shown under two different names. -/
theorem C85_energy {A N : Nat} {s : FS} {orig coup : ModelFile K} {o c : Nat → Nat → Option K}
    (ho : orig.energy = some o) (hc : coup.energy = some c) (hAo : orig.A = A) (hAc : coup.A = A) :
    ∃ g g', plotEnergy (.ok (A, N)) s orig coup = ([g, g'], none) ∧ g.path ≠ g'.path ∧
      g.path = join s.pathVibPlots (energyName c!"original" s.idData) ∧ Shows g A o ∧
      g'.path = join s.pathVibPlots (energyName c!"coupled" s.idData) ∧ Shows g' A c := by
  refine ⟨gridOf A s A o (energyName c!"original" s.idData),
    gridOf A s A c (energyName c!"coupled" s.idData), ?_, ?_, rfl, (gridOf_shows ..).2, rfl,
    (gridOf_shows ..).2⟩
  · unfold plotEnergy energyTask
    rw [ho, hc, hAo, hAc]
    simp only [singleGrid_eq s le_rfl, saveAll]
    rfl
  · intro h
    have := join_inj (dir := s.pathVibPlots) (a := energyName c!"original" s.idData)
      (b := energyName c!"coupled" s.idData) (by simp [energyName]) (by simp [energyName]) h
    simp [energyName] at this

/-- Figures are saved up to the first that fails, whose exception is raised; nothing is reported only
if all were saved. -/
theorem saveAll_iff : ∀ (ts : List (Except Err (Grid K))) (gs : List (Grid K)) (e : Option Err),
    saveAll ts = (gs, e) ↔ (e = none ∧ ts = gs.map Except.ok) ∨
      (∃ x rest, e = some x ∧ ts = gs.map Except.ok ++ .error x :: rest) := by
  intro ts
  induction ts with
  | nil =>
    intro gs e
    simp only [saveAll, Prod.mk.injEq]
    constructor
    · rintro ⟨rfl, rfl⟩; simp
    · rintro (⟨rfl, h⟩ | ⟨x, rest, -, h⟩)
      · simpa using h
      · simp at h
  | cons t ts ih =>
    intro gs e
    cases t with
    | error x =>
      simp only [saveAll, Prod.mk.injEq]
      constructor
      · rintro ⟨rfl, rfl⟩
        exact .inr ⟨x, ts, rfl, rfl⟩
      · rintro (⟨rfl, h⟩ | ⟨y, rest, rfl, h⟩)
        · cases gs <;> simp at h
        · cases gs with
          | nil => simp at h; simp [h.1]
          | cons g gs => simp at h
    | ok g =>
      simp only [saveAll, Prod.mk.injEq]
      constructor
      · rintro ⟨rfl, rfl⟩
        rcases (ih _ _).1 rfl with ⟨h1, h2⟩ | ⟨x, rest, h1, h2⟩
        · exact .inl ⟨h1, by rw [List.map_cons, ← h2]⟩
        · exact .inr ⟨x, rest, h1, by rw [List.map_cons, List.cons_append, ← h2]⟩
      · rintro (⟨rfl, h⟩ | ⟨x, rest, rfl, h⟩)
        · cases gs with
          | nil => simp at h
          | cons g' gs =>
            simp only [List.map_cons, List.cons.injEq, Except.ok.injEq] at h
            have := (ih gs none).2 (.inl ⟨rfl, h.2⟩)
            simp [this, h.1]
        · cases gs with
          | nil => simp at h
          | cons g' gs =>
            simp only [List.map_cons, List.cons_append, List.cons.injEq, Except.ok.injEq] at h
            have := (ih gs (some x)).2 (.inr ⟨x, rest, rfl, h.2⟩)
            simp [this, h.1]

/-- C85: a model file without energies is reported; if it is the coupled one, the figure of the
original model has been saved. -/
theorem C85_missing_energy {A N : Nat} {s : FS} {orig coup : ModelFile K} (hAo : orig.A = A) :
    (orig.energy = none → plotEnergy (.ok (A, N)) s orig coup = ([], some .key)) ∧
    (∀ o, orig.energy = some o → coup.energy = none → ∃ g,
      plotEnergy (.ok (A, N)) s orig coup = ([g], some .key) ∧ Shows g A o) := by
  constructor
  · intro h
    simp [plotEnergy, energyTask, h, saveAll]
  · intro o ho hc
    refine ⟨gridOf A s A o (energyName c!"original" s.idData), ?_, (gridOf_shows ..).2⟩
    unfold plotEnergy energyTask
    rw [ho, hc, hAo]
    simp only [singleGrid_eq s le_rfl, saveAll]
    rfl

/-- C85: whenever a call ends without an exception, every figure it should draw was saved; and when it
ends with one, no figure after the failing one was. -/
theorem C85_failures_reported {dims : Except Err (Nat × Nat)} {s : FS} {orig coup : ModelFile K}
    {o c : Nat → Nat → Nat → Option K} (ho : orig.linear = some o) (hc : coup.linear = some c)
    (gs : List (Grid K)) (e : Option Err) (h : plotLinear dims s orig coup = (gs, e)) :
    let tasks := linearTasks dims s c!"original" orig o ++ linearTasks dims s c!"coupled" coup c
    (e = none ∧ tasks = gs.map Except.ok) ∨
      (∃ x rest, e = some x ∧ tasks = gs.map Except.ok ++ .error x :: rest) := by
  unfold plotLinear at h
  rw [hc, ho] at h
  exact (saveAll_iff _ _ _).1 h

open Classical in
theorem saveAll_index (ts : List (Except Err (Grid K))) (h : ∀ t ∈ ts, t = .error .index ∨ ∃ g, t = .ok g) :
    (saveAll ts).2 = if (.error .index ∈ ts) then some Err.index else none := by
  classical
  induction ts with
  | nil => rfl
  | cons t ts ih =>
    have ih := ih fun t ht => h t (List.mem_cons_of_mem _ ht)
    rcases h t List.mem_cons_self with rfl | ⟨g, rfl⟩
    · simp [saveAll]
    · simp [saveAll, ih]

theorem linearTasks_bad (A N : Nat) (s : FS) (kind : Str) (m : ModelFile K)
    (data : Nat → Nat → Nat → Option K) :
    (∀ t ∈ linearTasks (.ok (A, N)) s kind m data, t = .error .index ∨ ∃ g, t = .ok g) ∧
    (.error .index ∈ linearTasks (.ok (A, N)) s kind m data ↔ 0 < N ∧ ¬ (A ≤ m.A ∧ N ≤ m.N)) := by
  have hs : ∀ data name, singleGrid (.ok (A, N)) s m.A data name = (if A ≤ m.A then
      .ok (gridOf A s m.A data name) else .error .index : Except Err (Grid K)) := by
    intro data name
    split
    · next h => exact singleGrid_eq s h data name
    · next h => simp [singleGrid, bind, Except.bind, annotate, h]
  simp only [linearTasks, hs, List.mem_map, List.mem_range]
  constructor
  · rintro t ⟨j, -, rfl⟩
    split_ifs <;> simp
  · constructor
    · rintro ⟨j, hj, h⟩
      refine ⟨by omega, fun ⟨h1, h2⟩ => ?_⟩
      rw [if_pos (by omega), if_pos h1] at h
      cases h
    · rintro ⟨h0, h1⟩
      refine ⟨N - 1, by omega, ?_⟩
      split_ifs with h2 h3
      · exact absurd ⟨h3, by omega⟩ h1
      · rfl
      · rfl

theorem quadraticTasks_bad (A N : Nat) (s : FS) (kind : Str) (m : ModelFile K)
    (data : Nat → Nat → Nat → Nat → Option K) :
    (∀ t ∈ quadraticTasks (.ok (A, N)) s kind m data, t = .error .index ∨ ∃ g, t = .ok g) ∧
    (.error .index ∈ quadraticTasks (.ok (A, N)) s kind m data ↔ 0 < N ∧ ¬ (A ≤ m.A ∧ N ≤ m.N)) := by
  have hs : ∀ data name, singleGrid (.ok (A, N)) s m.A data name = (if A ≤ m.A then
      .ok (gridOf A s m.A data name) else .error .index : Except Err (Grid K)) := by
    intro data name
    split
    · next h => exact singleGrid_eq s h data name
    · next h => simp [singleGrid, bind, Except.bind, annotate, h]
  simp only [quadraticTasks, hs, List.mem_map, List.mem_flatMap, List.mem_range]
  constructor
  · rintro t ⟨i, -, j, -, rfl⟩
    split_ifs <;> simp
  · constructor
    · rintro ⟨i, hi, j, hj, h⟩
      refine ⟨by omega, fun ⟨h1, h2⟩ => ?_⟩
      rw [if_pos (by omega), if_pos h1] at h
      cases h
    · rintro ⟨h0, h1⟩
      refine ⟨N - 1, by omega, N - 1, by omega, ?_⟩
      split_ifs with h2 h3
      · exact absurd ⟨h3, by omega⟩ h1
      · rfl
      · rfl

/-- C85: plotting stops with an `IndexError` exactly when one of the models has fewer surfaces or modes
than the sampling model, from which the dimensions are taken. -/
theorem C85_smaller_models {A N : Nat} {s : FS} {orig coup : ModelFile K} (hN : 0 < N) :
    (∀ o c, orig.linear = some o → coup.linear = some c → (plotLinear (.ok (A, N)) s orig coup).2 =
      if (A ≤ orig.A ∧ N ≤ orig.N) ∧ A ≤ coup.A ∧ N ≤ coup.N then none else some .index) ∧
    (∀ o c, orig.quadratic = some o → coup.quadratic = some c →
      (plotQuadratic (.ok (A, N)) s orig coup).2 =
      if (A ≤ orig.A ∧ N ≤ orig.N) ∧ A ≤ coup.A ∧ N ≤ coup.N then none else some .index) := by
  constructor
  · intro o c ho hc
    have h1 := linearTasks_bad A N s c!"original" orig o
    have h2 := linearTasks_bad A N s c!"coupled" coup c
    unfold plotLinear
    rw [hc, ho]
    simp only
    rw [saveAll_index _ (by
      intro t ht
      rcases List.mem_append.1 ht with ht | ht
      · exact h1.1 t ht
      · exact h2.1 t ht)]
    simp only [List.mem_append, h1.2, h2.2, hN, true_and]
    split_ifs <;> first | rfl | (exfalso; tauto)
  · intro o c ho hc
    have h1 := quadraticTasks_bad A N s c!"original" orig o
    have h2 := quadraticTasks_bad A N s c!"coupled" coup c
    unfold plotQuadratic
    rw [hc, ho]
    simp only
    rw [saveAll_index _ (by
      intro t ht
      rcases List.mem_append.1 ht with ht | ht
      · exact h1.1 t ht
      · exact h2.1 t ht)]
    simp only [List.mem_append, h1.2, h2.2, hN, true_and]
    split_ifs <;> first | rfl | (exfalso; tauto)

example (s : FS) : (plotQuadratic (.ok (2, 3)) s
    (⟨2, 3, none, none, some fun _ _ _ _ => some 1⟩ : ModelFile Int) ⟨2, 2, none, none, some fun _ _ _ _ => some 1⟩).2 = some .index := by
  rw [(C85_smaller_models (by omega)).2 _ _ rfl rfl, if_neg (by decide)]

/-- C85: when a model has no terms of the order, no figure of that order is saved and the user is told;
if only the original model has no linear terms, by a `KeyError`. -/
theorem C85_missing_terms (dims : Except Err (Nat × Nat)) (s : FS) (orig coup : ModelFile K) :
    (coup.linear = none → plotLinear dims s orig coup = ([], some .exception)) ∧
    (orig.linear = none → coup.linear ≠ none → plotLinear dims s orig coup = ([], some .key)) ∧
    (orig.quadratic = none ∨ coup.quadratic = none →
      plotQuadratic dims s orig coup = ([], some .exception)) := by
  refine ⟨fun h => by simp [plotLinear, h], fun h h' => ?_, fun h => ?_⟩
  · unfold plotLinear
    cases hc : coup.linear with
    | none => exact absurd hc h'
    | some c => rw [h]
  · unfold plotQuadratic
    rcases h with h | h <;> rw [h]
    cases coup.quadratic <;> rfl

end

/-- Two surfaces, one mode, with a negative coupling. -/
def demoModel : ModelFile ℤ :=
  ⟨2, 1, none, some fun _ a b => some (if a = b then 1 else -1), none⟩

example (s : FS) : ∃ figs, plotLinear (.ok (2, 1)) s demoModel demoModel = (figs, none) ∧
    figs.length = 2 := by
  obtain ⟨figs, h1, h2, -⟩ := C85_linear (s := s) (orig := demoModel) (coup := demoModel) (A := 2)
    (N := 1) rfl rfl ⟨rfl, rfl⟩ ⟨rfl, rfl⟩
  exact ⟨figs, h1, h2⟩

/-- A matrix with opposite signs above and below the diagonal is marked wrongly. -/
example (s : FS) (name : Str) : ∃ g, singleGrid (.ok (2, 1)) s 2
    (fun a b => some ((a : ℤ) - b)) name = .ok g ∧ ¬ MarksCorrect g :=
  ⟨_, singleGrid_eq s le_rfl _ _, C85_marks_refuted (N := 1) (i := 0) (j := 1) (singleGrid_eq s le_rfl _ _)
    (by decide) (by decide) (by decide)⟩

/-- For a symmetric matrix the marks are right. -/
example (s : FS) (name : Str) : ∃ g, singleGrid (.ok (2, 1)) s 2
    (fun a b => some ((a : ℤ) + b - 1)) name = .ok g ∧ MarksCorrect g :=
  ⟨_, singleGrid_eq s le_rfl _ _, C85_marks_partial (N := 1) (singleGrid_eq s le_rfl _ _)
    (by intro i _ j _; simp [Int.add_comm])⟩

/-- With other numbers of surfaces in the two model files the grid is wrong, or not drawn. -/
example (s : FS) (name : Str) : singleGrid (.ok (3, 1)) s 2 (fun a b => some ((a : ℤ) + b)) name
    = .error .index := (C85_surfaces_refuted s _ name (by decide)).2 (by decide)

end Pibronic.Props.Grids
