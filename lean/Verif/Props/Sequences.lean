import Verif.Model.Sequences
import Verif.Props.Orthonormal

set_option autoImplicit false

/-!
# Generated sequence files (C74) and data for plots (C100, C101)
-/
namespace Pibronic.Props.Sequences

open Pibronic.Py Pibronic.Orthonormal Pibronic.Sequences Pibronic.Spec.Orthonormal
open Pibronic.Props.Orthonormal

/-! ### reading -/

theorem mapM_ok {α β : Type} (f : α → Except Err β) (g : α → β) (l : List α) (h : ∀ a ∈ l, f a = .ok (g a)) :
    l.mapM f = .ok (l.map g) := by
  induction l with
  | nil => rfl
  | cons a l ih =>
    rw [List.mapM_cons, h a (by simp), ih fun b hb => h b (by simp [hb])]
    rfl

theorem mapM_error {α β : Type} (f : α → Except Err β) (e : Err) (l : List α)
    (hf : ∀ a ∈ l, ∀ e', f a = .error e' → e' = e) (h : ∃ a ∈ l, ∃ e', f a = .error e') :
    l.mapM f = .error e := by
  induction l with
  | nil => obtain ⟨a, ha, -⟩ := h; cases ha
  | cons a l ih =>
    rw [List.mapM_cons]
    cases ha : f a with
    | error e' => rw [hf a (by simp) e' ha]; rfl
    | ok b =>
      obtain ⟨c, hc, e', he'⟩ := h
      rcases List.mem_cons.mp hc with rfl | hc
      · rw [ha] at he'; cases he'
      · rw [show (l.mapM f) = .error e from
          ih (fun x hx => hf x (by simp [hx])) ⟨c, hc, e', he'⟩]
        rfl

theorem numbers_error (r : Row) (e : Err) (h : numbers r = .error e) : e = .value := by
  induction r with
  | nil => cases h
  | cons c r ih =>
    cases c with
    | none => cases h; rfl
    | some x =>
      rw [numbers] at h
      cases hr : numbers r with
      | ok y => rw [hr] at h; cases h
      | error e' => rw [hr] at h; cases h; exact ih hr

/-- A file of two columns is read as the look-up expects. -/
theorem create_twoColumns (dir : Dir) (order : ℤ) (t : ℝ) (rows : List (ℝ × ℝ))
    (h : dir.data order = some (rows.map twoColumns)) :
    Sequences.create dir order t = Orthonormal.create (fun _ => some rows) order t := by
  have h1 : (rows.map twoColumns).mapM numbers = .ok (rows.map fun r => [r.1, r.2]) := by
    rw [mapM_ok numbers (fun r => r.map fun c => c.getD 0)]
    · simp [twoColumns]
    · intro r hr
      obtain ⟨p, -, rfl⟩ := List.mem_map.mp hr
      rfl
  have h2 : (rows.map fun r => [r.1, r.2]).mapM firstTwo = .ok rows := by
    rw [mapM_ok firstTwo (fun r => (r.getD 0 0, r.getD 1 0))]
    · simp [Function.comp_def]
    · intro r hr
      obtain ⟨p, -, rfl⟩ := List.mem_map.mp hr
      rfl
  unfold Sequences.create Orthonormal.create loadSequence loadRows
  rw [h]
  simp only [h1]
  simp only [bind, Except.bind, h2]

theorem saveRows_data (order : ℤ) (rows : List Row) (dir : Dir) (h : 50 ≤ rows.length) :
    (saveRows order rows dir).1 = .ok () ∧ (saveRows order rows dir).2.data order = some rows := by
  unfold saveRows
  rw [if_pos h]
  simp

/-! ### C74: histories of generations -/

/-- what `generate_full_monotonic_sequence` leaves in the file -/
theorem full_data (bins : ℕ) (hb : bins = nBins) (order : ℤ) (dir : Dir) (h2 : 2 ≤ order)
    (h15 : order ≤ 15) (h : (run bins .full order dir).1 = .ok ()) :
    ∃ rows, generate (distance order.toNat) order.toNat bins = .ok rows ∧
      (run bins .full order dir).2.data order = some (rows.map twoColumns) ∧
      Proper rows ∧ Records order.toNat rows := by
  unfold run buildSKSM at h ⊢
  rw [if_pos (by omega)] at h ⊢
  simp only at h ⊢
  cases hx : xPairs (turningPoints (distance order.toNat) (linspace 0 100 bins)) with
  | error e => rw [hx] at h; cases h
  | ok pairs =>
    rw [hx] at h
    simp only at h ⊢
    cases hg : generate (distance order.toNat) order.toNat bins with
    | error e => rw [hg] at h; cases h
    | ok rows =>
      obtain ⟨hp, hr, hl⟩ := C74_generated order.toNat rows (by omega) (by omega)
        (by rw [hb] at hg; exact hg)
      exact ⟨rows, rfl, (saveRows_data order _ _ (by rw [List.length_map]; exact hl)).2, hp, hr⟩

/-- `generate_full_monotonic_sequence` for orders two to fifteen: when it succeeds, every tuning
parameter in `[0, 1]` gives a rotation afterwards; the larger the parameter, the farther it is from the
identity. -/
theorem C74_usable (order : ℤ) (dir : Dir) (h2 : 2 ≤ order) (h15 : order ≤ 15)
    (h : (run nBins .full order dir).1 = .ok ()) (t t' : ℝ) (h0 : 0 ≤ t) (htt : t ≤ t') (h1 : t' ≤ 1) :
    ∃ M M', Sequences.create (run nBins .full order dir).2 order t = .ok M ∧
      Sequences.create (run nBins .full order dir).2 order t' = .ok M' ∧
      M * M.transpose = 1 ∧ M' * M'.transpose = 1 ∧ fromIdentity M ≤ fromIdentity M' := by
  obtain ⟨rows, -, hd, hp, hr⟩ := full_data nBins rfl order dir h2 h15 h
  rw [create_twoColumns _ _ _ _ hd, create_twoColumns _ _ _ _ hd]
  obtain ⟨M, M', hM, hM', hle, -⟩ :=
    C09_distance (fun _ => some rows) order t t' rows (by omega) h0 htt h1 rfl hp hr
  obtain ⟨N, hN, hN', -⟩ := C09_orthonormal (fun _ => some rows) order t rows (by omega) h0 (htt.trans h1) rfl hp
  obtain ⟨N₂, hN₂, hN₂', -⟩ :=
    C09_orthonormal (fun _ => some rows) order t' rows (by omega) (h0.trans htt) h1 rfl hp
  rw [hM] at hN
  cases hN
  rw [hM'] at hN₂
  cases hN₂
  exact ⟨M, M', hM, hM', hN', hN₂', hle⟩

theorem full_two_aux (bins : ℕ) (rows : List (ℝ × ℝ)) (hg : generate (distance 2) 2 bins = .ok rows)
    (dir : Dir) : (run bins .full 2 dir).1 = .ok () := by
  obtain ⟨I, b, hI, -, -, hl⟩ := generate_ok hg
  unfold run buildSKSM
  rw [if_pos (by norm_num)]
  simp only
  rw [show (2 : ℤ).toNat = 2 from rfl, hI]
  simp only
  rw [hg]
  exact (saveRows_data 2 _ _ (by rw [List.length_map]; exact hl)).1

/-- The generation succeeds for order two, whatever files there are, so that the hypothesis of the
theorem above is met. -/
theorem C74_order_two_saved (dir : Dir) : (run nBins .full 2 dir).1 = .ok () := by
  obtain ⟨rows, hg, -, -⟩ := C74_order_two
  exact full_two_aux nBins rows hg dir

theorem linspace_length (a b : ℝ) (n : ℕ) : (linspace a b n).length = n := by simp [linspace]

/-! ### C74: the sequence up to the first turn -/

theorem firstTurn_some (dist : ℝ → ℝ) (xs : List ℝ) (old : ℝ) :
    (∃ k x y, firstTurn dist (some (dist old, old)) xs = .ok (dist x, x) ∧ (old :: xs)[k]? = some x ∧
        (old :: xs)[k + 1]? = some y ∧ dist y < dist x ∧
        ∀ j < k, ∀ a b, (old :: xs)[j]? = some a → (old :: xs)[j + 1]? = some b → dist a ≤ dist b) ∨
      firstTurn dist (some (dist old, old)) xs = .error .assertion ∧
        ∀ j a b, (old :: xs)[j]? = some a → (old :: xs)[j + 1]? = some b → dist a ≤ dist b := by
  induction xs generalizing old with
  | nil => right; exact ⟨rfl, fun j a b _ hb => by simp at hb⟩
  | cons x xs ih =>
    rw [firstTurn]
    by_cases h : dist x < dist old
    · left
      rw [if_pos h]
      exact ⟨0, old, x, rfl, rfl, rfl, h, fun j hj => absurd hj (by omega)⟩
    · rw [if_neg h]
      rcases ih x with ⟨k, z, y, h1, h2, h3, h4, h5⟩ | ⟨h1, h2⟩
      · left
        refine ⟨k + 1, z, y, h1, by simpa using h2, by simpa using h3, h4, fun j hj a b ha hb => ?_⟩
        cases j with
        | zero => simp at ha hb; subst ha hb; exact not_lt.mp h
        | succ j => exact h5 j (by omega) a b (by simpa using ha) (by simpa using hb)
      · right
        refine ⟨h1, fun j a b ha hb => ?_⟩
        cases j with
        | zero => simp at ha hb; subst ha hb; exact not_lt.mp h
        | succ j => exact h2 j a b (by simpa using ha) (by simpa using hb)

/-- `find_first_turn_around_point` returns the last sampled argument before the distance falls for the
first time, or fails when it never falls. -/
theorem C74_first_turn (dist : ℝ → ℝ) (xs : List ℝ) :
    (∃ k x y, firstTurn dist none xs = .ok (dist x, x) ∧ xs[k]? = some x ∧
        xs[k + 1]? = some y ∧ dist y < dist x ∧
        ∀ j < k, ∀ a b, xs[j]? = some a → xs[j + 1]? = some b → dist a ≤ dist b) ∨
      firstTurn dist none xs = .error .assertion ∧
        ∀ j a b, xs[j]? = some a → xs[j + 1]? = some b → dist a ≤ dist b := by
  cases xs with
  | nil => right; exact ⟨rfl, fun j a b ha => by simp at ha⟩
  | cons x xs => exact firstTurn_some dist xs x

/-- For matrices of order one the distance never falls: nothing is written. -/
theorem C74_first_turn_order_one (dir : Dir) : run nBins .firstTurn 1 dir = (.error .assertion, dir) := by
  have hd : ∀ x, distance 1 x = 0 := by
    intro x
    have h := distance_sq_le 1 x
    have h0 := distance_nonneg 1 x
    norm_num at h
    exact h
  have h : firstTurn (distance 1) none (linspace 0 100 nBins) = .error .assertion := by
    rcases C74_first_turn (distance 1) (linspace 0 100 nBins) with ⟨k, x, y, -, -, -, h, -⟩ | ⟨h, -⟩
    · rw [hd, hd] at h; exact absurd h (lt_irrefl _)
    · exact h
  unfold run buildSKSM firstRows
  rw [if_pos one_pos]
  simp only
  rw [show (1 : ℤ).toNat = 1 from rfl, h]
  rfl

theorem linspace_get (b : ℝ) (n i : ℕ) (h : i < n) :
    (linspace 0 b n)[i]? = some ((i : ℝ) * (b / (n - 1))) := by
  rw [linspace_zero]
  simp [h]

theorem distance_two_falling {x y : ℝ} (hx : Real.pi ≤ x) (hxy : x < y) (hy : y ≤ 2 * Real.pi) :
    distance 2 y < distance 2 x := by
  have hr : ∀ z, distance 2 z = distance 2 (2 * Real.pi - z) := by
    intro z
    refine (pow_left_inj₀ (distance_nonneg 2 _) (distance_nonneg 2 _) two_ne_zero).mp ?_
    rw [distance_two_sq, distance_two_sq,
      show (2 * Real.pi - z) / 2 = Real.pi - z / 2 by ring, Real.sin_pi_sub]
  rw [hr y, hr x]
  exact distance_two_lt (by linarith) (by linarith) (by linarith)

theorem first_two_aux (bins : ℕ) (hb : bins = nBins) (dir : Dir) :
    (run bins .firstTurn 2 dir).1 = .ok () ∧ ∃ rows, Proper rows ∧ Records 2 rows ∧
      (run bins .firstTurn 2 dir).2.data 2 = some (rows.map twoColumns) := by
  have hbc : (bins : ℝ) = 10000 := by rw [hb]; norm_num [nBins]
  have hbn : 50 ≤ bins ∧ 402 ≤ bins := by rw [hb]; norm_num [nBins]
  have p1 := Real.pi_gt_d4
  have p2 := Real.pi_lt_d4
  have hfall : ∀ j : ℕ, j = 400 → ¬ distance 2 ((j : ℝ) * (100 / ((bins : ℝ) - 1)))
      ≤ distance 2 (((j + 1 : ℕ) : ℝ) * (100 / ((bins : ℝ) - 1))) := by
    intro j hj
    rw [not_le, hbc, hj]
    push_cast
    exact distance_two_falling (by norm_num; linarith) (by norm_num) (by norm_num; linarith)
  rcases C74_first_turn (distance 2) (linspace 0 100 bins) with ⟨k, x, y, h1, h2, h3, h4, h5⟩ | ⟨-, h⟩
  · have hk : k ≤ 400 := by
      by_contra hk
      refine hfall 400 rfl (h5 400 (by omega) _ _ (linspace_get _ _ _ (by omega)) ?_)
      exact linspace_get _ _ _ (by omega)
    have hx : x = (k : ℝ) * (100 / (bins - 1)) := by
      rw [linspace_get _ _ _ (by omega)] at h2
      exact (Option.some.inj h2).symm
    have hy : y = ((k + 1 : ℕ) : ℝ) * (100 / (bins - 1)) := by
      rw [linspace_get _ _ _ (by omega)] at h3
      exact (Option.some.inj h3).symm
    have hkr : (k : ℝ) ≤ 400 := by exact_mod_cast hk
    have hxpos : 0 < x := by
      rcases Nat.eq_zero_or_pos k with rfl | hpos
      · exfalso
        have := distance_two_lt (x := x) (y := y) (by rw [hx]; simp)
          (by rw [hx, hy, hbc]; norm_num) (by rw [hy, hbc]; norm_num; linarith)
        linarith
      · have : (0 : ℝ) < k := by exact_mod_cast hpos
        rw [hx, hbc]
        norm_num
        linarith
    have hxle : x / 2 ≤ Real.pi := by
      rw [hx, hbc]
      norm_num
      linarith
    have hrows : firstRows (distance 2) bins
        = .ok ((linspace 0 (x / 2) bins).map fun x => (distance 2 x, x)) := by
      unfold firstRows
      rw [h1]
      rfl
    have hrun : run bins .firstTurn 2 dir = saveRows 2
        (((linspace 0 (x / 2) bins).map fun x => (distance 2 x, x)).map twoColumns) dir := by
      unfold run buildSKSM
      rw [if_pos (by norm_num)]
      simp only
      rw [show (2 : ℤ).toNat = 2 from rfl, hrows]
    obtain ⟨hs1, hs2⟩ := saveRows_data 2
      (((linspace 0 (x / 2) bins).map fun x => (distance 2 x, x)).map twoColumns) dir
      (by rw [List.length_map, List.length_map, linspace_length]; omega)
    rw [hrun]
    refine ⟨hs1, _, ⟨?_, ?_⟩, ?_, hs2⟩
    · obtain ⟨t, ht⟩ := linspace_head (x / 2) (n := bins) (by omega)
      rw [ht, List.map_cons, distance_zero]
      rfl
    · rw [List.pairwise_map]
      refine (linspace_pairwise (by linarith) (by omega)).imp_of_mem fun {a b} ha hb hab => ?_
      have ha' := mem_linspace (by omega) (by linarith) ha
      have hb' := mem_linspace (by omega) (by linarith) hb
      exact distance_two_lt ha'.1 hab (by linarith)
    · intro r hr
      obtain ⟨z, -, rfl⟩ := List.mem_map.mp hr
      exact distance_rotation 2 z
  · exact absurd (h 400 _ _ (linspace_get _ _ _ (by omega)) (linspace_get _ _ _ (by omega))) (hfall 400 rfl)

/-- For order two the sequence up to the first turn can be generated as well and is as usable: every
parameter in `[0, 1]` gives a rotation, farther from the identity for larger parameters. -/
theorem C74_first_turn_order_two (dir : Dir) (t t' : ℝ) (h0 : 0 ≤ t) (htt : t ≤ t') (h1 : t' ≤ 1) :
    (run nBins .firstTurn 2 dir).1 = .ok () ∧
    ∃ M M', Sequences.create (run nBins .firstTurn 2 dir).2 2 t = .ok M ∧
      Sequences.create (run nBins .firstTurn 2 dir).2 2 t' = .ok M' ∧
      M * M.transpose = 1 ∧ M' * M'.transpose = 1 ∧ fromIdentity M ≤ fromIdentity M' := by
  obtain ⟨hok, rows, hp, hr, hd⟩ := first_two_aux nBins rfl dir
  refine ⟨hok, ?_⟩
  rw [create_twoColumns _ _ _ _ hd, create_twoColumns _ _ _ _ hd]
  obtain ⟨M, M', hM, hM', hle, -⟩ :=
    C09_distance (fun _ => some rows) 2 t t' rows (by omega) h0 htt h1 rfl hp hr
  obtain ⟨N, hN, hN', -⟩ := C09_orthonormal (fun _ => some rows) 2 t rows (by omega) h0 (htt.trans h1) rfl hp
  obtain ⟨N₂, hN₂, hN₂', -⟩ :=
    C09_orthonormal (fun _ => some rows) 2 t' rows (by omega) (h0.trans htt) h1 rfl hp
  rw [hM] at hN
  cases hN
  rw [hM'] at hN₂
  cases hN₂
  exact ⟨M, M', hM, hM', hN', hN₂', hle⟩

/-! ### C100 -/

theorem run_other (bins : ℕ) (g : Generator) (order other : ℤ) (dir : Dir) (h : other ≠ order) :
    (run bins g order dir).2.data other = dir.data other ∧
      (run bins g order dir).2.pairs other = dir.pairs other := by
  have hs : ∀ rows d, (saveRows order rows d).2.data other = d.data other ∧
      (saveRows order rows d).2.pairs other = d.pairs other := by
    intro rows d
    unfold saveRows
    split <;> simp [h]
  have hp : ∀ pairs d, (savePairs order pairs d).data other = d.data other ∧
      (savePairs order pairs d).pairs other = d.pairs other := by
    intro pairs d
    simp [savePairs, h]
  unfold run
  cases buildSKSM order with
  | error e => exact ⟨rfl, rfl⟩
  | ok _ =>
    cases g with
    | full =>
      simp only
      split
      · exact ⟨rfl, rfl⟩
      · split
        · exact hp _ _
        · exact ⟨(hs _ _).1.trans (hp _ _).1, (hs _ _).2.trans (hp _ _).2⟩
    | firstTurn =>
      simp only
      split
      · exact ⟨rfl, rfl⟩
      · exact hs _ _
    | fullForPlotting => exact ⟨rfl, rfl⟩
    | turnsForPlotting => exact hs _ _
    | normsForPlotting => exact hs _ _

/-- C74: what is refused when a file of the order is read: no file, a cell that is no number, an empty file, rows with a
single column. -/
theorem C74_unusable (dir : Dir) (order : ℤ) (t : ℝ) (ho : 0 < order) (h0 : 0 < t) (h1 : t ≤ 1) :
    (dir.data order = none → Sequences.create dir order t = .error .assertion) ∧
    (∀ row rows, dir.data order = some ((none :: row) :: rows) → Sequences.create dir order t = .error .value) ∧
    (dir.data order = some [] → Sequences.create dir order t = .error .index) ∧
    (∀ x, dir.data order = some [[some x]] → Sequences.create dir order t = .error .index) := by
  refine ⟨fun h => ?_, fun row rows h => ?_, fun h => ?_, fun x h => ?_⟩ <;>
  · unfold Sequences.create buildSKSM loadRows
    rw [if_pos ⟨h0.le, h1⟩, if_pos ho]
    simp [bind, Except.bind, h0.ne', h, numbers, firstTwo, selectPair, h0.le, h1, pure, Except.pure]

/-- C74: fewer than fifty rows are never stored. -/
theorem C74_too_few (bins : ℕ) (order : ℤ) (dir : Dir) (ho : 0 < order) (hb : bins < 50) (g : Generator)
    (hg : g = .turnsForPlotting ∨ g = .normsForPlotting) : run bins g order dir = (.error .assertion, dir) := by
  unfold run buildSKSM
  rw [if_pos ho]
  rcases hg with rfl | rfl
  · simp only
    unfold saveRows turnRows
    rw [List.length_mapIdx, linspace_length, if_neg (by omega)]
  · simp only
    unfold saveRows normRows
    rw [List.length_map, linspace_length, if_neg (by omega)]

/-- What holds: whatever is generated for other orders, in any order and number, the matrices of this
order stay as they were.  Missing: data for plots of the same order, see the refutations. -/
theorem C100_other_orders_partial (bins : ℕ) (history : List (Generator × ℤ)) (order : ℤ) (t : ℝ) (dir : Dir)
    (h : ∀ g ∈ history, g.2 ≠ order) :
    Sequences.create (history.foldl (fun d g => (run bins g.1 g.2 d).2) dir) order t
      = Sequences.create dir order t := by
  have hd : (history.foldl (fun d g => (run bins g.1 g.2 d).2) dir).data order = dir.data order := by
    induction history generalizing dir with
    | nil => rfl
    | cons g history ih =>
      rw [List.foldl_cons, ih _ fun g' hg' => h g' (by simp [hg'])]
      exact (run_other bins g.1 g.2 order dir (fun e => h g (by simp) e.symm)).1
  unfold Sequences.create loadRows
  rw [hd]

/-- `generate_full_monotonic_sequence_for_plotting` never writes anything: it always fails. -/
theorem C100_full_for_plotting (bins : ℕ) (order : ℤ) (dir : Dir) :
    run bins .fullForPlotting order dir = (.error (if 0 < order then .type else .assertion), dir) := by
  unfold run buildSKSM
  split_ifs <;> rfl

theorem linspace_last (b : ℝ) (n : ℕ) (hn : 2 ≤ n) : (linspace 0 b n).getLast? = some b := by
  obtain ⟨m, rfl⟩ : ∃ m, n = m + 2 := ⟨n - 2, by omega⟩
  rw [linspace_zero, List.getLast?_map, List.getLast?_range]
  simp only [Nat.add_eq_zero_iff, OfNat.ofNat_ne_zero, and_false, if_false, Option.map_some, Option.some.injEq]
  have h1 : ((m + 2 - 1 : ℕ) : ℝ) = m + 1 := by push_cast [show m + 2 - 1 = m + 1 by omega]; ring
  have h2 : ((m + 2 : ℕ) : ℝ) - 1 = m + 1 := by push_cast; ring
  rw [h1, h2]
  have : (m : ℝ) + 1 ≠ 0 := by positivity
  field_simp

/-- After `generate_sequences_for_plotting` the parameter one gives the rotation whose *argument* is
the largest recorded *distance*, for every order and whatever was stored before. -/
theorem norms_result (bins : ℕ) (hb : 50 ≤ bins) (order : ℤ) (dir : Dir) (ho : 0 < order) :
    (run bins .normsForPlotting order dir).1 = .ok () ∧
    Sequences.create (run bins .normsForPlotting order dir).2 order 1
      = .ok (rotation order.toNat (fromIdentity (rotation order.toNat 100))) := by
  have hrun : run bins .normsForPlotting order dir = saveRows order (normRows order.toNat bins) dir := by
    unfold run buildSKSM
    rw [if_pos ho]
  obtain ⟨h1, h2⟩ := saveRows_data order (normRows order.toNat bins) dir
    (by unfold normRows; rw [List.length_map, linspace_length]; exact hb)
  rw [hrun]
  refine ⟨h1, ?_⟩
  have e1 : (normRows order.toNat bins).mapM numbers = .ok ((linspace 0 100 bins).map fun x =>
      [oneNorm (NormedSpace.exp (x • sksm order.toNat) - 1), distance order.toNat x,
        infNorm (NormedSpace.exp (x • sksm order.toNat) - 1), x]) := by
    rw [mapM_ok numbers (fun r => r.map fun c => c.getD 0)]
    · unfold normRows
      rw [List.map_map]
      rfl
    · intro r hr
      obtain ⟨p, -, rfl⟩ := List.mem_map.mp hr
      rfl
  have e2 : ((linspace 0 100 bins).map fun x =>
      [oneNorm (NormedSpace.exp (x • sksm order.toNat) - 1), distance order.toNat x,
        infNorm (NormedSpace.exp (x • sksm order.toNat) - 1), x]).mapM firstTwo
      = .ok ((linspace 0 100 bins).map fun x =>
        (oneNorm (NormedSpace.exp (x • sksm order.toNat) - 1), distance order.toNat x)) := by
    rw [mapM_ok firstTwo (fun r => (r.getD 0 0, r.getD 1 0))]
    · rw [List.map_map]
      rfl
    · intro r hr
      obtain ⟨p, -, rfl⟩ := List.mem_map.mp hr
      rfl
  have e3 : ((linspace 0 100 bins).map fun x =>
        (oneNorm (NormedSpace.exp (x • sksm order.toNat) - 1), distance order.toNat x)).getLast?
      = some (oneNorm (NormedSpace.exp ((100 : ℝ) • sksm order.toNat) - 1), distance order.toNat 100) := by
    rw [List.getLast?_map, linspace_last _ _ (by omega)]
    rfl
  unfold Sequences.create buildSKSM loadRows selectPair
  rw [if_pos ⟨zero_le_one, le_rfl⟩, if_pos ho, h2]
  simp only [bind, Except.bind, one_ne_zero, if_false, e1, e2, e3, if_true, zero_le_one, le_refl, and_self]
  rw [if_pos (exp_sksm_close _ _), distance_rotation, sksm_eq_skew]
  rfl

/-- the column of turning points has the word `None` in its first or second place -/
theorem turnColumn_none (x y : ℝ) (xs : List ℝ) (ps : List (Pair ℝ)) :
    (turnColumn (x :: y :: xs) ps).getD 0 none = none ∨ (turnColumn (x :: y :: xs) ps).getD 1 none = none := by
  cases ps with
  | nil => left; simp [turnColumn]
  | cons p ps =>
    rw [turnColumn]
    split
    · right; rfl
    · left; rfl

/-- After `generate_turning_point_sequence_for_plotting` no parameter other than zero is accepted any
more, for every order and whatever was stored before: the file contains the word `None`, which the reader
refuses. -/
theorem turns_result (bins : ℕ) (hb : 50 ≤ bins) (order : ℤ) (dir : Dir) (ho : 0 < order) (t : ℝ)
    (h0 : 0 < t) (h1 : t ≤ 1) :
    (run bins .turnsForPlotting order dir).1 = .ok () ∧
    Sequences.create (run bins .turnsForPlotting order dir).2 order t = .error .value := by
  have hrun : run bins .turnsForPlotting order dir
      = saveRows order (turnRows (distance order.toNat) bins) dir := by
    unfold run buildSKSM
    rw [if_pos ho]
  obtain ⟨hs1, hs2⟩ := saveRows_data order (turnRows (distance order.toNat) bins) dir
    (by unfold turnRows; rw [List.length_mapIdx, linspace_length]; exact hb)
  rw [hrun]
  refine ⟨hs1, ?_⟩
  have e1 : (turnRows (distance order.toNat) bins).mapM numbers = .error .value := by
    apply mapM_error
    · intro r _ e he
      exact numbers_error r e he
    · unfold turnRows
      simp only
      generalize hxs : linspace 0 100 bins = xs
      have hl : xs.length = bins := by rw [← hxs, linspace_length]
      match xs, hl with
      | [], hl => simp at hl; omega
      | [_], hl => simp at hl; omega
      | x :: y :: xs, hl =>
        rcases turnColumn_none x y xs (turningPoints (distance order.toNat) (x :: y :: xs)) with h | h
        · refine ⟨_, List.mem_mapIdx.mpr ⟨0, by simp, rfl⟩, .value, ?_⟩
          rw [h]
          rfl
        · refine ⟨_, List.mem_mapIdx.mpr ⟨1, by simp, rfl⟩, .value, ?_⟩
          rw [h]
          rfl
  unfold Sequences.create buildSKSM loadRows
  rw [if_pos ⟨h0.le, h1⟩, if_pos ho, hs2]
  simp only [bind, Except.bind, h0.ne', if_false, e1]

theorem C100_turns_refuted (order : ℤ) (dir : Dir) (ho : 0 < order) (t : ℝ) (h0 : 0 < t) (h1 : t ≤ 1) :
    (run nBins .turnsForPlotting order dir).1 = .ok () ∧
    Sequences.create (run nBins .turnsForPlotting order dir).2 order t = .error .value :=
  turns_result nBins (by unfold nBins; norm_num) order dir ho t h0 h1

theorem findBest_le (dist : ℝ → ℝ) (best step : ℝ) (xs : List ℝ) (b : ℝ)
    (h : findBest dist best step xs = .ok b) : dist b ≤ best := by
  induction xs with
  | nil => cases h
  | cons x rest ih =>
    unfold findBest at h
    split at h
    · split at h
      · cases h; assumption
      · cases h
    · exact ih h

/-- the rows of the generated file do not go beyond a quarter of the largest distance -/
theorem generate_le {n bins : ℕ} {rows : List (ℝ × ℝ)} (hn1 : 2 ≤ n) (hn : n ≤ 15) (hbins : bins = nBins)
    (h : generate (distance n) n bins = .ok rows) (r : ℝ × ℝ) (hr : r ∈ rows) :
    r.1 ≤ 2 * Real.sqrt n / 4 := by
  obtain ⟨I, b, hI, hb, rfl, hlen⟩ := generate_ok h
  have hbc : (bins : ℝ) = 10000 := by rw [hbins]; norm_num [nBins]
  have h2 : 2 ≤ bins := by rw [hbins]; norm_num [nBins]
  obtain ⟨hm0, hm1⟩ := maxX_bounds (distance n) (distance_nonneg n) h2
  obtain ⟨k, -, hk1, hk2, hk3⟩ := findBest_linspace _ _ _ _ _ hb
  have hs0 : 0 ≤ ((turningPoints (distance n) (linspace 0 100 bins)).getLast?.getD ⟨0, 0⟩).x / ((bins : ℝ) - 1) := by
    rw [hbc]; apply div_nonneg hm0; norm_num
  have hs1 : ((turningPoints (distance n) (linspace 0 100 bins)).getLast?.getD ⟨0, 0⟩).x / ((bins : ℝ) - 1)
      ≤ 100 / 9999 := by
    rw [hbc, div_le_div_iff₀ (by norm_num) (by norm_num)]
    norm_num
    linarith
  have hbpos : 0 < b := by
    rw [hk3]
    exact best_pos (by omega) hn _ hs0 hs1 k hk2
  obtain ⟨x, hx, rfl⟩ := List.mem_map.mp (mem_prune hr)
  obtain ⟨hx0, hxb⟩ := mem_linspace h2 hbpos.le hx
  refine le_trans ?_ (findBest_le _ _ _ _ _ hb)
  rcases hxb.eq_or_lt with e | hlt
  · rw [e]
  · refine (distance_lt hn1 hx0 hlt fun j => ?_).le
    rw [hk3]
    exact best_before_half_turn hn _ hs0 hs1 k hk1 j

theorem distance_two_sin {x : ℝ} (h0 : 0 ≤ x) (h1 : x ≤ 2) :
    2 * Real.sqrt 2 * (x / 2 - (x / 2) ^ 3 / 4) ≤ distance 2 x := by
  have hs : (x / 2) - (x / 2) ^ 3 / 4 ≤ Real.sin (x / 2) := by
    rcases h0.eq_or_lt with e | h
    · simp [← e]
    · have := Real.sin_gt_sub_cube (x := x / 2) (by linarith)
      have h3 : 0 ≤ (x / 2) ^ 3 := by positivity
      linarith
  have hp : 0 ≤ (x / 2) - (x / 2) ^ 3 / 4 := by nlinarith [sq_nonneg (x / 2)]
  have h2 : Real.sqrt 2 ^ 2 = 2 := Real.sq_sqrt (by norm_num)
  have h3 : 0 ≤ 2 * Real.sqrt 2 * (x / 2 - (x / 2) ^ 3 / 4) := by positivity
  refine (pow_le_pow_iff_left₀ h3 (distance_nonneg 2 x) two_ne_zero).mp ?_
  rw [distance_two_sq, mul_pow, mul_pow, h2]
  have := pow_le_pow_left₀ hp hs 2
  linarith

/-- Data for plots change the tuned matrices: for order two, after the sequence has been generated, the
parameter one gives another matrix once `generate_sequences_for_plotting` has run. -/
theorem C100_norms_refuted (dir : Dir) : ∃ M M',
    Sequences.create (run nBins .full 2 dir).2 2 1 = .ok M ∧
    (run nBins .normsForPlotting 2 (run nBins .full 2 dir).2).1 = .ok () ∧
    Sequences.create (run nBins .normsForPlotting 2 (run nBins .full 2 dir).2).2 2 1 = .ok M' ∧
    fromIdentity M < fromIdentity M' := by
  obtain ⟨rows, hg, hd, hp, hr⟩ := full_data nBins rfl 2 dir le_rfl (by norm_num) (C74_order_two_saved dir)
  obtain ⟨h1, h2⟩ := norms_result nBins (by unfold nBins; norm_num) 2 (run nBins .full 2 dir).2 (by norm_num)
  obtain ⟨M, hM, -, -, r, hrm, hMr⟩ :=
    C09_orthonormal (fun _ => some rows) 2 1 rows (by norm_num) zero_le_one le_rfl rfl hp
  refine ⟨M, _, by rw [create_twoColumns _ _ _ _ hd]; exact hM, h1, h2, ?_⟩
  have hle := generate_le (n := 2) le_rfl (by norm_num) rfl hg r hrm
  rw [hMr]
  have e := hr r hrm
  rw [← e]
  refine lt_of_le_of_lt hle ?_
  show _ < fromIdentity (rotation 2 (fromIdentity (rotation 2 100)))
  rw [← distance_rotation, ← distance_rotation]
  have hd1 := distance_two_end
  have hd2 : 7 / 10 ≤ distance 2 100 := by
    have p1 := Real.pi_gt_d4
    have p2 := Real.pi_lt_d4
    have hs := Real.sin_gt_sub_cube (x := 16 * Real.pi - 100 / 2) (by linarith)
    have hy3 : (16 * Real.pi - 100 / 2) ^ 3 ≤ (3 / 10) ^ 3 :=
      pow_le_pow_left₀ (by linarith) (by linarith) 3
    have hs' : 25 / 100 ≤ Real.sin (16 * Real.pi - 100 / 2) := by norm_num at hy3; linarith
    have := pow_le_pow_left₀ (by norm_num) hs' 2
    have e := distance_two_shift 100
    nlinarith [distance_nonneg 2 100]
  have h3 := distance_two_sin (x := distance 2 100) (by linarith) (by linarith)
  have h4 : (distance 2 100 / 2) ^ 3 ≤ (1 / 2) ^ 3 := pow_le_pow_left₀ (by linarith) (by linarith) 3
  have h5 : 0 < Real.sqrt 2 := by positivity
  push_cast
  nlinarith

/-- whatever was stored before: the argument of the rotation is a distance -/
theorem C100_norms_result (order : ℤ) (dir : Dir) (ho : 0 < order) :
    (run nBins .normsForPlotting order dir).1 = .ok () ∧
    Sequences.create (run nBins .normsForPlotting order dir).2 order 1
      = .ok (rotation order.toNat (fromIdentity (rotation order.toNat 100))) :=
  norms_result nBins (by unfold nBins; norm_num) order dir ho

/-! ### C101: the turning points in the data for plots -/

theorem isclose_self (x : ℝ) : isclose x x := by
  unfold isclose
  simp only [sub_self, abs_zero]
  positivity

/-- If the turning points are at the sampled arguments number `i 0 < i 1 < …`, their distances are
written in the rows `i 0`, `i 1 + 1`, `i 2 + 2`, …: one row later for every turning point before. -/
theorem C101_rows_partial (xs : List ℝ) (ps : List (Pair ℝ)) (i : ℕ → ℕ) (hi : StrictMono i)
    (hsep : ∀ (a b : ℕ) (u v : ℝ), a < b → xs[a]? = some u → xs[b]? = some v → ¬ isclose u v)
    (hx : ∀ k p, ps[k]? = some p → xs[i k]? = some p.x) (k : ℕ) (p : Pair ℝ) (hk : ps[k]? = some p) :
    (turnColumn xs ps)[i k + k]? = some (some p.y) := by
  induction xs generalizing ps i k with
  | nil => have := hx k p hk; simp at this
  | cons x xs ih =>
    have hsep' : ∀ (a b : ℕ) (u v : ℝ), a < b → xs[a]? = some u → xs[b]? = some v → ¬ isclose u v :=
      fun a b u v hab hu hv => hsep (a + 1) (b + 1) u v (by omega) (by simpa using hu) (by simpa using hv)
    cases ps with
    | nil => simp at hk
    | cons q ps =>
      rw [turnColumn]
      have hq := hx 0 q rfl
      by_cases h0 : i 0 = 0
      · rw [h0] at hq
        simp at hq
        subst hq
        rw [if_pos (isclose_self _)]
        cases k with
        | zero =>
          rw [h0]
          simp at hk
          subst hk
          rfl
        | succ k =>
          have hpos : ∀ k, 0 < i (k + 1) := fun k => by
            have := hi (show 0 < k + 1 by omega)
            omega
          have e : i (k + 1) + (k + 1) = (i (k + 1) - 1 + k) + 2 := by have := hpos k; omega
          rw [e, List.getElem?_cons_succ, List.getElem?_cons_succ]
          refine ih ps (fun k => i (k + 1) - 1) ?_ hsep' ?_ k (by simpa using hk)
          · intro a b hab
            have := hi (show a + 1 < b + 1 by omega)
            have := hpos a
            show i (a + 1) - 1 < i (b + 1) - 1
            omega
          · intro j r hr
            have := hx (j + 1) r (by simpa using hr)
            have e : i (j + 1) = (i (j + 1) - 1) + 1 := by have := hpos j; omega
            rw [e, List.getElem?_cons_succ] at this
            exact this
      · rw [if_neg (hsep 0 (i 0) x q.x (by omega) rfl hq)]
        have hpos : ∀ k, 0 < i k := fun k => by have := hi.monotone (Nat.zero_le k); omega
        have e : i k + k = (i k - 1 + k) + 1 := by have := hpos k; omega
        rw [e, List.getElem?_cons_succ]
        refine ih (q :: ps) (fun k => i k - 1) ?_ hsep' ?_ k hk
        · intro a b hab
          have := hi hab
          have := hpos a
          show i a - 1 < i b - 1
          omega
        · intro j r hr
          have := hx j r hr
          have e : i j = (i j - 1) + 1 := by have := hpos j; omega
          rw [e, List.getElem?_cons_succ] at this
          exact this

/-- four samples with turning points at the second and the fourth: the second turning point is written
in row 4, after the last row -/
example : (turnColumn [0, 1, 2, 3] [⟨1, 5⟩, ⟨3, 7⟩])[4]? = some (some 7) := by
  have hg : ∀ (a : ℕ) (u : ℝ), ([0, 1, 2, 3] : List ℝ)[a]? = some u → a ≤ 3 ∧ u = a := by
    intro a u h
    match a, h with
    | 0, h => simp at h; simp [← h]
    | 1, h => simp at h; simp [← h]
    | 2, h => simp at h; simp [← h]
    | 3, h => simp at h; simp [← h]
    | a + 4, h => simp at h
  refine C101_rows_partial [0, 1, 2, 3] [⟨1, 5⟩, ⟨3, 7⟩] (fun k => 2 * k + 1) ?_ ?_ ?_ 1 ⟨3, 7⟩ rfl
  · intro a b h
    show 2 * a + 1 < 2 * b + 1
    omega
  · intro a b u v hab hu hv
    obtain ⟨ha, rfl⟩ := hg a u hu
    obtain ⟨hb, rfl⟩ := hg b v hv
    have h1 : (a : ℝ) + 1 ≤ b := by exact_mod_cast hab
    have h2 : (b : ℝ) ≤ 3 := by exact_mod_cast hb
    have h3 : (0 : ℝ) ≤ b := Nat.cast_nonneg b
    unfold isclose
    rw [not_le, abs_of_neg (show (a : ℝ) - b < 0 by linarith), abs_of_nonneg h3]
    norm_num
    linarith
  · intro k p h
    match k, h with
    | 0, h => simp at h; simp [← h]
    | 1, h => simp at h; simp [← h]
    | k + 2, h => simp at h

/-- the column before the first turning point and after it -/
theorem turnColumn_split (pre : List ℝ) (x : ℝ) (post : List ℝ) (p : Pair ℝ) (ps : List (Pair ℝ))
    (h1 : ∀ a ∈ pre, ¬ isclose a p.x) (h2 : isclose x p.x) :
    turnColumn (pre ++ x :: post) (p :: ps)
      = List.replicate pre.length none ++ some p.y :: none :: turnColumn post ps := by
  induction pre with
  | nil => rw [List.nil_append, turnColumn, if_pos h2]; rfl
  | cons a pre ih =>
    rw [List.cons_append, turnColumn, if_neg (h1 a (by simp)), ih fun b hb => h1 b (by simp [hb])]
    rfl

/-- the distance of order two in terms of the offset from an odd multiple of half a turn -/
theorem distance_two_cos (x : ℝ) (m : ℕ) :
    distance 2 x ^ 2 = 8 * (1 - Real.sin (x / 2 - m * Real.pi - Real.pi / 2) ^ 2) := by
  rw [distance_two_sq, ← Real.cos_sq', Real.cos_sub_pi_div_two, Real.sin_sub_nat_mul_pi, mul_pow,
    ← pow_mul, mul_comm m 2, pow_mul]
  norm_num

/-- the sampled arguments -/
noncomputable def step : ℝ := 100 / 9999

theorem near_lt (m : ℕ) (j : ℝ) (h1 : |j * step / 2 - m * Real.pi - Real.pi / 2| ≤ Real.pi / 2)
    (h2 : Real.pi / 2 - 157 * step < |j * step / 2 - m * Real.pi - Real.pi / 2|) :
    distance 2 (j * step) < distance 2 (314 * step) := by
  have p1 := Real.pi_gt_d6
  have p2 := Real.pi_lt_d6
  refine lt_of_pow_lt_pow_left₀ 2 (distance_nonneg 2 _) ?_
  rw [distance_two_cos (j * step) m, distance_two_cos (314 * step) 0]
  have e : 314 * step / 2 - (0 : ℕ) * Real.pi - Real.pi / 2 = -(Real.pi / 2 - 157 * step) := by
    push_cast; ring
  have hpos : 0 < Real.pi / 2 - 157 * step := by unfold step; norm_num; linarith
  have := sin_sq_lt (a := 314 * step / 2 - (0 : ℕ) * Real.pi - Real.pi / 2)
    (b := j * step / 2 - m * Real.pi - Real.pi / 2) (by rw [e, abs_neg, abs_of_pos hpos]; exact h2) h1
  linarith

theorem between_lt (j : ℕ) (h1 : 315 ≤ j) (h2 : j ≤ 2198) :
    distance 2 (j * step) < distance 2 (314 * step) := by
  have p1 := Real.pi_gt_d6
  have p2 := Real.pi_lt_d6
  have c1 : (315 : ℝ) ≤ j := by exact_mod_cast h1
  have c2 : (j : ℝ) ≤ 2198 := by exact_mod_cast h2
  by_cases a1 : j ≤ 628
  · have a1' : (j : ℝ) ≤ 628 := by exact_mod_cast a1
    have hpos : 0 < (j : ℝ) * step / 2 - (0 : ℕ) * Real.pi - Real.pi / 2 := by
      unfold step; push_cast; linarith
    refine near_lt 0 j ?_ ?_ <;> rw [abs_of_pos hpos] <;> unfold step <;> push_cast <;> linarith
  · have a1' : (629 : ℝ) ≤ j := by exact_mod_cast (by omega : 629 ≤ j)
    by_cases a2 : j ≤ 942
    · have a2' : (j : ℝ) ≤ 942 := by exact_mod_cast a2
      have hneg : (j : ℝ) * step / 2 - (1 : ℕ) * Real.pi - Real.pi / 2 < 0 := by
        unfold step; push_cast; linarith
      refine near_lt 1 j ?_ ?_ <;> rw [abs_of_neg hneg] <;> unfold step <;> push_cast <;> linarith
    · have a2' : (943 : ℝ) ≤ j := by exact_mod_cast (by omega : 943 ≤ j)
      by_cases a3 : j ≤ 1256
      · have a3' : (j : ℝ) ≤ 1256 := by exact_mod_cast a3
        have hpos : 0 < (j : ℝ) * step / 2 - (1 : ℕ) * Real.pi - Real.pi / 2 := by
          unfold step; push_cast; linarith
        refine near_lt 1 j ?_ ?_ <;> rw [abs_of_pos hpos] <;> unfold step <;> push_cast <;> linarith
      · have a3' : (1257 : ℝ) ≤ j := by exact_mod_cast (by omega : 1257 ≤ j)
        by_cases a4 : j ≤ 1570
        · have a4' : (j : ℝ) ≤ 1570 := by exact_mod_cast a4
          have hneg : (j : ℝ) * step / 2 - (2 : ℕ) * Real.pi - Real.pi / 2 < 0 := by
            unfold step; push_cast; linarith
          refine near_lt 2 j ?_ ?_ <;> rw [abs_of_neg hneg] <;> unfold step <;> push_cast <;> linarith
        · have a4' : (1571 : ℝ) ≤ j := by exact_mod_cast (by omega : 1571 ≤ j)
          by_cases a5 : j ≤ 1884
          · have a5' : (j : ℝ) ≤ 1884 := by exact_mod_cast a5
            have hpos : 0 < (j : ℝ) * step / 2 - (2 : ℕ) * Real.pi - Real.pi / 2 := by
              unfold step; push_cast; linarith
            refine near_lt 2 j ?_ ?_ <;> rw [abs_of_pos hpos] <;> unfold step <;> push_cast <;> linarith
          · have a5' : (1885 : ℝ) ≤ j := by exact_mod_cast (by omega : 1885 ≤ j)
            have hneg : (j : ℝ) * step / 2 - (3 : ℕ) * Real.pi - Real.pi / 2 < 0 := by
              unfold step; push_cast; linarith
            refine near_lt 3 j ?_ ?_ <;> rw [abs_of_neg hneg] <;> unfold step <;> push_cast <;> linarith

theorem again_ge : distance 2 (314 * step) ≤ distance 2 (2199 * step) := by
  have p1 := Real.pi_gt_d6
  have p2 := Real.pi_lt_d6
  refine (pow_le_pow_iff_left₀ (distance_nonneg 2 _) (distance_nonneg 2 _) two_ne_zero).mp ?_
  rw [distance_two_cos (2199 * step) 3, distance_two_cos (314 * step) 0]
  have e : 314 * step / 2 - (0 : ℕ) * Real.pi - Real.pi / 2 = -(Real.pi / 2 - 157 * step) := by
    push_cast; ring
  have hpos : 0 < Real.pi / 2 - 157 * step := by unfold step; norm_num; linarith
  have hpos' : 0 < 2199 * step / 2 - (3 : ℕ) * Real.pi - Real.pi / 2 := by
    unfold step; push_cast; linarith
  have := sin_sq_lt (b := 314 * step / 2 - (0 : ℕ) * Real.pi - Real.pi / 2)
    (a := 2199 * step / 2 - (3 : ℕ) * Real.pi - Real.pi / 2)
    (by rw [e, abs_neg, abs_of_pos hpos, abs_of_pos hpos']; unfold step; push_cast; linarith)
    (by rw [e, abs_neg, abs_of_pos hpos]; unfold step; linarith)
  linarith

theorem rising (j : ℕ) (h : j ≤ 313) : distance 2 (j * step) < distance 2 ((j + 1 : ℕ) * step) := by
  have p1 := Real.pi_gt_d6
  have c : (j : ℝ) ≤ 313 := by exact_mod_cast h
  refine distance_two_lt ?_ ?_ ?_
  · unfold step; positivity
  · unfold step; push_cast; linarith
  · unfold step; push_cast; linarith

/-- the search up to the first turning point -/
theorem state_before (j : ℕ) (h : j ≤ 314) :
    stateAfter (j + 1) = ⟨false, 0, distance 2 (j * step), j * step, []⟩ := by
  induction j with
  | zero =>
    rw [stateAfter_succ]
    have : stateAfter 0 = ⟨false, 0, 0, 0, []⟩ := by simp [stateAfter]
    rw [this]
    simp [turnStep, distance_zero]
  | succ j ih =>
    rw [stateAfter_succ, ih (by omega)]
    have hr := rising j (by omega)
    unfold turnStep
    rw [show (100 : ℝ) / 9999 = step from rfl]
    simp only [not_lt.mpr hr.le, and_false, if_false, Bool.false_eq_true, false_and]

/-- the search between the first and the second turning point -/
theorem state_between (j : ℕ) (h : j ≤ 1883) : ∃ old x,
    stateAfter (j + 316) = ⟨true, distance 2 (314 * step), old, x, [⟨314 * step, distance 2 (314 * step)⟩]⟩ := by
  induction j with
  | zero =>
    refine ⟨distance 2 ((315 : ℕ) * step), (315 : ℕ) * step, ?_⟩
    · rw [show 0 + 316 = 315 + 1 from rfl, stateAfter_succ, show 315 = 314 + 1 from rfl, state_before 314 le_rfl]
      have hb := between_lt 315 le_rfl (by norm_num)
      unfold turnStep
      rw [show (100 : ℝ) / 9999 = step from rfl]
      rw [if_pos ⟨by simp, by exact_mod_cast hb⟩]
      norm_num
  | succ j ih =>
    obtain ⟨old, x, hs⟩ := ih (by omega)
    refine ⟨distance 2 ((j + 316 : ℕ) * step), (j + 316 : ℕ) * step, ?_⟩
    · rw [show j + 1 + 316 = (j + 316) + 1 from by ring, stateAfter_succ, hs]
      have hb := between_lt (j + 316) (by omega) (by omega)
      unfold turnStep
      rw [show (100 : ℝ) / 9999 = step from rfl]
      simp only [not_true_eq_false, false_and, if_false, not_le.mpr hb, and_false]

theorem found_grows (dist : ℝ → ℝ) (xs : List ℝ) (s : Turn) :
    ∃ rest, (xs.foldl (turnStep dist) s).found = s.found ++ rest := by
  induction xs generalizing s with
  | nil => exact ⟨[], by simp⟩
  | cons x xs ih =>
    rw [List.foldl_cons]
    obtain ⟨rest, hr⟩ := ih (turnStep dist s x)
    rw [hr]
    unfold turnStep
    simp only
    split
    · exact ⟨_, List.append_assoc _ _ _⟩
    · split
      · exact ⟨_, List.append_assoc _ _ _⟩
      · exact ⟨rest, rfl⟩

theorem turns_two (bins : ℕ) (hb : bins = nBins) : ∃ rest, turningPoints (distance 2) (linspace 0 100 bins)
    = ⟨314 * step, distance 2 (314 * step)⟩ :: ⟨2199 * step, distance 2 (2199 * step)⟩ :: rest := by
  obtain ⟨old, x, hs⟩ := state_between 1883 le_rfl
  have h2 : (stateAfter (2199 + 1)).found
      = [⟨314 * step, distance 2 (314 * step)⟩, ⟨2199 * step, distance 2 (2199 * step)⟩] := by
    rw [stateAfter_succ, show 2199 = 1883 + 316 from rfl, hs]
    unfold turnStep
    rw [show (100 : ℝ) / 9999 = step from rfl]
    have := again_ge
    simp only [not_true_eq_false, false_and, if_false]
    rw [if_pos ⟨trivial, by push_cast; norm_num; exact this⟩]
    norm_num
  have hsplit : linspace 0 100 bins = ((List.range 2200).map fun i : ℕ => (i : ℝ) * (100 / 9999)) ++
      ((List.range (bins - 2200)).map fun i : ℕ => ((2200 + i : ℕ) : ℝ) * (100 / 9999)) := by
    have hbc : ((bins : ℝ) - 1) = 9999 := by rw [hb]; norm_num [nBins]
    rw [linspace_zero, hbc]
    have : bins = 2200 + (bins - 2200) := by rw [hb]; norm_num [nBins]
    conv_lhs => rw [this]
    rw [List.range_add, List.map_append, List.map_map]
    rfl
  unfold turningPoints
  rw [hsplit, List.foldl_append]
  obtain ⟨rest, hr⟩ := found_grows (distance 2) ((List.range (bins - 2200)).map fun i : ℕ => ((2200 + i : ℕ) : ℝ) * (100 / 9999))
    (stateAfter 2200)
  refine ⟨rest, ?_⟩
  rw [show (2200 : ℕ) = 2199 + 1 from rfl] at hr ⊢
  exact hr.trans (by rw [h2]; rfl)

theorem grid_separated (a b : ℕ) (hab : a < b) (hb : b < nBins) : ¬ isclose ((a : ℝ) * step) (b * step) := by
  unfold isclose
  have h1 : (a : ℝ) + 1 ≤ b := by exact_mod_cast hab
  have h2 : (b : ℝ) ≤ 9999 := by
    have : b ≤ 9999 := by unfold nBins at hb; omega
    exact_mod_cast this
  have h3 : (0 : ℝ) ≤ a := Nat.cast_nonneg a
  have hs : (0 : ℝ) < step := by unfold step; norm_num
  rw [abs_of_neg (by nlinarith), abs_of_nonneg (by positivity)]
  rw [not_le]
  unfold step
  norm_num
  linarith

theorem range_split (n i : ℕ) (h : i < n) : List.range n
    = List.range i ++ i :: (List.range (n - i - 1)).map (i + 1 + ·) := by
  conv_lhs => rw [show n = i + 1 + (n - i - 1) by omega]
  rw [List.range_add, List.range_succ, List.append_assoc]
  rfl

theorem turnRows_get (dist : ℝ → ℝ) (bins k : ℕ) (h : k < bins) :
    (turnRows dist bins)[k]? = some [some (dist ((k : ℝ) * (100 / (bins - 1)))),
      (turnColumn (linspace 0 100 bins) (turningPoints dist (linspace 0 100 bins))).getD k none,
      some ((k : ℝ) * (100 / (bins - 1)))] := by
  unfold turnRows
  simp only
  rw [List.getElem?_mapIdx, linspace_get _ _ _ h]
  rfl

theorem column_two (bins : ℕ) (hb : bins = nBins) : ∃ rest,
    turnColumn (linspace 0 100 bins) (turningPoints (distance 2) (linspace 0 100 bins))
      = List.replicate 314 none ++ some (distance 2 (314 * step)) :: none ::
        (List.replicate 1884 none ++ some (distance 2 (2199 * step)) :: rest) := by
  obtain ⟨rest, hr⟩ := turns_two bins hb
  have hbn : 2199 < bins := by rw [hb]; norm_num [nBins]
  have hbc : ((bins : ℝ) - 1) = 9999 := by rw [hb]; norm_num [nBins]
  have hgrid : linspace 0 100 bins = ((List.range 314).map fun i : ℕ => (i : ℝ) * step) ++
      (((314 : ℕ) : ℝ) * step) :: (((List.range 1884).map fun i : ℕ => ((314 + 1 + i : ℕ) : ℝ) * step) ++
        (((2199 : ℕ) : ℝ) * step) ::
        ((List.range (bins - 2200)).map fun i : ℕ => ((314 + 1 + (1884 + 1 + i) : ℕ) : ℝ) * step)) := by
    rw [linspace_zero, hbc, range_split bins 314 (by omega), range_split (bins - 314 - 1) 1884 (by omega)]
    simp only [List.map_append, List.map_cons, List.map_map]
    rw [show bins - 314 - 1 - 1884 - 1 = bins - 2200 by omega]
    rfl
  rw [hr, hgrid, turnColumn_split]
  · rw [turnColumn_split]
    · simp only [List.length_map, List.length_range]
      exact ⟨_, rfl⟩
    · intro a ha
      obtain ⟨j, hj, rfl⟩ := List.mem_map.mp ha
      have := List.mem_range.mp hj
      exact_mod_cast grid_separated (314 + 1 + j) 2199 (by omega) (by norm_num [nBins])
    · exact_mod_cast isclose_self _
  · intro a ha
    obtain ⟨j, hj, rfl⟩ := List.mem_map.mp ha
    have := List.mem_range.mp hj
    exact_mod_cast grid_separated j 314 (by omega) (by norm_num [nBins])
  · exact_mod_cast isclose_self _

theorem column_get (m n : ℕ) (u v : ℝ) (rest : List (Option ℝ)) :
    (List.replicate m none ++ some u :: none :: (List.replicate (n + 1) none ++ some v :: rest)).getD (m + 2 + n) none
      = none ∧
    (List.replicate m none ++ some u :: none :: (List.replicate (n + 1) none ++ some v :: rest)).getD (m + 3 + n) none
      = some v := by
  constructor
  · rw [List.getD_eq_getElem?_getD, List.getElem?_append_right (by simp; omega), List.length_replicate,
      show m + 2 + n - m = n + 1 + 1 by omega, List.getElem?_cons_succ, List.getElem?_cons_succ,
      List.getElem?_append_left (by simp)]
    simp
  · rw [List.getD_eq_getElem?_getD, List.getElem?_append_right (by simp; omega), List.length_replicate,
      show m + 3 + n - m = (n + 1) + 1 + 1 by omega, List.getElem?_cons_succ, List.getElem?_cons_succ,
      List.getElem?_append_right (by simp)]
    simp

theorem rows_two (bins : ℕ) (hb : bins = nBins) :
    (turnRows (distance 2) bins)[2199]? = some [some (distance 2 (2199 * step)), none, some (2199 * step)] ∧
    (turnRows (distance 2) bins)[2200]?
      = some [some (distance 2 (2200 * step)), some (distance 2 (2199 * step)), some (2200 * step)] := by
  have hbn : 2200 < bins := by rw [hb]; norm_num [nBins]
  have hbc : ((bins : ℝ) - 1) = 9999 := by rw [hb]; norm_num [nBins]
  obtain ⟨rest, hc⟩ := column_two bins hb
  rw [turnRows_get _ _ _ (by omega), turnRows_get _ _ _ (by omega), hc, hbc]
  rw [(column_get 314 1883 _ _ rest).1, (column_get 314 1883 _ _ rest).2]
  exact ⟨rfl, rfl⟩

/-- Turning points are not shown at their arguments: for order two the second turning point is the
argument number 2199, but the data for plots show the word `None` in that row and the distance of the
turning point in the next row, at the argument number 2200. -/
theorem C101_shown_at_argument_refuted :
    (∃ first rest, turningPoints (distance 2) (linspace 0 100 nBins)
      = first :: ⟨2199 * step, distance 2 (2199 * step)⟩ :: rest) ∧
    ∀ dir, (run nBins .turnsForPlotting 2 dir).1 = .ok () ∧
      ∃ rows, (run nBins .turnsForPlotting 2 dir).2.data 2 = some rows ∧
      rows[2199]? = some [some (distance 2 (2199 * step)), none, some (2199 * step)] ∧
      rows[2200]?
        = some [some (distance 2 (2200 * step)), some (distance 2 (2199 * step)), some (2200 * step)] := by
  refine ⟨?_, fun dir => ?_⟩
  · obtain ⟨rest, h⟩ := turns_two nBins rfl
    exact ⟨_, rest, h⟩
  · have hrun : ∀ bins, run bins .turnsForPlotting 2 dir = saveRows 2 (turnRows (distance 2) bins) dir := by
      intro bins
      unfold run buildSKSM
      rw [if_pos (by norm_num)]
      rfl
    have hl : ∀ bins, 50 ≤ bins → 50 ≤ (turnRows (distance 2) bins).length := by
      intro bins hb
      unfold turnRows
      rw [List.length_mapIdx, linspace_length]
      exact hb
    obtain ⟨h1, h2⟩ := saveRows_data 2 (turnRows (distance 2) nBins) dir (hl nBins (by norm_num [nBins]))
    rw [hrun]
    exact ⟨h1, _, h2, rows_two nBins rfl⟩

end Pibronic.Props.Sequences
