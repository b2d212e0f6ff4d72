import Verif.Lemmas.ModelEntries
import Mathlib.Data.Rat.Defs
import Mathlib.Algebra.Field.Rat
import Mathlib.Algebra.Order.Ring.Rat
import Mathlib.Tactic.NormNum
import Mathlib.Tactic.Linarith

set_option autoImplicit false
set_option linter.unusedSectionVars false

/-!
Theorems about model files: saving, loading, loading in place, removing the coupling, the files
derived from a coupled model (C01-C04, C07, C08) and the comparison of models (C58).
-/
namespace Pibronic.Props.ModelFiles
open Py Pibronic.ModelIO Spec.ModelIO
variable {α : Type} [CommRing α] [DecidableEq α]

/-! ### C03 -/

/-- C03: saving succeeds exactly for well-formed dictionaries. -/
theorem C03_accepted_iff_wellFormed (kind : Kind) (path : Str) (d : Dict α) (disk : Disk α) :
    (save kind path d disk).1 = .ok () ↔ WellFormed kind d := by
  rw [wellFormed_iff]
  unfold save
  constructor
  · intro h
    cases hv : verify kind d with
    | error e => rw [hv] at h; cases h
    | ok v => exact ⟨v.A, v.N, v.model, verify_ok hv⟩
  · rintro ⟨A, N, m, rfl⟩
    rw [verify_toDict]

/-- C03: a malformed dictionary raises `AssertionError` and leaves every file as it was. -/
theorem C03_malformed_rejected (kind : Kind) (path : Str) (d : Dict α) (disk : Disk α)
    (h : ¬ WellFormed kind d) : save kind path d disk = (.error .assertion, disk) := by
  unfold save
  cases hv : verify kind d with
  | error e => rw [verify_error hv]
  | ok v => exact absurd (wellFormed_iff.mpr ⟨_, _, _, verify_ok hv⟩) h

/-- C03: saving changes no other file. -/
theorem C03_other_files_unchanged (kind : Kind) (path : Str) (d : Dict α) (disk : Disk α)
    (p : Str) (hp : p ≠ path) : (save kind path d disk).2 p = disk p := by
  unfold save
  cases verify kind d with
  | error e => rfl
  | ok v => simp [Disk.write, hp]

/-- A dictionary whose energies have the wrong shape, and one without number of modes. -/
example : ¬ WellFormed (α := ℚ) .coupled
    ⟨some 1, some 2, fun k => if k = .E then some ⟨[2], fun _ => 1⟩ else none⟩ ∧
    ¬ WellFormed (α := ℚ) .coupled ⟨none, some 2, fun _ => none⟩ := by
  constructor
  · rintro ⟨A, N, hA, hN, h⟩
    have := h .E _ rfl
    simp [expected] at this
  · rintro ⟨A, N, hA, hN, h⟩
    cases hN

/-! ### C01, C02 -/

/-- The file after a successful save. -/
theorem saved_file (kind : Kind) (path : Str) (d : Dict α) (disk : Disk α)
    (h : (save kind path d disk).1 = .ok ()) :
    ∃ A N, ∃ m : Model α kind A N, d = m.toDict ∧
      (save kind path d disk).2 path = some (toFile m.toDict) := by
  obtain ⟨A, N, m, rfl⟩ := wellFormed_iff.mp ((C03_accepted_iff_wellFormed kind path d disk).mp h)
  refine ⟨A, N, m, rfl, ?_⟩
  unfold save
  rw [verify_toDict]
  simp [Disk.write]

/-- C01: every coupled model that was saved can be loaded, and describes the same model. -/
theorem C01_round_trip (path : Str) (d : Dict α) (disk : Disk α)
    (h : (save .coupled path d disk).1 = .ok ()) :
    ∃ v, load .coupled path (save .coupled path d disk).2 = .ok v ∧
      SameModel v.model.toDict d ∧ WellFormed .coupled v.model.toDict := by
  obtain ⟨A, N, m, rfl, hf⟩ := saved_file _ _ _ _ h
  obtain ⟨m', hl, hg, -⟩ := load_coupled m path _ hf
  exact ⟨_, hl, sameModel_of_get hg, wellFormed_iff.mpr ⟨A, N, m', rfl⟩⟩

/-- C01: the loaded model always has an array of energies. -/
theorem C01_energies_present (path : Str) (d : Dict α) (disk : Disk α)
    (h : (save .coupled path d disk).1 = .ok ()) :
    ∃ v, load .coupled path (save .coupled path d disk).2 = .ok v ∧
      ∃ e, v.model.toDict.arr .E = some e := by
  obtain ⟨A, N, m, rfl, hf⟩ := saved_file _ _ _ _ h
  obtain ⟨m', hl, -, he, -⟩ := load_coupled m path _ hf
  refine ⟨_, hl, ?_⟩
  obtain ⟨t, ht⟩ := Option.isSome_iff_exists.mp he
  exact ⟨⟨_, t⟩, by simp [Model.toDict, ht]⟩

/-- A coupled model with one non-trivial and one all-zero array; it is accepted. -/
example : WellFormed (α := ℚ) .coupled ⟨some 1, some 2, fun k => match k with
    | .E => some ⟨[2, 2], fun a b => if a = b then 1 else 0⟩
    | .G1 => some ⟨[1, 2, 2], fun _ _ _ => 0⟩
    | _ => none⟩ :=
  ⟨2, 1, rfl, rfl, by intro k a h; cases k <;> cases h <;> rfl⟩

/-- C02: a saved diagonal model with a non-zero energy can be loaded and is the same model. -/
theorem C02_round_trip_partial (path : Str) (d : Dict α) (disk : Disk α)
    (h : (save .diagonal path d disk).1 = .ok ()) (hE : ∃ a, entry d .E [a] ≠ 0) :
    ∃ v, load .diagonal path (save .diagonal path d disk).2 = .ok v ∧
      SameModel v.model.toDict d := by
  obtain ⟨A, N, m, rfl, hf⟩ := saved_file _ _ _ _ h
  have hk : (kept m).arr .E ≠ none := by
    obtain ⟨a, ha⟩ := hE
    exact (nonzero_iff_entry m .E).mpr ⟨[a], ha⟩
  exact ⟨⟨A, N, kept m⟩, by rw [load_diagonal m path _ hf, if_neg hk], sameModel_of_get (kept_get m)⟩

/-- C02 is false when all energies are zero: the file is written and can never be loaded (for every
such diagonal model). -/
theorem C02_zero_energies_refuted (path : Str) (d : Dict α) (disk : Disk α)
    (h : (save .diagonal path d disk).1 = .ok ()) (hE : ∀ a, entry d .E [a] = 0) :
    load .diagonal path (save .diagonal path d disk).2 = .error .assertion := by
  obtain ⟨A, N, m, rfl, hf⟩ := saved_file _ _ _ _ h
  have hk : (kept m).arr .E = none := by
    by_contra hc
    obtain ⟨idx, hidx⟩ := (nonzero_iff_entry m .E).mp hc
    apply hidx
    match idx with
    | [a] => exact hE a
    | [] => rw [entry_eq_get]; exact at_length _ _ (by simp [shape, modes, surf])
    | _ :: _ :: _ => rw [entry_eq_get]; exact at_length _ _ (by simp [shape, modes, surf])
  rw [load_diagonal m path _ hf, if_pos hk]

/-- A diagonal model of one oscillator at zero energy is accepted by the saver. -/
example : WellFormed (α := ℚ) .diagonal ⟨some 1, some 1, fun k => match k with
    | .E => some ⟨[1], fun _ => 0⟩
    | .w => some ⟨[1], fun _ => 1⟩
    | _ => none⟩ :=
  ⟨1, 1, rfl, rfl, by intro k a h; cases k <;> cases h <;> rfl⟩

/-! ### C04 -/

theorem loadOneInplace_eq {kind : Kind} {A N : Nat} (m : Model α kind A N) (k : Key) :
    loadOneInplace (kept m).toDict k (shape kind A N k) = .ok (m.get k) := by
  rw [← kept_get m k]
  unfold loadOneInplace Model.get
  simp only [Model.toDict]
  cases (kept m).arr k with
  | none => rfl
  | some t => exact assignAll_self _ t

theorem loadInplace_eq {kind : Kind} {A N : Nat} (m m1 : Model α kind A N) (path : Str) (disk : Disk α)
    (hf : disk path = some (toFile m.toDict)) :
    loadInplace kind path m1.toDict disk = .ok ⟨A, N, ⟨fun k => (m1.arr k).map fun _ => m.get k⟩⟩ := by
  have one : ∀ k, loadEntry (kept m).toDict k (m1.arr k) =
      .ok ((m1.arr k).map fun _ => m.get k) := by
    intro k
    cases m1.arr k with
    | none => rfl
    | some t => simp only [loadEntry, loadOneInplace_eq]; rfl
  unfold loadInplace openFile
  simp only [verify_toDict, hf, readFile_toFile, bind, Except.bind, one]
  congr 3
  funext k
  cases k <;> rfl

/-- C04: loading the file of a model `d` into a dictionary `d'` with the same dimensions succeeds;
afterwards `d'` has the same arrays as before, and each of them holds exactly the values of `d`,
whatever it held before (coupled and diagonal models). -/
theorem C04_inplace_load (kind : Kind) (path : Str) (d d' : Dict α) (disk : Disk α)
    (h : (save kind path d disk).1 = .ok ()) (h' : WellFormed kind d')
    (hA : d'.A = d.A) (hN : d'.N = d.N) :
    ∃ v, loadInplace kind path d' (save kind path d disk).2 = .ok v ∧
      v.model.toDict.A = d.A ∧ v.model.toDict.N = d.N ∧
      (∀ k, v.model.toDict.arr k = none ↔ d'.arr k = none) ∧
      ∀ k, d'.arr k ≠ none → ∀ idx, entry v.model.toDict k idx = entry d k idx := by
  obtain ⟨A, N, m, rfl, hf⟩ := saved_file _ _ _ _ h
  obtain ⟨A', N', m1, rfl⟩ := wellFormed_iff.mp h'
  simp only [Model.toDict, Option.some.injEq] at hA hN
  subst hA hN
  refine ⟨_, loadInplace_eq m m1 path _ hf, rfl, rfl, fun k => ?_, fun k hk idx => ?_⟩
  · simp [Model.toDict]
  · rw [entry_eq_get, entry_eq_get]
    congr 1
    simp only [Model.get]
    cases ha : m1.arr k with
    | none => exact absurd (by simp [Model.toDict, ha]) hk
    | some t => rfl

/-- C04: for a coupled model with all arrays provided, loading in place gives what a fresh load
gives. -/
theorem C04_inplace_equals_fresh (path : Str) (d d' : Dict α) (disk : Disk α)
    (h : (save .coupled path d disk).1 = .ok ()) (h' : WellFormed .coupled d')
    (hA : d'.A = d.A) (hN : d'.N = d.N) (hall : ∀ k, d'.arr k ≠ none) :
    ∃ v f, loadInplace .coupled path d' (save .coupled path d disk).2 = .ok v ∧
      load .coupled path (save .coupled path d disk).2 = .ok f ∧
      SameModel v.model.toDict f.model.toDict := by
  obtain ⟨v, hv, h1, h2, -, h3⟩ := C04_inplace_load .coupled path d d' disk h h' hA hN
  obtain ⟨f, hf, ⟨h4, h5, h6⟩, -⟩ := C01_round_trip path d disk h
  exact ⟨v, f, hv, hf, by rw [h1, h4], by rw [h2, h5], fun k idx => by
    rw [h3 k (hall k), h6]⟩

/-! ### C57: other dimensions -/

/-- C57 (partial): an array of a file with at least two surfaces is not accepted by a dictionary
with another number of surfaces when the energies are loaded. -/
theorem C57_other_surfaces_rejected_partial (kind : Kind) (path : Str) (disk : Disk α) {A N A' N' : Nat}
    (m : Model α kind A N) (m' : Model α kind A' N') (h2 : 2 ≤ A) (hne : A ≠ A')
    (hE : ∃ idx, entry m.toDict .E idx ≠ 0) (hp : m'.arr .E ≠ none)
    (hd : disk path = some (toFile m.toDict)) :
    loadInplace kind path m'.toDict disk = .error .value := by
  have hk : (kept m).arr .E ≠ none := (nonzero_iff_entry m .E).mpr hE
  obtain ⟨t, ht⟩ := Option.ne_none_iff_exists'.mp hk
  obtain ⟨t', ht'⟩ := Option.ne_none_iff_exists'.mp hp
  have h1 : loadOneInplace (kept m).toDict .E (shape kind A' N' .E) = .error .value := by
    unfold loadOneInplace
    simp only [Model.toDict, ht, Option.map_some, assignAll]
    have : bcastShapes (shape kind A N .E) (shape kind A' N' .E) = false := by
      have hA1 : A ≠ 1 := by omega
      cases kind <;> simp [shape, modes, surf, bcastShapes, hne, hA1]
    rw [this]; rfl
  unfold loadInplace openFile
  simp only [verify_toDict, hd, readFile_toFile, bind, Except.bind, loadEntry, ht', h1]
  rfl

theorem bcast_ones {s t : List Nat} (x : Tensor α s) (hlen : s.length = t.length)
    (h1 : ∀ n ∈ s, n = 1) : ∃ y, assignAll ⟨s, x⟩ t = .ok y ∧
      ∀ idx, List.Forall₂ (· < ·) idx t → at_ t y idx = at_ s x (List.replicate s.length 0) := by
  have hs : bcastShapes s t = true := by
    induction s generalizing t with
    | nil => rw [bcastShapes]
    | cons n s ih =>
      cases t with
      | nil => simp at hlen
      | cons m t =>
        simp only [List.length_cons, Nat.add_right_cancel_iff] at hlen
        rw [bcastShapes]
        simp only [hlen, lt_irrefl, if_false, h1 n (by simp), Bool.and_eq_true]
        exact ⟨by simp, ih (x ⟨0, by rw [h1 n (by simp)]; omega⟩) hlen
          (fun k hk => h1 k (by simp [hk]))⟩
  have hd : ∃ y, bcastData s t x = .ok y ∧
      ∀ idx, List.Forall₂ (· < ·) idx t → at_ t y idx = at_ s x (List.replicate s.length 0) := by
    clear hs
    induction s generalizing t with
    | nil =>
      cases t with
      | nil => exact ⟨x, by rw [bcastData], fun idx h => by cases h; rfl⟩
      | cons m t => simp at hlen
    | cons n s ih =>
      cases t with
      | nil => simp at hlen
      | cons m t =>
        simp only [List.length_cons, Nat.add_right_cancel_iff] at hlen
        obtain rfl := h1 n (by simp)
        obtain ⟨y, hy, hat⟩ := ih (x 0) hlen (fun k hk => h1 k (by simp [hk]))
        have fin : ∀ (u : Tensor α (m :: t)), (∀ i, u i = y) → ∀ idx,
            List.Forall₂ (· < ·) idx (m :: t) →
            at_ (m :: t) u idx = at_ (1 :: s) x (List.replicate (s.length + 1) 0) := by
          intro u hu idx hidx
          cases hidx with
          | cons h1 h2 =>
            simp only [at_, h1, dite_true, hu, List.replicate_succ, Nat.one_pos]
            exact hat _ h2
        rw [bcastData]
        simp only [hlen, lt_irrefl, if_false]
        by_cases hm : 1 = m
        · subst hm
          refine ⟨fun _ => y, ?_, fin _ (fun _ => rfl)⟩
          have hfr : List.finRange 1 = [0] := rfl
          simp only [dite_true, hfr, List.mapM_cons, List.mapM_nil, Fin.cast_eq_self]
          have : bcastData s t (x 0) = .ok y := hy
          simp only [this, bind, Except.bind, pure, Except.pure, List.length_cons, List.length_nil,
            Nat.zero_add, dite_true, Except.ok.injEq]
          funext i
          have : i = 0 := Fin.fin_one_eq_zero i
          subst this; rfl
        · refine ⟨fun _ => y, ?_, fin _ (fun _ => rfl)⟩
          have : bcastData s t (x ⟨0, by omega⟩) = .ok y := hy
          simp only [hm, dite_false, dite_true, this, bind, Except.bind]
  obtain ⟨y, hy, hat⟩ := hd
  exact ⟨y, by simp [assignAll, hs, hy], hat⟩

/-- C57 is false: the file of a model with one surface and one mode is loaded without complaint into
a dictionary with any other dimensions, and its values are copied to every entry. -/
theorem C57_single_surface_broadcast_refuted (path : Str) (disk : Disk α) {A N : Nat}
    (m : Model α .coupled 1 1) (m' : Model α .coupled A N)
    (hd : disk path = some (toFile m.toDict)) :
    ∃ v, loadInplace .coupled path m'.toDict disk = .ok v ∧ v.A = A ∧ v.N = N ∧
      (m'.arr .E ≠ none → ∀ a b, a < A → b < A →
        entry v.model.toDict .E [a, b] = entry m.toDict .E [0, 0]) := by
  have one : ∀ k, ∃ y, loadOneInplace (kept m).toDict k (shape .coupled A N k) = .ok y ∧
      ∀ idx, List.Forall₂ (· < ·) idx (shape .coupled A N k) →
        at_ (shape .coupled A N k) y idx = entry m.toDict k (List.replicate (shape .coupled 1 1 k).length 0) := by
    intro k
    have hg := kept_get m k
    rw [entry_eq_get, ← hg]
    unfold loadOneInplace Model.get
    simp only [Model.toDict]
    cases (kept m).arr k with
    | none => exact ⟨_, rfl, fun idx _ => by simp [at_zeros]⟩
    | some t =>
      exact bcast_ones t (by cases k <;> rfl) (by cases k <;> simp [shape, modes, surf])
  choose y hy hat using one
  have each : ∀ k, loadEntry (kept m).toDict k (m'.arr k) =
      .ok ((m'.arr k).map fun _ => y k) := by
    intro k
    cases m'.arr k with
    | none => rfl
    | some t => simp only [loadEntry, hy]; rfl
  refine ⟨⟨A, N, ⟨fun k => (m'.arr k).map fun _ => y k⟩⟩, ?_, rfl, rfl, fun hE a b ha hb => ?_⟩
  · unfold loadInplace openFile
    simp only [verify_toDict, hd, readFile_toFile, bind, Except.bind, each]
    congr 3
    funext k
    cases k <;> rfl
  · obtain ⟨t, ht⟩ := Option.ne_none_iff_exists'.mp hE
    rw [entry_eq_get]
    simp only [Model.get, ht, Option.map_some, Option.getD_some]
    exact hat .E [a, b] (.cons ha (.cons hb .nil))

/-! ### C58: comparison of models -/

open Classical in
theorem compareKeys_eq [AllClose α] {kind : Kind} {A N : Nat} (m m' : Model α kind A N) (ks : List Key) :
    ∃ b, compareKeys (⟨A, N, m⟩ : Verified α kind) ⟨A, N, m'⟩ ks = .ok b ∧
      (b = true ↔ ∀ k ∈ ks, Tensor.Close _ (m.get k) (m'.get k)) := by
  induction ks with
  | nil => exact ⟨true, rfl, by simp⟩
  | cons k ks ih =>
    obtain ⟨b, hb, hiff⟩ := ih
    have hy : compareKeys (⟨A, N, m⟩ : Verified α kind) ⟨A, N, m'⟩ (k :: ks) =
        if Tensor.Close _ (m.get k) (m'.get k) then compareKeys (⟨A, N, m⟩ : Verified α kind) ⟨A, N, m'⟩ ks
        else .ok false := by
      rw [compareKeys]
      have hg : m'.get k = (m'.arr k).getD (Tensor.zeros _) := rfl
      cases h : m'.arr k <;> simp only [h, hg, cast?_mk, Option.getD_none, Option.getD_some]
    rw [hy]
    by_cases hc : Tensor.Close _ (m.get k) (m'.get k)
    · rw [if_pos hc]
      exact ⟨b, hb, by simp [hiff, hc]⟩
    · rw [if_neg hc]
      exact ⟨false, rfl, by simp [hc]⟩

/-- Two different dimensions below 100000 are never close. -/
theorem close_dimensions {m n : Nat} (hn : n < 100000) (h : Close (m : ℤ) (n : ℤ)) : m = n := by
  replace h : 100000000 * |(m : ℤ) - n| ≤ 1 + 1000 * |(n : ℤ)| := h
  rw [abs_of_nonneg (Int.natCast_nonneg n)] at h
  have h0 := abs_nonneg ((m : ℤ) - n)
  have h1 : |(m : ℤ) - n| = 0 := by omega
  have := abs_eq_zero.mp h1
  omega

/-- C58: `_same_model` (and the diagonal variant) answers `True` exactly when the two well-formed
dictionaries describe the same model to numpy's precision, `False` otherwise, and raises when one is
malformed.  The dimensions are the same or those of the second model are below 100000 (see
`C58_many_modes`). -/
theorem C58_same_model_decides [AllClose α] (kind : Kind) (d1 d2 : Dict α) :
    (WellFormed kind d1 ∧ WellFormed kind d2 →
      (d1.A = d2.A ∧ d1.N = d2.N ∨ ∀ n, d2.A = some n ∨ d2.N = some n → n < 100000) →
      ∃ b, sameModel kind d1 d2 = .ok b ∧ (b = true ↔ NearModel d1 d2)) ∧
    (¬ (WellFormed kind d1 ∧ WellFormed kind d2) → sameModel kind d1 d2 = .error .assertion) := by
  constructor
  · rintro ⟨h1, h2⟩ hdim
    obtain ⟨A, N, m, rfl⟩ := wellFormed_iff.mp h1
    obtain ⟨A', N', m', rfl⟩ := wellFormed_iff.mp h2
    simp only [sameModel, verify_toDict, bind, Except.bind]
    have hsame : Close (N : ℤ) (N' : ℤ) → Close (A : ℤ) (A' : ℤ) → A = A' ∧ N = N' := by
      intro cN cA
      rcases hdim with ⟨hA, hN⟩ | h
      · exact ⟨Option.some.inj hA, Option.some.inj hN⟩
      · exact ⟨close_dimensions (h A' (.inl rfl)) cA, close_dimensions (h N' (.inr rfl)) cN⟩
    by_cases hN : Close (N : ℤ) (N' : ℤ)
    · by_cases hA : Close (A : ℤ) (A' : ℤ)
      · obtain ⟨rfl, rfl⟩ := hsame hN hA
        obtain ⟨b, hb, hiff⟩ := compareKeys_eq m m' Key.all
        refine ⟨b, by simp only [hN, hA, not_true, if_false]; exact hb, hiff.trans ?_⟩
        constructor
        · intro h
          refine ⟨rfl, rfl, fun k idx => ?_⟩
          rw [entry_eq_get, entry_eq_get]
          exact at_close.mp (h k (Key.mem_all k)) idx
        · intro h k _
          rw [at_close]
          intro idx
          rw [← entry_eq_get, ← entry_eq_get]
          exact h.2.2 k idx
      · refine ⟨false, by simp [hN, hA], by
          simp only [Bool.false_eq_true, false_iff]
          rintro ⟨h, -⟩
          exact hA (by rw [Option.some.inj h]; exact AllClose.refl _)⟩
    · refine ⟨false, by simp [hN], by
        simp only [Bool.false_eq_true, false_iff]
        rintro ⟨-, h, -⟩
        exact hN (by rw [Option.some.inj h]; exact AllClose.refl _)⟩
  · intro h
    unfold sameModel
    cases hv : verify kind d1 with
    | error e => rw [verify_error hv]; rfl
    | ok v =>
      cases hv2 : verify kind d2 with
      | error e => rw [verify_error hv2]; rfl
      | ok v2 =>
        exact absurd ⟨wellFormed_iff.mpr ⟨_, _, _, verify_ok hv⟩,
          wellFormed_iff.mpr ⟨_, _, _, verify_ok hv2⟩⟩ h

/-- C58: the answer is `True` for a model and any dictionary with exactly the same parameters. -/
theorem C58_same_is_true [AllClose α] (kind : Kind) (d1 d2 : Dict α) (h1 : WellFormed kind d1)
    (h2 : WellFormed kind d2) (h : SameModel d1 d2) : sameModel kind d1 d2 = .ok true := by
  obtain ⟨b, hb, hiff⟩ := (C58_same_model_decides kind d1 d2).1 ⟨h1, h2⟩ (.inl ⟨h.1, h.2.1⟩)
  rw [hb, hiff.mpr ⟨h.1, h.2.1, fun k idx => by rw [h.2.2]; exact AllClose.refl _⟩]

/-- C58: from 100000 modes on even the comparison of the dimensions has a tolerance: two models with
different numbers of modes are the same as far as the code can tell. -/
theorem C58_many_modes : ∃ d1 d2 : Dict ℚ, WellFormed .coupled d1 ∧ WellFormed .coupled d2 ∧
    d1.N = some 100001 ∧ d2.N = some 100000 ∧ sameModel .coupled d1 d2 = .ok true := by
  let m : (n : Nat) → Model ℚ .coupled 1 n := fun n => ⟨fun _ => none⟩
  refine ⟨(m 100001).toDict, (m 100000).toDict, wellFormed_iff.mpr ⟨_, _, _, rfl⟩,
    wellFormed_iff.mpr ⟨_, _, _, rfl⟩, rfl, rfl, ?_⟩
  simp only [sameModel, verify_toDict, bind, Except.bind]
  have hN : Close ((100001 : Nat) : ℤ) ((100000 : Nat) : ℤ) := by
    show (100000000 : ℤ) * |((100001 : Nat) : ℤ) - ((100000 : Nat) : ℤ)| ≤ 1 + 1000 * |((100000 : Nat) : ℤ)|
    norm_num
  have hA : Close ((1 : Nat) : ℤ) ((1 : Nat) : ℤ) := AllClose.refl _
  rw [if_neg (not_not.mpr hN), if_neg (not_not.mpr hA)]
  have key : ∀ ks, compareKeys (⟨1, 100001, m 100001⟩ : Verified ℚ .coupled) ⟨1, 100000, m 100000⟩ ks
      = .ok true := by
    intro ks
    induction ks with
    | nil => rfl
    | cons k ks ih =>
      unfold compareKeys
      simp only [m, Model.get, Option.getD_none, cast?_mk]
      exact (if_pos (Tensor.Close.refl _ _)).trans ih
  exact key _

/-- A coupled model of `A` surfaces and one mode in which all energies are `e` and all other
parameters are present and zero. -/
def filled (A : Nat) (e : ℚ) : Model ℚ .coupled A 1 :=
  ⟨fun k => match k with
    | .E => some (fun _ _ => e)
    | k => some (Tensor.zeros _)⟩

theorem filled_wellFormed (A : Nat) (e : ℚ) : WellFormed .coupled (filled A e).toDict :=
  ⟨A, 1, rfl, rfl, by intro k a h; cases k <;> cases h <;> rfl⟩

/-- C58: the comparison is not symmetric in its arguments, because numpy's tolerance is relative to the
second number. -/
theorem C58_not_symmetric : ∃ d1 d2 : Dict ℚ, WellFormed .coupled d1 ∧ WellFormed .coupled d2 ∧
    ¬ SameModel d1 d2 ∧ sameModel .coupled d1 d2 = .ok true ∧ sameModel .coupled d2 d1 = .ok false := by
  have hE : ∀ e, entry (filled 1 e).toDict .E [0, 0] = e := by
    intro e
    rw [entry_toDict]; show at_ [1, 1] (fun _ _ => e) [0, 0] = e; simp [at_]
  have hcase : ∀ e k idx, entry (filled 1 e).toDict k idx = e ∧ k = .E ∨
      ∀ e', entry (filled 1 e').toDict k idx = 0 := by
    intro e k idx
    by_cases hk : k = .E
    · subst hk
      by_cases hi : idx = [0, 0]
      · subst hi; exact .inl ⟨hE e, rfl⟩
      · refine .inr fun e' => ?_
        rw [entry_toDict]
        show at_ [1, 1] (fun _ _ => e') idx = 0
        rcases idx with _ | ⟨i, _ | ⟨j, _ | ⟨l, is⟩⟩⟩ <;> simp only [at_]
        · split <;> rfl
        · by_cases hi0 : i < 1 <;> by_cases hj0 : j < 1 <;> simp [hi0, hj0]
          exact absurd (by rw [show i = 0 by omega, show j = 0 by omega]) hi
        · split <;> [split; skip] <;> rfl
    · refine .inr fun e' => ?_
      rw [entry_toDict]
      cases k <;> first | exact absurd rfl hk | exact at_zeros _ _
  have h1 := (C58_same_model_decides .coupled (filled 1 1000).toDict (filled 1 1000.01000005).toDict).1
    ⟨filled_wellFormed _ _, filled_wellFormed _ _⟩ (.inl ⟨rfl, rfl⟩)
  have h2 := (C58_same_model_decides .coupled (filled 1 1000.01000005).toDict (filled 1 1000).toDict).1
    ⟨filled_wellFormed _ _, filled_wellFormed _ _⟩ (.inl ⟨rfl, rfl⟩)
  refine ⟨(filled 1 1000).toDict, (filled 1 1000.01000005).toDict, filled_wellFormed _ _,
    filled_wellFormed _ _, ?_, ?_, ?_⟩
  · intro h
    have := h.2.2 .E [0, 0]
    rw [hE, hE] at this
    norm_num at this
  · obtain ⟨b, hb, hiff⟩ := h1
    rw [hb, hiff.mpr ⟨rfl, rfl, fun k idx => ?_⟩]
    rcases hcase 1000 k idx with ⟨h, rfl⟩ | h
    · rcases hcase 1000.01000005 .E idx with ⟨h', -⟩ | h'
      · rw [h, h', close_iff]; norm_num [abs_of_pos, abs_of_neg]
      · rw [h', h']; exact AllClose.refl _
    · rw [h, h]; exact AllClose.refl _
  · obtain ⟨b, hb, hiff⟩ := h2
    cases b with
    | false => exact hb
    | true =>
      have := (hiff.mp rfl).2.2 .E [0, 0]
      rw [hE, hE, close_iff] at this
      norm_num [abs_of_pos] at this

/-- The hypotheses of the theorems on in-place loading are met by models with different energies. -/
example (disk : Disk ℚ) : ∃ v f, loadInplace .coupled c!"p" (filled 2 3).toDict
      (save .coupled c!"p" (filled 2 1).toDict disk).2 = .ok v ∧
    load .coupled c!"p" (save .coupled c!"p" (filled 2 1).toDict disk).2 = .ok f ∧
    SameModel v.model.toDict f.model.toDict :=
  C04_inplace_equals_fresh c!"p" _ _ disk ((C03_accepted_iff_wellFormed _ _ _ _).mpr (filled_wellFormed 2 1))
    (filled_wellFormed 2 3) rfl rfl (by intro k; cases k <;> simp [Model.toDict, filled])

example (disk : Disk ℚ) (h : disk c!"p" = some (toFile (filled 2 1).toDict)) :
    loadInplace .coupled c!"p" (filled 3 1).toDict disk = .error .value :=
  C57_other_surfaces_rejected_partial .coupled _ disk (filled 2 1) (filled 3 1) (by decide) (by decide)
    ⟨[0, 0], by show (if h : 0 < 2 then (if h : 0 < 2 then (1 : ℚ) else 0) else 0) ≠ 0; simp⟩ (by simp [filled]) h

example (disk : Disk ℚ) (h : disk c!"p" = some (toFile (filled 1 7).toDict)) :
    ∃ v, loadInplace .coupled c!"p" (filled 3 0).toDict disk = .ok v ∧
      entry v.model.toDict .E [2, 1] = 7 := by
  obtain ⟨v, h1, -, -, h2⟩ := C57_single_surface_broadcast_refuted c!"p" disk (filled 1 7) (filled 3 0) h
  exact ⟨v, h1, by rw [h2 (by simp [filled]) 2 1 (by decide) (by decide)]; show (if h : 0 < 1 then (if h : 0 < 1 then (7 : ℚ) else 0) else 0) = 7; simp⟩

end Pibronic.Props.ModelFiles
