import Verif.Spec.ModelIO
import Verif.Lemmas.ModelIO

set_option autoImplicit false
set_option linter.unusedSectionVars false

/-! Helper lemmas relating typed models and entries. -/
namespace Pibronic.ModelIO
open Py Spec.ModelIO
variable {α : Type}

section
variable [Zero α]

theorem at_zeros (s : List Nat) (idx : List Nat) : at_ s (Tensor.zeros s : Tensor α s) idx = 0 := by
  induction s generalizing idx with
  | nil => cases idx <;> simp [at_, Tensor.zeros]
  | cons n s ih =>
    cases idx with
    | nil => simp [at_]
    | cons i is => simp only [at_, Tensor.zeros, ih]; split <;> rfl

theorem at_ext {s : List Nat} {t u : Tensor α s} (h : ∀ idx, at_ s t idx = at_ s u idx) : t = u := by
  induction s with
  | nil => simpa [at_] using h []
  | cons n s ih =>
    funext i
    apply ih
    intro idx
    have := h (i.1 :: idx)
    simpa [at_] using this

theorem at_close [AllClose α] {s : List Nat} {t u : Tensor α s} :
    Tensor.Close s t u ↔ ∀ idx, Close (at_ s t idx) (at_ s u idx) := by
  induction s with
  | nil =>
    constructor
    · intro h idx
      cases idx with
      | nil => exact h
      | cons i is => exact AllClose.refl _
    · intro h; exact h []
  | cons n s ih =>
    constructor
    · intro h idx
      cases idx with
      | nil => exact AllClose.refl _
      | cons i is =>
        simp only [at_]
        split
        · next hi => exact ih.mp (h ⟨i, hi⟩) is
        · exact AllClose.refl _
    · intro h i
      rw [ih]
      intro idx
      have := h (i.1 :: idx)
      simpa [at_] using this

theorem at_length {s : List Nat} (t : Tensor α s) (idx : List Nat) (h : idx.length ≠ s.length) :
    at_ s t idx = 0 := by
  induction s generalizing idx with
  | nil =>
    cases idx with
    | nil => simp at h
    | cons i is => simp [at_]
  | cons n s ih =>
    cases idx with
    | nil => simp [at_]
    | cons i is =>
      simp only [at_]
      split
      · exact ih _ _ (by simpa using h)
      · rfl

theorem at_onTail {s t : List Nat} (f : Tensor α s → Tensor α t) (j : List Nat)
    (F : (List Nat → α) → α) (hF : ∀ x, at_ t (f x) j = F fun j' => at_ s x j')
    (h0 : F (fun _ => 0) = 0) (ms : List Nat) (x : Tensor α (ms ++ s)) (idx : List Nat)
    (hl : idx.length = ms.length) :
    at_ (ms ++ t) (Tensor.onTail f ms x) (idx ++ j) = F fun j' => at_ (ms ++ s) x (idx ++ j') := by
  induction ms generalizing idx with
  | nil =>
    obtain rfl := List.length_eq_zero_iff.mp hl
    exact hF x
  | cons m ms ih =>
    cases idx with
    | nil => simp at hl
    | cons i idx =>
      simp only [List.cons_append, at_, Tensor.onTail]
      by_cases h : i < m
      · simp only [h, dite_true]
        exact ih (x ⟨i, h⟩) idx (by simpa using hl)
      · simp only [h, dite_false]
        exact h0.symm

theorem expected_eq (kind : Kind) (A N : Nat) (k : Key) : expected kind A N k = shape kind A N k := by
  cases kind <;> cases k <;> rfl

theorem entry_toDict {kind : Kind} {A N : Nat} (m : Model α kind A N) (k : Key) (idx : List Nat) :
    entry m.toDict k idx = at_ (shape kind A N k) ((m.arr k).getD (Tensor.zeros _)) idx := by
  simp only [entry, Model.toDict]
  cases m.arr k with
  | none => simp [at_zeros]
  | some t => rfl

end

theorem wellFormed_iff {kind : Kind} {d : Dict α} :
    WellFormed kind d ↔ ∃ A N, ∃ m : Model α kind A N, d = m.toDict := by
  constructor
  · rintro ⟨A, N, hA, hN, h⟩
    refine ⟨A, N, ⟨fun k => (d.arr k).bind fun a => a.cast? _⟩, ?_⟩
    obtain ⟨dN, dA, arr⟩ := d
    simp only at hA hN h
    subst hA hN
    simp only [Model.toDict]
    congr 1
    funext k
    cases ha : arr k with
    | none => rfl
    | some a =>
      have hk := h k a ha
      rw [expected_eq] at hk
      obtain ⟨s, t⟩ := a
      simp only at hk
      subst hk
      simp [cast?_mk]
  · rintro ⟨A, N, m, rfl⟩
    refine ⟨A, N, rfl, rfl, fun k a h => ?_⟩
    simp only [Model.toDict, Option.map_eq_some_iff] at h
    obtain ⟨t, -, rfl⟩ := h
    rw [expected_eq]

variable [CommRing α] [DecidableEq α]

theorem entry_eq_get {kind : Kind} {A N : Nat} (m : Model α kind A N) (k : Key) (idx : List Nat) :
    entry m.toDict k idx = at_ (shape kind A N k) (m.get k) idx := entry_toDict m k idx

theorem sameModel_of_get {kind : Kind} {A N : Nat} {m m' : Model α kind A N}
    (h : ∀ k, m'.get k = m.get k) : SameModel m'.toDict m.toDict :=
  ⟨rfl, rfl, fun k idx => by rw [entry_eq_get, entry_eq_get, h]⟩

theorem get_of_sameModel {kind : Kind} {A N : Nat} {m m' : Model α kind A N}
    (h : SameModel m'.toDict m.toDict) (k : Key) : m'.get k = m.get k :=
  at_ext fun idx => by rw [← entry_eq_get, ← entry_eq_get]; exact h.2.2 k idx

theorem nonzero_iff_entry {kind : Kind} {A N : Nat} (m : Model α kind A N) (k : Key) :
    (kept m).arr k ≠ none ↔ ∃ idx, entry m.toDict k idx ≠ 0 := by
  constructor
  · intro h
    by_contra hc
    simp only [not_exists, ne_eq, not_not] at hc
    have hz : m.get k = Tensor.zeros _ := at_ext fun idx => by
      rw [at_zeros, ← entry_eq_get, hc]
    apply h
    simp only [kept, Model.get] at hz ⊢
    cases ha : m.arr k with
    | none => rfl
    | some t =>
      rw [ha] at hz
      simp only [Option.getD_some] at hz
      simp [hz, Tensor.nonzero_zeros]
  · rintro ⟨idx, h⟩ hk
    apply h
    have := kept_get m k
    rw [Model.get, hk] at this
    rw [entry_eq_get, ← this]
    exact at_zeros _ _

/-- Loading a coupled model that was saved. -/
theorem load_coupled {A N : Nat} (m : Model α .coupled A N) (path : Str) (disk : Disk α)
    (hd : disk path = some (toFile m.toDict)) :
    ∃ m' : Model α .coupled A N, load .coupled path disk = .ok ⟨A, N, m'⟩ ∧
      (∀ k, m'.get k = m.get k) ∧ (m'.arr .E).isSome ∧
      ∀ k, k ≠ .E → m'.arr k = (kept m).arr k := by
  unfold load openFile
  rw [hd]
  simp only [bind, Except.bind]
  rw [loadDict_toFile]
  cases h : (kept m).arr .E with
  | some t => 
    refine ⟨kept m, verify_toDict _, kept_get m, by simp [h], fun _ _ => rfl⟩
  | none =>
    refine ⟨⟨fun k => if hk : k = .E then some (hk ▸ (Tensor.zeros [A, A] : Tensor α (shape .coupled A N .E)))
      else (kept m).arr k⟩, ?_, fun k => ?_, rfl, fun k hk => by simp [hk]⟩
    · simp only
      rw [← verify_toDict]
      congr 1
      simp only [Model.toDict]
      congr 1
      funext k
      by_cases hk : k = .E
      · subst hk; simp [shape, modes, surf]
      · simp [hk]
    · rw [← kept_get m k]
      by_cases hk : k = .E
      · subst hk
        simp [Model.get, h]
        rfl
      · simp [Model.get, hk]

/-- Loading a diagonal model that was saved: succeeds exactly when the energies were written. -/
theorem load_diagonal {A N : Nat} (m : Model α .diagonal A N) (path : Str) (disk : Disk α)
    (hd : disk path = some (toFile m.toDict)) :
    load .diagonal path disk =
      if (kept m).arr .E = none then .error .assertion else .ok ⟨A, N, kept m⟩ := by
  unfold load openFile
  rw [hd]
  simp only [bind, Except.bind]
  rw [loadDict_toFile]
  cases h : (kept m).arr .E with
  | some t => simp [verify_toDict]
  | none =>
    simp only [if_true]
    cases hv : verify Kind.diagonal { (kept m).toDict with
          arr := fun k => if k = .E then some ⟨[A, A], Tensor.zeros [A, A]⟩ else (kept m).toDict.arr k } with
    | error e => rw [verify_error hv]
    | ok v =>
      exfalso
      have h1 := verify_ok hv
      have h2 : (v.model.toDict).arr .E = some ⟨[A, A], Tensor.zeros [A, A]⟩ := by rw [← h1]; simp
      simp only [Model.toDict, Option.map_eq_some_iff] at h2
      obtain ⟨t, -, ht⟩ := h2
      have := congrArg NDArray.shape ht
      simp [shape, modes, surf] at this

theorem at_mapSurf {kind kind' : Kind} {A N : Nat}
    (f : Tensor α (surf kind A) → Tensor α (surf kind' A)) (j : List Nat)
    (F : (List Nat → α) → α) (hF : ∀ x, at_ (surf kind' A) (f x) j = F fun j' => at_ (surf kind A) x j')
    (h0 : F (fun _ => 0) = 0) (k : Key) (hk : k ≠ .w) (t : Tensor α (shape kind A N k))
    (idx : List Nat) (hl : idx.length = order k) :
    at_ (shape kind' A N k) (mapSurf f k t) (idx ++ j)
      = F fun j' => at_ (shape kind A N k) t (idx ++ j') := by
  cases k with
  | w => exact absurd rfl hk
  | E => exact at_onTail f j F hF h0 (modes N .E) t idx hl
  | G1 => exact at_onTail f j F hF h0 (modes N .G1) t idx hl
  | G2 => exact at_onTail f j F hF h0 (modes N .G2) t idx hl
  | G3 => exact at_onTail f j F hF h0 (modes N .G3) t idx hl
  | G4 => exact at_onTail f j F hF h0 (modes N .G4) t idx hl

theorem entry_mapSurf {kind kind' : Kind} {A N : Nat}
    (f : Tensor α (surf kind A) → Tensor α (surf kind' A)) (j : List Nat)
    (F : (List Nat → α) → α) (hF : ∀ x, at_ (surf kind' A) (f x) j = F fun j' => at_ (surf kind A) x j')
    (h0 : F (fun _ => 0) = 0) (m : Model α kind A N) (k : Key) (hk : k ≠ .w)
    (idx : List Nat) (hl : idx.length = order k) :
    entry (m.mapSurf f).toDict k (idx ++ j) = F fun j' => entry m.toDict k (idx ++ j') := by
  simp only [entry_toDict, Model.mapSurf]
  cases m.arr k with
  | none => simp [at_zeros, h0]
  | some t => exact at_mapSurf f j F hF h0 k hk t idx hl

theorem entry_mapSurf_w {kind kind' : Kind} {A N : Nat}
    (f : Tensor α (surf kind A) → Tensor α (surf kind' A)) (m : Model α kind A N) (idx : List Nat) :
    entry (m.mapSurf f).toDict .w idx = entry m.toDict .w idx := by
  simp only [entry_toDict, Model.mapSurf]
  cases m.arr .w with
  | none => rfl
  | some t => rfl

theorem entry_length {kind : Kind} {A N : Nat} (m : Model α kind A N) (k : Key) (idx : List Nat)
    (h : idx.length ≠ (shape kind A N k).length) : entry m.toDict k idx = 0 := by
  rw [entry_eq_get]; exact at_length _ _ h

/-- Entries of a coupled model are determined by those at indices `modes ++ [a, b]`. -/
theorem entry_cases_coupled {A N : Nat} (m : Model α .coupled A N) (k : Key) (hk : k ≠ .w)
    (idx : List Nat) : (∃ i a b, idx = i ++ [a, b] ∧ i.length = order k) ∨ entry m.toDict k idx = 0 := by
  by_cases h : idx.length = order k + 2
  · left
    have h1 : (idx.drop (order k)).length = 2 := by rw [List.length_drop]; omega
    obtain ⟨a, b, hab⟩ := List.length_eq_two.mp h1
    exact ⟨idx.take (order k), a, b, by rw [← hab, List.take_append_drop], by
      rw [List.length_take]; omega⟩
  · right
    apply entry_length
    cases k <;> simp_all [shape, modes, surf, order]

theorem at_zeroOffdiag {A : Nat} (a b : Nat) (x : Tensor α [A, A]) :
    at_ [A, A] (zeroOffdiag x) [a, b] = if a = b then at_ [A, A] x [a, b] else 0 := by
  simp only [at_, zeroOffdiag]
  by_cases ha : a < A
  · by_cases hb : b < A
    · simp [ha, hb]
    · simp [hb]
  · simp [ha]

theorem at_diagonalOf {A : Nat} (a : Nat) (x : Tensor α [A, A]) :
    at_ [A] (diagonalOf x) [a] = at_ [A, A] x [a, a] := by
  simp only [at_, diagonalOf]
  by_cases ha : a < A
  · simp [ha]
  · simp [ha]

end Pibronic.ModelIO
