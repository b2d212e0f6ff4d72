import Verif.Lemmas.ModelEntries
import Mathlib.LinearAlgebra.Matrix.Charpoly.Basic
import Mathlib.LinearAlgebra.Matrix.Symmetric

set_option autoImplicit false
set_option linter.unusedSectionVars false

/-! Helper lemmas about surface matrices and `create_fake_coupled_model`. -/
namespace Pibronic.ModelIO
open Py Spec.ModelIO
variable {α : Type} [CommRing α] [DecidableEq α]

theorem at_tail_zero {s : List Nat} (j : List Nat) (h : ∀ x : Tensor α s, at_ s x j = 0)
    (ms : List Nat) (x : Tensor α (ms ++ s)) (idx : List Nat) (hl : idx.length = ms.length) :
    at_ (ms ++ s) x (idx ++ j) = 0 := by
  induction ms generalizing idx with
  | nil =>
    obtain rfl := List.length_eq_zero_iff.mp hl
    exact h x
  | cons m ms ih =>
    cases idx with
    | nil => simp at hl
    | cons i idx =>
      simp only [List.cons_append, at_]
      by_cases h : i < m
      · simp only [h, dite_true]; exact ih (x ⟨i, h⟩) idx (by simpa using hl)
      · simp only [h, dite_false]

theorem at_pair_out {A : Nat} {a b : Nat} (h : ¬ (a < A ∧ b < A)) (x : Tensor α [A, A]) :
    at_ [A, A] x [a, b] = 0 := by
  simp only [at_]
  by_cases ha : a < A
  · have hb : ¬ b < A := fun hb => h ⟨ha, hb⟩
    simp [hb]
  · simp [ha]

theorem order_eq (N : Nat) (k : Key) (hk : k ≠ .w) : (modes N k).length = order k := by
  cases k <;> first | rfl | exact absurd rfl hk

theorem shape_coupled (A N : Nat) (k : Key) (hk : k ≠ .w) :
    shape .coupled A N k = modes N k ++ [A, A] := by
  cases k <;> first | rfl | exact absurd rfl hk

theorem at_out {A N : Nat} {a b : Nat} (h : ¬ (a < A ∧ b < A)) (k : Key) (hk : k ≠ .w)
    (t : Tensor α (shape .coupled A N k)) (idx : List Nat) (hl : idx.length = order k) :
    at_ (shape .coupled A N k) t (idx ++ [a, b]) = 0 := by
  have := order_eq N k hk
  cases k with
  | w => exact absurd rfl hk
  | E => exact at_tail_zero [a, b] (at_pair_out h) (modes N .E) t idx hl
  | G1 => exact at_tail_zero [a, b] (at_pair_out h) (modes N .G1) t idx hl
  | G2 => exact at_tail_zero [a, b] (at_pair_out h) (modes N .G2) t idx hl
  | G3 => exact at_tail_zero [a, b] (at_pair_out h) (modes N .G3) t idx hl
  | G4 => exact at_tail_zero [a, b] (at_pair_out h) (modes N .G4) t idx hl

/-- Entries outside the surfaces are zero. -/
theorem entry_out {A N : Nat} (m : Model α .coupled A N) {a b : Nat} (h : ¬ (a < A ∧ b < A)) (k : Key)
    (hk : k ≠ .w) (idx : List Nat) (hl : idx.length = order k) :
    entry m.toDict k (idx ++ [a, b]) = 0 := by
  rw [entry_eq_get]; exact at_out h k hk _ idx hl

/-- Two coupled models of the same dimensions are the same when frequencies and surface matrices
agree. -/
theorem sameModel_of_surfaces {A N : Nat} {m m' : Model α .coupled A N}
    (hw : ∀ idx, entry m.toDict .w idx = entry m'.toDict .w idx)
    (h : ∀ k idx, k ≠ .w → idx.length = order k →
      surfaceMatrix m.toDict A k idx = surfaceMatrix m'.toDict A k idx) :
    SameModel m.toDict m'.toDict := by
  refine ⟨rfl, rfl, fun k idx => ?_⟩
  by_cases hk : k = .w
  · subst hk; exact hw idx
  · by_cases hl : idx.length = order k + 2
    · have h1 : (idx.drop (order k)).length = 2 := by rw [List.length_drop]; omega
      obtain ⟨a, b, hab⟩ := List.length_eq_two.mp h1
      have hidx : idx = idx.take (order k) ++ [a, b] := by rw [← hab, List.take_append_drop]
      have hlen : (idx.take (order k)).length = order k := by rw [List.length_take]; omega
      rw [hidx]
      by_cases ho : a < A ∧ b < A
      · exact congrFun (congrFun (h k _ hk hlen) ⟨a, ho.1⟩) ⟨b, ho.2⟩
      · rw [entry_out m ho k hk _ hlen, entry_out m' ho k hk _ hlen]
    · rw [entry_length, entry_length] <;>
      · rw [shape_coupled _ _ _ hk, List.length_append, order_eq _ _ hk]
        simpa using hl

theorem surfaceSymmetric_iff {A N : Nat} (m : Model α .coupled A N) :
    SurfaceSymmetric m.toDict ↔ ∀ k idx, k ≠ .w → idx.length = order k →
      (surfaceMatrix m.toDict A k idx).IsSymm := by
  constructor
  · intro h k idx hk hl
    ext a b
    exact h k idx b a hk hl
  · intro h k idx a b hk hl
    by_cases ho : a < A ∧ b < A
    · exact congrFun (congrFun (h k idx hk hl) ⟨b, ho.2⟩) ⟨a, ho.1⟩
    · rw [entry_out m ho k hk _ hl, entry_out m (fun hc => ho ⟨hc.2, hc.1⟩) k hk _ hl]

/-! ### the code's symmetry tests -/

variable [AllClose α]

theorem symMat_iff {A : Nat} (x : Tensor α [A, A]) :
    SymMat x ↔ ∀ a b, Close (at_ [A, A] x [a, b]) (at_ [A, A] x [b, a]) := by
  constructor
  · intro h a b
    by_cases ho : a < A ∧ b < A
    · simp only [at_, ho.1, ho.2, dite_true]; exact h _ _
    · rw [at_pair_out ho, at_pair_out (fun hc => ho ⟨hc.2, hc.1⟩)]; exact AllClose.refl _
  · intro h a b
    have := h a.1 b.1
    simpa [at_] using this

/-- `P` on every trailing block. -/
def allTail {s : List Nat} (P : Tensor α s → Prop) : (ms : List Nat) → Tensor α (ms ++ s) → Prop
  | [], t => P t
  | _ :: ms, t => ∀ i, allTail P ms (t i)

theorem allTail_iff {A : Nat} (ms : List Nat) (t : Tensor α (ms ++ [A, A])) :
    allTail SymMat ms t ↔ ∀ idx a b, idx.length = ms.length →
      Close (at_ (ms ++ [A, A]) t (idx ++ [a, b])) (at_ (ms ++ [A, A]) t (idx ++ [b, a])) := by
  induction ms with
  | nil =>
    simp only [allTail]
    rw [symMat_iff]
    constructor
    · intro h idx a b hl
      obtain rfl := List.length_eq_zero_iff.mp hl
      exact h a b
    · intro h a b
      exact h [] a b rfl
  | cons m ms ih =>
    simp only [allTail]
    constructor
    · intro h idx a b hl
      cases idx with
      | nil => simp at hl
      | cons i idx =>
        simp only [List.cons_append, at_]
        by_cases hi : i < m
        · simp only [hi, dite_true]
          exact (ih (t ⟨i, hi⟩)).mp (h ⟨i, hi⟩) idx a b (by simpa using hl)
        · simp only [hi, dite_false]; exact AllClose.refl _
    · intro h i
      rw [ih]
      intro idx a b hl
      have := h (i.1 :: idx) a b (by simpa using hl)
      simpa only [List.cons_append, at_, i.2, dite_true] using this

theorem allSurf_iff {A N : Nat} (k : Key) (hk : k ≠ .w) (t : Tensor α (shape .coupled A N k)) :
    allSurf (kind := .coupled) (SymMat (A := A)) k t ↔ ∀ idx a b, idx.length = order k →
      Close (at_ (shape .coupled A N k) t (idx ++ [a, b])) (at_ (shape .coupled A N k) t (idx ++ [b, a])) := by
  cases k with
  | w => exact absurd rfl hk
  | E => exact allTail_iff (modes N .E) t
  | G1 => exact allTail_iff (modes N .G1) t
  | G2 => exact allTail_iff (modes N .G2) t
  | G3 => exact allTail_iff (modes N .G3) t
  | G4 => exact allTail_iff (modes N .G4) t

theorem symmetricInSurfaces_iff {A N : Nat} (m : Model α .coupled A N) :
    SymmetricInSurfaces m ↔ SurfaceNear m.toDict := by
  constructor
  · intro h k idx a b hk hl
    simp only [entry_toDict]
    cases ht : m.arr k with
    | none => simp only [Option.getD_none, at_zeros]; exact AllClose.refl _
    | some t => exact (allSurf_iff k hk t).mp (h k t ht) idx a b hl
  · intro h k t ht
    by_cases hk : k = .w
    · subst hk; trivial
    · rw [allSurf_iff k hk]
      intro idx a b hl
      have := h k idx a b hk hl
      simpa only [entry_toDict, ht, Option.getD_some] using this

theorem at_close2 {A : Nat} {x y : Tensor α [A, A]}
    (h : ∀ a b, Close (at_ [A, A] x [a, b]) (at_ [A, A] y [a, b])) : Tensor.Close [A, A] x y := by
  intro a b
  show AllClose.Close (x a b : α) (y a b)
  have := h a.1 b.1
  simpa [at_] using this

theorem symmetricInModes_iff {A N : Nat} (m : Model α .coupled A N) :
    SymmetricInModes m ↔ ModeNear m.toDict := by
  unfold SymmetricInModes ModeNear
  refine and_congr ?_ ?_
  · constructor
    · intro h i j a b
      simp only [entry_toDict]
      cases ht : m.arr .G2 with
      | none => simp only [Option.getD_none, at_zeros]; exact AllClose.refl _
      | some t =>
        show Close (at_ [N, N, A, A] t [i, j, a, b]) (at_ [N, N, A, A] t [j, i, a, b])
        by_cases hi : i < N <;> by_cases hj : j < N <;>
          simp only [at_, hi, hj, dite_true, dite_false] <;> try exact AllClose.refl _
        exact at_close.mp (h t ht ⟨i, hi⟩ ⟨j, hj⟩) [a, b]
    · intro h t ht i j
      apply at_close2
      intro a b
      have := h i.1 j.1 a b
      simp only [entry_toDict, ht] at this
      replace this : Close (at_ [N, N, A, A] t [i.1, j.1, a, b]) (at_ [N, N, A, A] t [j.1, i.1, a, b]) := this
      simpa only [at_, i.2, j.2, dite_true] using this
  · constructor
    · intro h i j k l a b
      simp only [entry_toDict]
      cases ht : m.arr .G4 with
      | none => simp only [Option.getD_none, at_zeros]; exact AllClose.refl _
      | some t =>
        show Close (at_ [N, N, N, N, A, A] t [i, j, k, l, a, b]) (at_ [N, N, N, N, A, A] t [j, i, l, k, a, b])
        by_cases hi : i < N <;> by_cases hj : j < N <;> by_cases hk : k < N <;> by_cases hl : l < N <;>
          simp only [at_, hi, hj, hk, hl, dite_true, dite_false] <;> try exact AllClose.refl _
        exact at_close.mp (h t ht ⟨i, hi⟩ ⟨j, hj⟩ ⟨k, hk⟩ ⟨l, hl⟩) [a, b]
    · intro h t ht i j k l
      apply at_close2
      intro a b
      have := h i.1 j.1 k.1 l.1 a b
      simp only [entry_toDict, ht] at this
      replace this : Close (at_ [N, N, N, N, A, A] t [i.1, j.1, k.1, l.1, a, b])
        (at_ [N, N, N, N, A, A] t [j.1, i.1, l.1, k.1, a, b]) := this
      simpa only [at_, i.2, j.2, k.2, l.2, dite_true] using this

/-! ### the transformation -/

theorem surfaceMatrix_einsum {A N : Nat} (U : Tensor α [A, A]) (m : Model α .coupled A N) (k : Key)
    (hk : k ≠ .w) (idx : List Nat) (hl : idx.length = order k) :
    surfaceMatrix (Model.mapSurf (kind := .coupled) (kind' := .coupled) (einsumSurf U) m).toDict A k idx
      = toMat U * surfaceMatrix m.toDict A k idx * (toMat U).transpose := by
  ext b c
  have := entry_mapSurf (kind := .coupled) (kind' := .coupled) (einsumSurf U) [b.1, c.1]
    (fun v => ∑ j : Fin A, ∑ k : Fin A, toMat U b j * v [j.1, k.1] * toMat U c k)
    (fun x => by simp [at_, surf, einsumSurf, toMat]) (by simp) m k hk idx hl
  rw [surfaceMatrix, this, Matrix.mul_apply, Finset.sum_comm]
  refine Finset.sum_congr rfl fun k' _ => ?_
  rw [Matrix.mul_apply, Finset.sum_mul]
  rfl

/-- What a successful call does. -/
theorem createFake_ok {vib orig : Str} {stored : Option (NDArray α)} {arg : UArg α} {disk : Disk α}
    {ops : List (Op α)} {U : NDArray α} (h : createFake vib orig stored arg disk = .ok (ops, U)) :
    ∃ old, ∃ v : Verified α .coupled, ∃ u : Tensor α [v.A, v.A], disk vib = some old ∧
      load .coupled vib disk = .ok v ∧ chooseU v.A stored arg = .ok u ∧
      SurfaceNear v.model.toDict ∧ ModeNear v.model.toDict ∧ U = ⟨[v.A, v.A], u⟩ ∧
      ops = [⟨orig, none⟩, ⟨orig, some old⟩, ⟨vib, none⟩, ⟨vib, some (toFile
        (Model.mapSurf (kind := .coupled) (kind' := .coupled) (einsumSurf u) v.model).toDict)⟩] := by
  unfold createFake at h
  cases hd : disk vib with
  | none => rw [hd] at h; cases h
  | some old =>
    rw [hd] at h
    simp only [bind, Except.bind] at h
    cases hv : load .coupled vib disk with
    | error e => rw [hv] at h; cases h
    | ok v =>
      rw [hv] at h
      simp only at h
      cases hu : chooseU v.A stored arg with
      | error e => rw [hu] at h; cases h
      | ok u =>
        rw [hu] at h
        simp only at h
        split at h
        · next hs =>
          rw [verify_toDict] at h
          simp only [Except.ok.injEq, Prod.mk.injEq] at h
          exact ⟨old, v, u, rfl, rfl, hu, (symmetricInSurfaces_iff _).mp hs.1,
            (symmetricInModes_iff _).mp hs.2, h.2.symm, h.1.symm⟩
        · cases h

theorem runOps_four (vib orig : Str) (old new : File α) (disk : Disk α) :
    runOps [⟨orig, none⟩, ⟨orig, some old⟩, ⟨vib, none⟩, ⟨vib, some new⟩] disk
      = (disk.write orig old).write vib new := by
  funext p
  simp only [runOps, List.foldl, Op.run, Disk.write]
  split <;> [rfl; split <;> rfl]

end Pibronic.ModelIO
