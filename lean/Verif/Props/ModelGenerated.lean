import Verif.Lemmas.FakeCoupling
import Verif.Props.ModelFiles
import Mathlib.Algebra.Order.Field.Basic
import Mathlib.Algebra.BigOperators.Field
import Mathlib.Algebra.Order.BigOperators.Group.Finset
import Mathlib.Order.Bounds.Basic
import Mathlib.Tactic.Linarith
import Mathlib.Tactic.FieldSimp
import Mathlib.Tactic.Ring
import Mathlib.Tactic.Positivity
import Mathlib.Algebra.Order.Ring.Rat

set_option autoImplicit false
set_option linter.unusedSectionVars false

/-!
Theorems about generated models (C10) and about re-weighted energies of sampling models (C11).
-/
namespace Pibronic.Props.ModelGenerated
open Py Pibronic.ModelIO Spec.ModelIO ModelFiles
variable {α : Type} [Field α]

/-! ### C10 -/

section
variable [DecidableEq α] [AllClose α]

theorem symmetrise_apply {A : Nat} (x : Tensor α [A, A]) (a b : Fin A) :
    symmetrise x a b = x (max a b) (min a b) := by
  simp only [symmetrise]
  rcases lt_trichotomy a b with h | h | h
  · rw [if_neg (not_le.mpr h), if_pos h, zero_add, max_eq_right h.le, min_eq_left h.le]
  · subst h; simp
  · rw [if_pos h.le, if_neg (not_lt.mpr h.le), add_zero, max_eq_left h.le, min_eq_right h.le]

theorem symmetrise_sym {A : Nat} (x : Tensor α [A, A]) (a b : Fin A) :
    (symmetrise x a b : α) = symmetrise x b a := by
  rw [symmetrise_apply, symmetrise_apply, max_comm, min_comm]

omit [AllClose α] in
theorem generated_symmetric (A N : Nat) (lo hi : α) (e : Tensor α [A, A]) (g : Fin N → Tensor α [A, A]) :
    SurfaceSymmetric (generated A N lo hi e g).toDict ∧ ModeSymmetric (generated A N lo hi e g).toDict := by
  -- exact equality is a comparison of numbers, too
  let exact' : AllClose α := ⟨(· = ·), fun _ => rfl⟩
  have hs' : @SymmetricInSurfaces α exact' A N (generated A N lo hi e g) := by
    intro k t ht
    cases k with
    | w => trivial
    | E => cases ht; exact symmetrise_sym e
    | G1 => cases ht; intro i; exact symmetrise_sym (g i)
    | G2 => cases ht; intro i j a b; rfl
    | G3 => cases ht; intro i j k a b; rfl
    | G4 => cases ht; intro i j k l a b; rfl
  have hm' : @SymmetricInModes α exact' A N (generated A N lo hi e g) :=
    ⟨fun t ht i j => by cases ht; exact @Tensor.Close.refl α exact' _ _,
      fun t ht i j k l => by cases ht; exact @Tensor.Close.refl α exact' _ _⟩
  have hs2 : SurfaceSymmetric (generated A N lo hi e g).toDict :=
    (@symmetricInSurfaces_iff α _ _ exact' A N _).mp hs'
  have hm2 : ModeSymmetric (generated A N lo hi e g).toDict :=
    (@symmetricInModes_iff α _ _ exact' A N _).mp hm'
  exact ⟨hs2, hm2⟩

/-- C10: for every outcome of the random draws and every size the generator passes its assertions
and returns a valid model, symmetric in the surfaces and in the modes. -/
theorem C10_coupled_valid (A N : Nat) (lo hi : α) (e : Tensor α [A, A])
    (g : Fin N → Tensor α [A, A]) :
    ∃ d, generateCoupled A N lo hi e g = .ok d ∧ WellFormed .coupled d ∧ d.A = some A ∧
      d.N = some N ∧ SurfaceSymmetric d ∧ ModeSymmetric d := by
  obtain ⟨hs2, hm2⟩ := generated_symmetric A N lo hi e g
  have hs := (symmetricInSurfaces_iff (generated A N lo hi e g)).mpr hs2.near
  have hm := (symmetricInModes_iff (generated A N lo hi e g)).mpr hm2.near
  refine ⟨(generated A N lo hi e g).toDict, ?_, wellFormed_iff.mpr ⟨A, N, _, rfl⟩, rfl, rfl,
    hs2, hm2⟩
  unfold generateCoupled
  simp only [verify_toDict, bind, Except.bind]
  exact if_pos ⟨hs, hm⟩

/-- C10: energies and linear terms are the draws at `(max a b, min a b)` (so they stay in the range
of the draws), frequencies are evenly spaced, everything else is zero. -/
theorem C10_coupled_values (A N : Nat) (lo hi : α) (e : Tensor α [A, A])
    (g : Fin N → Tensor α [A, A]) (d : Dict α) (h : generateCoupled A N lo hi e g = .ok d) :
    (∀ a b : Fin A, entry d .E [a.1, b.1] = e (max a b) (min a b)) ∧
    (∀ (i : Fin N) (a b : Fin A), entry d .G1 [i.1, a.1, b.1] = g i (max a b) (min a b)) ∧
    (∀ i : Fin N, N ≠ 1 → entry d .w [i.1] = lo + (i.1 : α) * ((hi - lo) / ((N : α) - 1))) ∧
    (N = 1 → entry d .w [0] = lo) ∧
    ∀ k idx, k = .G2 ∨ k = .G3 ∨ k = .G4 → entry d k idx = 0 := by
  have hd : d = (generated A N lo hi e g).toDict := by
    unfold generateCoupled at h
    simp only [verify_toDict, bind, Except.bind] at h
    split at h
    · cases h; rfl
    · cases h
  subst hd
  refine ⟨fun a b => ?_, fun i a b => ?_, fun i hN => ?_, fun hN => ?_, fun k idx hk => ?_⟩
  · rw [entry_toDict]
    show at_ [A, A] (symmetrise e) [a.1, b.1] = _
    simp only [at_, a.2, b.2, dite_true]
    exact symmetrise_apply e a b
  · rw [entry_toDict]
    show at_ [N, A, A] (fun i => symmetrise (g i)) [i.1, a.1, b.1] = _
    simp only [at_, i.2, a.2, b.2, dite_true]
    exact symmetrise_apply (g i) a b
  · rw [entry_toDict]
    show at_ [N] (linspace lo hi N) [i.1] = _
    simp only [at_, i.2, dite_true, linspace, hN, if_false]
  · subst hN
    rw [entry_toDict]
    show at_ [1] (linspace lo hi 1) [0] = _
    simp [at_, linspace]
  · rw [entry_toDict]
    rcases hk with rfl | rfl | rfl <;> exact at_zeros _ _

/-- C10: the diagonal variant is a valid diagonal model, the diagonal of the coupled one. -/
theorem C10_diagonal_valid (A N : Nat) (lo hi : α) (e : Tensor α [A, A])
    (g : Fin N → Tensor α [A, A]) :
    WellFormed .diagonal (generateDiagonal A N lo hi e g) ∧
    (generateDiagonal A N lo hi e g).A = some A ∧ (generateDiagonal A N lo hi e g).N = some N ∧
    ∃ d, generateCoupled A N lo hi e g = .ok d ∧
      (∀ i, entry (generateDiagonal A N lo hi e g) .w [i] = entry d .w [i]) ∧
      (∀ a : Fin A, entry (generateDiagonal A N lo hi e g) .E [a.1] = entry d .E [a.1, a.1]) ∧
      ∀ (i : Fin N) (a : Fin A),
        entry (generateDiagonal A N lo hi e g) .G1 [i.1, a.1] = entry d .G1 [i.1, a.1, a.1] := by
  obtain ⟨d, hd, -⟩ := C10_coupled_valid A N lo hi e g
  obtain ⟨hE, hG, -⟩ := C10_coupled_values A N lo hi e g d hd
  refine ⟨wellFormed_iff.mpr ⟨A, N, _, rfl⟩, rfl, rfl, d, hd, fun i => ?_, fun a => ?_, fun i a => ?_⟩
  · have hd' : d = (generated A N lo hi e g).toDict := by
      unfold generateCoupled at hd
      simp only [verify_toDict, bind, Except.bind] at hd
      split at hd
      · cases hd; rfl
      · cases hd
    subst hd'
    rfl
  · rw [hE, max_self, min_self]
    unfold generateDiagonal
    rw [entry_toDict]
    show at_ [A] (diagonalOf (symmetrise e)) [a.1] = _
    simp only [at_, a.2, dite_true, diagonalOf]
    rw [symmetrise_apply, max_self, min_self]
  · rw [hG, max_self, min_self]
    unfold generateDiagonal
    rw [entry_toDict]
    show at_ [N, A] (fun i => diagonalOf (symmetrise (g i))) [i.1, a.1] = _
    simp only [at_, i.2, a.2, dite_true, diagonalOf]
    rw [symmetrise_apply, max_self, min_self]

/-- C10: generated models can be saved. -/
theorem C10_savable (A N : Nat) (lo hi : α) (e : Tensor α [A, A]) (g : Fin N → Tensor α [A, A])
    (path : Str) (disk : Disk α) :
    (∃ d, generateCoupled A N lo hi e g = .ok d ∧ (save .coupled path d disk).1 = .ok ()) ∧
    (save .diagonal path (generateDiagonal A N lo hi e g) disk).1 = .ok () := by
  obtain ⟨d, hd, hw, -⟩ := C10_coupled_valid A N lo hi e g
  exact ⟨⟨d, hd, (C03_accepted_iff_wellFormed _ _ _ _).mpr hw⟩,
    (C03_accepted_iff_wellFormed _ _ _ _).mpr (C10_diagonal_valid A N lo hi e g).1⟩

/-- C10: the templates are valid models of the given sizes in which every number is zero; saved, only
the sizes are written. -/
theorem C10_template (kind : Kind) (A N : Nat) (path : Str) (disk : Disk α) :
    WellFormed kind (zerosTemplate kind A N : Dict α) ∧
    (zerosTemplate kind A N : Dict α).A = some A ∧ (zerosTemplate kind A N : Dict α).N = some N ∧
    (∀ k, ((zerosTemplate kind A N : Dict α).arr k).isSome) ∧
    (∀ k idx, entry (zerosTemplate kind A N : Dict α) k idx = 0) ∧
    ∃ disk', save kind path (zerosTemplate kind A N) disk = (.ok (), disk') ∧
      disk' path = some [(c!"number of modes", J.int N), (c!"number of surfaces", J.int A)] := by
  have hw : WellFormed kind (zerosTemplate kind A N : Dict α) := by
    refine ⟨A, N, rfl, rfl, fun k a h => ?_⟩
    cases h
    cases kind <;> cases k <;> rfl
  refine ⟨hw, rfl, rfl, fun _ => rfl, fun k idx => at_zeros _ idx, ?_⟩
  obtain ⟨v, hv⟩ : ∃ v, verify kind (zerosTemplate kind A N : Dict α) = .ok v := by
    have := (C03_accepted_iff_wellFormed kind path (zerosTemplate kind A N) disk).mpr hw
    unfold save at this
    cases h : verify kind (zerosTemplate kind A N : Dict α) with
    | ok v => exact ⟨v, rfl⟩
    | error e => rw [h] at this; cases this
  refine ⟨disk.write path (toFile (zerosTemplate kind A N)), by simp only [save, hv], ?_⟩
  have hf : toFile (zerosTemplate kind A N : Dict α) =
      [(c!"number of modes", J.int N), (c!"number of surfaces", J.int A)] := by
    unfold toFile
    have e : ∀ f : Key → Option (Str × J α), (∀ k, f k = none) → Key.all.filterMap f = [] :=
      fun f h => List.filterMap_eq_nil_iff.mpr fun k _ => h k
    rw [e _ fun k => ?_]
    · rfl
    · show (if Tensor.nonzero _ (Tensor.zeros _) = true then _ else none) = none
      rw [Tensor.nonzero_zeros]; rfl
  rw [hf]
  simp [Disk.write]

/-- C10: the quadratic generator gives terms that are symmetric in the modes and in the surfaces. -/
theorem C10_quadratic_symmetric {A N : Nat} (draw : Fin N → Fin N → Tensor α [A, A]) :
    (∀ i j, generateQuadratic draw (Tensor.zeros [N, N, A, A]) i j
      = generateQuadratic draw (Tensor.zeros [N, N, A, A]) j i) ∧
    ∀ (i j : Fin N) (a b : Fin A), generateQuadratic draw (Tensor.zeros [N, N, A, A]) i j a b
      = generateQuadratic draw (Tensor.zeros [N, N, A, A]) i j b a := by
  have key : ∀ (l : List (Fin N × Fin N)) (q : Tensor α [N, N, A, A]),
      ((∀ i j, q i j = q j i) ∧ ∀ (i j : Fin N) (a b : Fin A), (q i j a b : α) = q i j b a) →
      ((∀ i j, l.foldl (setQuadratic draw) q i j = l.foldl (setQuadratic draw) q j i) ∧
        ∀ (i j : Fin N) (a b : Fin A), (l.foldl (setQuadratic draw) q i j a b : α)
          = l.foldl (setQuadratic draw) q i j b a) := by
    intro l
    induction l with
    | nil => exact fun q h => h
    | cons p l ih =>
      intro q h
      apply ih
      constructor
      · intro i j
        simp only [setQuadratic]
        rw [h.1 i j]
        simp only [or_comm]
      · intro i j a b
        simp only [setQuadratic]
        split
        · exact symmetrise_sym _ a b
        · exact h.2 i j a b
  exact key _ _ ⟨fun _ _ => rfl, fun _ _ _ _ => rfl⟩

end

/-! ### C11 -/

variable [LinearOrder α] [IsStrictOrderedRing α]

theorem entry_w {kind : Kind} {A N : Nat} (m : Model α kind A N) (i : Fin N) :
    entry m.toDict .w [i.1] = (m.get .w : Tensor α [N]) i := by
  rw [entry_eq_get]
  show at_ [N] (m.get .w) [i.1] = _
  simp only [at_, i.2, dite_true]

theorem entry_G1d {A N : Nat} (m : Model α .diagonal A N) (i : Fin N) (a : Fin A) :
    entry m.toDict .G1 [i.1, a.1] = (m.get .G1 : Tensor α [N, A]) i a := by
  rw [entry_eq_get]
  show at_ [N, A] (m.get .G1) [i.1, a.1] = _
  simp only [at_, i.2, a.2, dite_true]

theorem entry_G1c {A N : Nat} (m : Model α .coupled A N) (i : Fin N) (a b : Fin A) :
    entry m.toDict .G1 [i.1, a.1, b.1] = (m.get .G1 : Tensor α [N, A, A]) i a b := by
  rw [entry_eq_get]
  show at_ [N, A, A] (m.get .G1) [i.1, a.1, b.1] = _
  simp only [at_, i.2, a.2, b.2, dite_true]

theorem entry_Ec {A N : Nat} (m : Model α .coupled A N) (a b : Fin A) :
    entry m.toDict .E [a.1, b.1] = (m.get .E : Tensor α [A, A]) a b := by
  rw [entry_eq_get]
  show at_ [A, A] (m.get .E) [a.1, b.1] = _
  simp only [at_, a.2, b.2, dite_true]

/-- The minimum of a displaced oscillator. -/
theorem square_min (w g q : α) (hw : 0 < w) :
    w * q ^ 2 / 2 + g * q = w * (q - -g / w) ^ 2 / 2 - g ^ 2 / w / 2 := by
  field_simp
  ring

theorem minimum_eq (iter : Verified α .diagonal) (a : Fin iter.A) (i : Fin iter.N) :
    minimum iter a i = -(entry iter.model.toDict .G1 [i.1, a.1]) / entry iter.model.toDict .w [i.1] := by
  rw [entry_w, entry_G1d]
  unfold minimum
  cases h : iter.model.arr .G1 with
  | none =>
    simp only [Model.get, h]
    show (0 : α) = -(0 : α) / _
    simp
  | some g => simp [Model.get, h]

theorem sum_min {N : Nat} (w g q : Fin N → α) (hw : ∀ i, 0 < w i) :
    ∑ i, (w i * q i ^ 2 / 2 + g i * q i) =
      (∑ i, w i * (q i - -(g i) / w i) ^ 2 / 2) - (∑ i, g i ^ 2 / w i) / 2 := by
  rw [Finset.sum_div, ← Finset.sum_sub_distrib]
  exact Finset.sum_congr rfl fun i _ => square_min _ _ _ (hw i)

/-- Where the oscillator of surface `a` is lowest. -/
theorem oscillator_least (d : Dict α) (N a : Nat) (hw : ∀ i : Fin N, 0 < entry d .w [i.1]) :
    (∀ q, oscillator d N a (fun i => -(entry d .G1 [i.1, a]) / entry d .w [i.1]) ≤ oscillator d N a q) ∧
    oscillator d N a (fun i => -(entry d .G1 [i.1, a]) / entry d .w [i.1])
      = entry d .E [a] - (∑ i : Fin N, entry d .G1 [i.1, a] ^ 2 / entry d .w [i.1]) / 2 := by
  have h0 : oscillator d N a (fun i => -(entry d .G1 [i.1, a]) / entry d .w [i.1])
      = entry d .E [a] - (∑ i : Fin N, entry d .G1 [i.1, a] ^ 2 / entry d .w [i.1]) / 2 := by
    unfold oscillator
    rw [sum_min (fun i => entry d .w [i.1]) (fun i => entry d .G1 [i.1, a]) _ hw]
    simp [sub_eq_add_neg]
  refine ⟨fun q => ?_, h0⟩
  rw [h0]
  unfold oscillator
  rw [sum_min (fun i => entry d .w [i.1]) (fun i => entry d .G1 [i.1, a]) _ hw]
  have : 0 ≤ ∑ i : Fin N, entry d .w [i.1] *
      (q i - -(entry d .G1 [i.1, a]) / entry d .w [i.1]) ^ 2 / 2 :=
    Finset.sum_nonneg fun i _ => by have := hw i; positivity
  linarith

/-- `np.allclose(G2, 0.0)` -/
theorem small_iff {kind : Kind} {A N : Nat} {m : Model α kind A N} :
    Tensor.Close _ (m.get .G2) (Tensor.zeros _) ↔ ∀ idx, |entry m.toDict .G2 idx| ≤ 1 / 10 ^ 8 := by
  rw [at_close]
  refine forall_congr' fun idx => ?_
  rw [close_iff, at_zeros, ← entry_eq_get, sub_zero, abs_zero, mul_zero, add_zero]

/-- C11: after a successful call, the lowest point of the oscillator of every surface `a` in the
written model lies where it was before, and its height is the lowest eigenvalue (`minEig`) of the
potential energy matrix of the coupled model at that point; all other parameters are unchanged, and
no other file is written.  Both models have no quadratic terms above `1e-8`; smaller ones are ignored. -/
theorem C11_reweighted_energies (minEig : (A : Nat) → Tensor α [A, A] → α) (vibPath path : Str)
    (disk : Disk α) (iter : Verified α .diagonal) (vib : Verified α .coupled)
    (h1 : load .diagonal path disk = .ok iter) (h2 : load .coupled vibPath disk = .ok vib)
    (hw : ∀ i : Fin iter.N, 0 < entry iter.model.toDict .w [i.1])
    (h : (recalculate minEig vibPath path disk).1 = .ok ()) :
    iter.N = vib.N ∧ (∀ idx, |entry iter.model.toDict .G2 idx| ≤ 1 / 10 ^ 8) ∧
      (∀ idx, |entry vib.model.toDict .G2 idx| ≤ 1 / 10 ^ 8) ∧
      ∃ d, (recalculate minEig vibPath path disk).2 path = some (toFile d) ∧
      WellFormed .diagonal d ∧ d.A = some iter.A ∧ d.N = some iter.N ∧
      (∀ p, p ≠ path → (recalculate minEig vibPath path disk).2 p = disk p) ∧
      (∀ k idx, k ≠ .E → entry d k idx = entry iter.model.toDict k idx) ∧
      ∀ a : Fin iter.A, ∃ q : Fin iter.N → α,
        (∀ q', oscillator iter.model.toDict iter.N a q ≤ oscillator iter.model.toDict iter.N a q') ∧
        (∀ q', oscillator d iter.N a q ≤ oscillator d iter.N a q') ∧
        ∀ qv : Fin vib.N → α, (∀ (i : Fin iter.N) (j : Fin vib.N), i.1 = j.1 → qv j = q i) →
          oscillator d iter.N a q
            = minEig vib.A (fun b c => potentialMatrix vib.model.toDict vib.A vib.N qv b c) := by
  unfold recalculate at h ⊢
  rw [h1, h2] at h ⊢
  simp only [bind, Except.bind] at h ⊢
  cases hs : singlePoint minEig iter vib with
  | error e => rw [hs] at h; cases h
  | ok new =>
    rw [hs] at h
    simp only at h ⊢
    cases hwa : iter.model.arr .w with
    | none => rw [hwa] at h; cases h
    | some w =>
      simp only [save, verify_toDict]
      unfold singlePoint at hs
      split at hs; · cases hs
      next hq1 =>
      split at hs; · cases hs
      split at hs; · cases hs
      split at hs; · cases hs
      next hq2 =>
      split at hs
      rotate_left
      · cases hs
      next hN =>
      cases hs
      generalize hnew : storedEnergies (fun a => minEig vib.A
        (potentialAt vib (minimum iter a ∘ Fin.cast hN.symm))) (iter.model.get .G1) w = e
      have hother : ∀ k idx, k ≠ .E → entry (iter.model.withEnergies e).toDict k idx
          = entry iter.model.toDict k idx := by
        intro k idx hk
        simp only [entry_toDict]
        cases k <;> first | rfl | exact absurd rfl hk
      refine ⟨hN, small_iff.mp (not_not.mp hq1), small_iff.mp (not_not.mp hq2),
        (iter.model.withEnergies e).toDict, by simp [Disk.write],
        wellFormed_iff.mpr ⟨iter.A, iter.N, _, rfl⟩, rfl, rfl,
        fun p hp => by simp [Disk.write, hp], hother, fun a => ?_⟩
      have hwd : ∀ i : Fin iter.N, 0 < entry (iter.model.withEnergies e).toDict .w [i.1] := by
        intro i; rw [hother _ _ (by decide)]; exact hw i
      have hl1 := oscillator_least iter.model.toDict iter.N a hw
      have hl2 := oscillator_least (iter.model.withEnergies e).toDict iter.N a hwd
      simp only [hother _ _ (show Key.w ≠ .E by decide), hother _ _ (show Key.G1 ≠ .E by decide)] at hl2
      refine ⟨_, hl1.1, hl2.1, fun qv hqv => ?_⟩
      rw [hl2.2]
      have hE : entry (iter.model.withEnergies e).toDict .E [a.1] = e a := by
        rw [entry_toDict]
        show at_ [iter.A] e [a.1] = _
        simp only [at_, a.2, dite_true]
      have hwe : ∀ i : Fin iter.N, entry iter.model.toDict .w [i.1] = (w : Tensor α [iter.N]) i := by
        intro i; rw [entry_w]; simp [Model.get, hwa]
      rw [hE, ← hnew]
      simp only [storedEnergies, entry_G1d, hwe]
      rw [show ∀ x y : α, x - -(1 / 2) * y - y / 2 = x from fun x y => by ring]
      congr 1
      funext b c
      simp only [potentialAt, potentialMatrix]
      have hq : ∀ j : Fin vib.N, (minimum iter a ∘ Fin.cast hN.symm) j = qv j := by
        intro j
        rw [Function.comp_apply, minimum_eq]
        exact (hqv (Fin.cast hN.symm j) j rfl).symm
      simp only [hq, entry_w, entry_G1c, entry_Ec, Finset.sum_div]

/-- C11: the call succeeds when both models have frequencies, the same modes and no quadratic
terms above `1e-8`. -/
theorem C11_succeeds (minEig : (A : Nat) → Tensor α [A, A] → α) (vibPath path : Str)
    (disk : Disk α) (iter : Verified α .diagonal) (vib : Verified α .coupled)
    (h1 : load .diagonal path disk = .ok iter) (h2 : load .coupled vibPath disk = .ok vib)
    (hN : iter.N = vib.N) (hw : ∃ i, entry iter.model.toDict .w [i] ≠ 0)
    (hw' : ∃ i, entry vib.model.toDict .w [i] ≠ 0)
    (hq : ∀ idx, |entry iter.model.toDict .G2 idx| ≤ 1 / 10 ^ 8)
    (hq' : ∀ idx, |entry vib.model.toDict .G2 idx| ≤ 1 / 10 ^ 8) :
    (recalculate minEig vibPath path disk).1 = .ok () := by
  have present : ∀ {kind : Kind} {A N : Nat} (m : Model α kind A N),
      (∃ i, entry m.toDict .w [i] ≠ 0) → ∃ w, m.arr .w = some w := by
    rintro kind A N m ⟨i, hi⟩
    cases h : m.arr .w with
    | none =>
      exfalso; apply hi
      rw [entry_toDict, h]; exact at_zeros _ _
    | some w => exact ⟨w, rfl⟩
  obtain ⟨w, hw⟩ := present _ hw
  obtain ⟨w', hw'⟩ := present _ hw'
  unfold recalculate
  rw [h1, h2]
  simp only [bind, Except.bind]
  have hs : ∃ new, singlePoint minEig iter vib = .ok new := by
    unfold singlePoint
    rw [if_neg (not_not.mpr (small_iff.mpr hq)), if_neg (by simp [hw]), if_neg (by simp [hw']),
      if_neg (not_not.mpr (small_iff.mpr hq')), dif_pos hN]
    exact ⟨_, rfl⟩
  obtain ⟨new, hs⟩ := hs
  rw [hs]
  simp only [hw, save, verify_toDict]

/-- C11: when the energies cannot be computed no file is changed, and the error tells why: quadratic terms
above `1e-8` are refused with an `Exception`, missing frequencies are a `KeyError`, different numbers of modes a
`ValueError`; and a model that cannot be loaded is the error of loading it. -/
theorem C11_errors (minEig : (A : Nat) → Tensor α [A, A] → α) (vibPath path : Str) (disk : Disk α) :
    (∀ e, load .diagonal path disk = .error e → recalculate minEig vibPath path disk = (.error e, disk)) ∧
    (∀ iter e, load .diagonal path disk = .ok iter → load .coupled vibPath disk = .error e →
      recalculate minEig vibPath path disk = (.error e, disk)) ∧
    ∀ iter vib, load .diagonal path disk = .ok iter → load .coupled vibPath disk = .ok vib →
      ((∃ idx, 1 / 10 ^ 8 < |entry iter.model.toDict .G2 idx|) →
        recalculate minEig vibPath path disk = (.error .exception, disk)) ∧
      ((∀ idx, |entry iter.model.toDict .G2 idx| ≤ 1 / 10 ^ 8) → iter.model.toDict.arr .w ≠ none →
        vib.model.toDict.arr .w ≠ none → (∃ idx, 1 / 10 ^ 8 < |entry vib.model.toDict .G2 idx|) →
        recalculate minEig vibPath path disk = (.error .exception, disk)) ∧
      ((∀ idx, |entry iter.model.toDict .G2 idx| ≤ 1 / 10 ^ 8) → (∀ idx, |entry vib.model.toDict .G2 idx| ≤ 1 / 10 ^ 8) →
        iter.N = vib.N → iter.model.toDict.arr .w = none ∨ vib.model.toDict.arr .w = none →
        recalculate minEig vibPath path disk = (.error .key, disk)) ∧
      ((∀ idx, |entry iter.model.toDict .G2 idx| ≤ 1 / 10 ^ 8) → (∀ idx, |entry vib.model.toDict .G2 idx| ≤ 1 / 10 ^ 8) →
        iter.model.toDict.arr .w ≠ none → vib.model.toDict.arr .w ≠ none → iter.N ≠ vib.N →
        recalculate minEig vibPath path disk = (.error .value, disk)) := by
  have hz : ∀ {kind : Kind} {A N : Nat} (m : Model α kind A N),
      (∀ idx, |entry m.toDict .G2 idx| ≤ 1 / 10 ^ 8) → ¬ ¬ Tensor.Close _ (m.get .G2) (Tensor.zeros _) :=
    fun m h => not_not.mpr (small_iff.mpr h)
  have hnz : ∀ {kind : Kind} {A N : Nat} (m : Model α kind A N),
      (∃ idx, 1 / 10 ^ 8 < |entry m.toDict .G2 idx|) → ¬ Tensor.Close _ (m.get .G2) (Tensor.zeros _) := by
    rintro kind A N m ⟨idx, h⟩ e
    exact absurd (small_iff.mp e idx) (not_le.mpr h)
  have hw : ∀ {kind : Kind} {A N : Nat} (m : Model α kind A N), m.toDict.arr .w = none ↔ m.arr .w = none := by
    intro kind A N m
    simp [Model.toDict]
  refine ⟨fun e h => ?_, fun iter e h h' => ?_, fun iter vib h h' => ⟨fun h2 => ?_, fun h2 h3 h4 h5 => ?_,
    fun h2 h3 h4 h5 => ?_, fun h2 h3 h4 h5 h6 => ?_⟩⟩
  · unfold recalculate; rw [h]; rfl
  · unfold recalculate; rw [h, h']; rfl
  · have : singlePoint minEig iter vib = .error .exception := by
      unfold singlePoint
      rw [if_pos (hnz _ h2)]
    unfold recalculate; rw [h, h']
    simp only [bind, Except.bind, this]
  · have : singlePoint minEig iter vib = .error .exception := by
      unfold singlePoint
      obtain ⟨w, e⟩ := Option.ne_none_iff_exists'.1 (fun e => h3 ((hw _).2 e))
      obtain ⟨w', e'⟩ := Option.ne_none_iff_exists'.1 (fun e => h4 ((hw _).2 e))
      rw [if_neg (hz _ h2), if_neg (by simp [e]), if_neg (by simp [e']), if_pos (hnz _ h5)]
    unfold recalculate; rw [h, h']
    simp only [bind, Except.bind, this]
  · unfold recalculate; rw [h, h']
    simp only [bind, Except.bind]
    cases e' : vib.model.arr .w with
    | none =>
      have : singlePoint minEig iter vib = .error .key := by
        unfold singlePoint
        rw [if_neg (hz _ h2)]
        split
        · rfl
        · rw [if_pos (by simp [e'])]
      rw [this]
    | some w' =>
      have e : iter.model.arr .w = none := (hw _).1 (h5.resolve_right fun e => by
        rw [(hw _).1 e] at e'; cases e')
      by_cases hg : (iter.model.arr .G1).isSome
      · have : singlePoint minEig iter vib = .error .key := by
          unfold singlePoint
          rw [if_neg (hz _ h2), if_pos ⟨hg, by simp [e]⟩]
        rw [this]
      · have : ∃ new, singlePoint minEig iter vib = .ok new := by
          unfold singlePoint
          rw [if_neg (hz _ h2), if_neg (fun x => hg x.1), if_neg (by simp [e']),
            if_neg (hz _ h3), dif_pos h4]
          exact ⟨_, rfl⟩
        obtain ⟨new, this⟩ := this
        rw [this]
        simp only [e]
  · have : singlePoint minEig iter vib = .error .value := by
      unfold singlePoint
      obtain ⟨w, e⟩ := Option.ne_none_iff_exists'.1 (fun e => h4 ((hw _).2 e))
      obtain ⟨w', e'⟩ := Option.ne_none_iff_exists'.1 (fun e => h5 ((hw _).2 e))
      rw [if_neg (hz _ h2), if_neg (by simp [e]), if_neg (by simp [e']), if_neg (hz _ h3),
        dif_neg h6]
    unfold recalculate; rw [h, h']
    simp only [bind, Except.bind, this]

/-- The hypotheses of C11 are met: one oscillator with frequency 1 and displacement 1 next to a
coupled model with two surfaces. -/
example : ∃ (disk : Disk ℚ) (iter : Verified ℚ .diagonal) (vib : Verified ℚ .coupled),
    load .diagonal c!"rho" disk = .ok iter ∧ load .coupled c!"vib" disk = .ok vib ∧
    (∀ i : Fin iter.N, 0 < entry iter.model.toDict .w [i.1]) ∧
    (∃ i, entry iter.model.toDict .w [i] ≠ 0) ∧ entry iter.model.toDict .G1 [0, 0] ≠ 0 ∧
    ∀ minEig, (recalculate minEig c!"vib" c!"rho" disk).1 = .ok () := by
  let m : Model ℚ .diagonal 1 1 := ⟨fun k => match k with
    | .E => some (fun _ => (1 : ℚ))
    | .w => some (fun _ => (1 : ℚ))
    | .G1 => some (fun _ _ => (1 : ℚ))
    | _ => none⟩
  let c : Model ℚ .coupled 2 1 := ⟨fun k => match k with
    | .E => some (fun a b => if a = b then (1 : ℚ) else 0)
    | .w => some (fun _ => (1 : ℚ))
    | _ => none⟩
  let disk : Disk ℚ := fun p => if p = c!"rho" then some (toFile m.toDict) else
    if p = c!"vib" then some (toFile c.toDict) else none
  have hE : (kept m).arr .E ≠ none := (nonzero_iff_entry m .E).mpr ⟨[0], by
    rw [entry_toDict]; show at_ [1] (fun _ => (1 : ℚ)) [0] ≠ 0; simp [at_]⟩
  have hl : load .diagonal c!"rho" disk = .ok ⟨1, 1, kept m⟩ := by
    rw [load_diagonal m _ _ (by simp [disk]), if_neg hE]
  obtain ⟨c', hl', hg, -⟩ := load_coupled c c!"vib" disk (by simp [disk])
  have e1 : ∀ k idx, entry (kept m).toDict k idx = entry m.toDict k idx := by
    intro k idx; rw [entry_eq_get, kept_get, entry_eq_get]
  have e2 := (sameModel_of_get hg).2.2
  have w1 : entry m.toDict .w [0] = 1 := by
    rw [entry_toDict]; show at_ [1] (fun _ => (1 : ℚ)) [0] = 1; simp [at_]
  have w2 : entry c.toDict .w [0] = 1 := by
    rw [entry_toDict]; show at_ [1] (fun _ => (1 : ℚ)) [0] = 1; simp [at_]
  refine ⟨disk, ⟨1, 1, kept m⟩, ⟨2, 1, c'⟩, hl, hl', ?_, ⟨0, ?_⟩, ?_, fun minEig => ?_⟩
  · intro i
    obtain rfl : i = 0 := Subsingleton.elim _ _
    simp only [e1, Fin.val_zero, w1]; exact zero_lt_one
  · simp only [e1, w1]; exact one_ne_zero
  · simp only [e1]
    rw [entry_toDict]; show at_ [1, 1] (fun _ _ => (1 : ℚ)) [0, 0] ≠ 0; simp [at_]
  · refine C11_succeeds minEig _ _ disk _ _ hl hl' rfl ⟨0, ?_⟩ ⟨0, ?_⟩ (fun idx => ?_) fun idx => ?_
    · simp only [e1, w1]; exact one_ne_zero
    · simp only [e2, w2]; exact one_ne_zero
    · have h0 : entry m.toDict .G2 idx = 0 := by rw [entry_toDict]; exact at_zeros _ _
      simp only [e1, h0]; norm_num
    · have h0 : entry c.toDict .G2 idx = 0 := by rw [entry_toDict]; exact at_zeros _ _
      simp only [e2, h0]; norm_num

end Pibronic.Props.ModelGenerated
