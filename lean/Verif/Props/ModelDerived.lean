import Verif.Props.ModelFiles

set_option autoImplicit false
set_option linter.unusedSectionVars false

/-!
Theorems about removing the coupling (C07) and the harmonic and sampling model files (C08).
-/
namespace Pibronic.Props.ModelDerived
open Py Pibronic.ModelIO Spec.ModelIO ModelFiles
variable {α : Type} [CommRing α] [DecidableEq α]

/-! ### C07 -/

/-- C07: zeroing the off-diagonal keeps the dimensions, the frequencies and every diagonal entry,
and clears every off-diagonal entry. -/
theorem C07_fill_offdiagonal (d : Dict α) (h : WellFormed .coupled d) :
    ∃ d', fillOffdiagonal d = .ok d' ∧ WellFormed .coupled d' ∧ d'.A = d.A ∧ d'.N = d.N ∧
      (∀ idx, entry d' .w idx = entry d .w idx) ∧
      ∀ k idx a b, k ≠ .w → idx.length = order k →
        entry d' k (idx ++ [a, b]) = if a = b then entry d k (idx ++ [a, b]) else 0 := by
  obtain ⟨A, N, m, rfl⟩ := wellFormed_iff.mp h
  refine ⟨(Model.mapSurf (kind := .coupled) (kind' := .coupled) (zeroOffdiag (A := A)) m).toDict,
    by unfold fillOffdiagonal; rw [verify_toDict]; rfl, wellFormed_iff.mpr ⟨A, N, _, rfl⟩,
    rfl, rfl, fun idx => entry_mapSurf_w _ m idx, fun k idx a b hk hl => ?_⟩
  exact entry_mapSurf (kind := .coupled) (kind' := .coupled) (zeroOffdiag (A := A)) [a, b]
    (fun v => if a = b then v [a, b] else 0) (fun x => at_zeroOffdiag a b x) (by simp) m k hk idx hl

/-- C07: zeroing the off-diagonal twice is the same as once. -/
theorem C07_fill_offdiagonal_idempotent (d d' : Dict α) (h : fillOffdiagonal d = .ok d') :
    fillOffdiagonal d' = .ok d' := by
  unfold fillOffdiagonal at h ⊢
  cases hv : verify .coupled d with
  | error e => rw [hv] at h; cases h
  | ok v =>
    rw [hv] at h
    simp only [bind, Except.bind, Except.ok.injEq] at h
    subst h
    rw [verify_toDict]
    simp only [bind, Except.bind, Except.ok.injEq]
    congr 1
    simp only [Model.mapSurf, Option.map_map]
    congr 1
    funext k
    cases v.model.arr k with
    | none => rfl
    | some t =>
      simp only [Option.map_some, Function.comp_apply, Option.some.injEq]
      have hz : ∀ x : Tensor α [v.A, v.A], zeroOffdiag (zeroOffdiag x) = zeroOffdiag x := by
        intro x; funext a b; simp only [zeroOffdiag]; split <;> rfl
      cases k with
      | w => rfl
      | E => exact hz _
      | G1 => funext i; exact hz _
      | G2 => funext i j; exact hz _
      | G3 => funext i j l; exact hz _
      | G4 => funext i j l n; exact hz _

/-- What `remove_coupling_from_model` does after a coupled model was saved at the source. -/
theorem removeCoupling_saved {A N : Nat} (m : Model α .coupled A N) (src dst : Str) (disk : Disk α)
    (hd : disk src = some (toFile m.toDict)) :
    ∃ m' : Model α .coupled A N, (∀ k, m'.get k = m.get k) ∧
      removeCoupling src dst disk = (.ok (), disk.write dst (toFile
        (Model.mapSurf (kind := .coupled) (kind' := .diagonal) (diagonalOf (A := A)) m').toDict)) := by
  obtain ⟨m', hl, hg, -⟩ := load_coupled m src disk hd
  refine ⟨m', hg, ?_⟩
  unfold removeCoupling
  rw [hl]
  simp only [save, verify_toDict]

/-- C07: `remove_coupling_from_model` of a saved coupled model `d` succeeds and writes (only) the
target, a diagonal model with the same dimensions and frequencies whose entries are exactly the
diagonal entries of `d`. -/
theorem C07_remove_coupling (src dst : Str) (d : Dict α) (disk : Disk α)
    (h : (save .coupled src d disk).1 = .ok ()) :
    ∃ d', WellFormed .diagonal d' ∧ d'.A = d.A ∧ d'.N = d.N ∧
      (removeCoupling src dst (save .coupled src d disk).2).1 = .ok () ∧
      (removeCoupling src dst (save .coupled src d disk).2).2 dst = some (toFile d') ∧
      (∀ p, p ≠ dst → (removeCoupling src dst (save .coupled src d disk).2).2 p
        = (save .coupled src d disk).2 p) ∧
      (∀ idx, entry d' .w idx = entry d .w idx) ∧
      ∀ k idx a, k ≠ .w → idx.length = order k →
        entry d' k (idx ++ [a]) = entry d k (idx ++ [a, a]) := by
  obtain ⟨A, N, m, rfl, hf⟩ := saved_file _ _ _ _ h
  obtain ⟨m', hg, hr⟩ := removeCoupling_saved m src dst _ hf
  have hs := sameModel_of_get hg
  refine ⟨(Model.mapSurf (kind := .coupled) (kind' := .diagonal) (diagonalOf (A := A)) m').toDict,
    wellFormed_iff.mpr ⟨A, N, _, rfl⟩, rfl, rfl, by rw [hr], by rw [hr]; simp [Disk.write],
    fun p hp => by rw [hr]; simp [Disk.write, hp], fun idx => ?_, fun k idx a hk hl => ?_⟩
  · exact (entry_mapSurf_w (kind := .coupled) (kind' := .diagonal) (diagonalOf (A := A)) m' idx).trans
      (hs.2.2 _ _)
  · have := entry_mapSurf (kind := .coupled) (kind' := .diagonal) (diagonalOf (A := A)) [a]
      (fun v => v [a, a]) (fun x => at_diagonalOf a x) rfl m' k hk idx hl
    rw [this]; exact hs.2.2 _ _

/-- C07: zeroing the off-diagonal of the source first does not change what is removed to. -/
theorem C07_zeroed_first_same_diagonal (src dst : Str) (d d0 : Dict α) (disk : Disk α)
    (h : (save .coupled src d disk).1 = .ok ()) (h0 : fillOffdiagonal d = .ok d0) :
    ∃ f f0, (removeCoupling src dst (save .coupled src d disk).2).2 dst = some (toFile f) ∧
      (removeCoupling src dst (save .coupled src d0 disk).2).2 dst = some (toFile f0) ∧
      SameModel f f0 := by
  have hw := (C03_accepted_iff_wellFormed _ _ _ _).mp h
  obtain ⟨d1, e1, hw1, hA1, hN1, hww, hoff⟩ := C07_fill_offdiagonal d hw
  rw [h0] at e1; cases e1
  obtain ⟨f, fw, fA, fN, -, ff, -, fww, fe⟩ := C07_remove_coupling src dst d disk h
  obtain ⟨g, gw, gA, gN, -, gf, -, gww, ge⟩ := C07_remove_coupling src dst d0 disk
    ((C03_accepted_iff_wellFormed _ _ _ _).mpr hw1)
  refine ⟨f, g, ff, gf, by rw [fA, gA, hA1], by rw [fN, gN, hN1], fun k idx => ?_⟩
  by_cases hk : k = .w
  · subst hk; rw [fww, gww, hww]
  · obtain ⟨A, N, m, rfl⟩ := wellFormed_iff.mp fw
    obtain ⟨A', N', m', rfl⟩ := wellFormed_iff.mp gw
    by_cases hl : idx.length = order k + 1
    · have h1 : (idx.drop (order k)).length = 1 := by rw [List.length_drop]; omega
      obtain ⟨a, ha⟩ := List.length_eq_one_iff.mp h1
      have hidx : idx = idx.take (order k) ++ [a] := by rw [← ha, List.take_append_drop]
      have hlen : (idx.take (order k)).length = order k := by rw [List.length_take]; omega
      rw [hidx, fe k _ a hk hlen, ge k _ a hk hlen, hoff k _ a a hk hlen, if_pos rfl]
    · rw [entry_length, entry_length] <;>
      · cases k <;> simp_all [shape, modes, surf, order]

/-! ### C08 -/

/-- C08 (partial): if some diagonal energy of the saved coupled model is not zero, the harmonic and
the sampling model files are created, can be loaded, and hold the diagonal of the model. -/
theorem C08_derived_files_partial (vib har rho : Str) (d : Dict α) (disk : Disk α)
    (h : (save .coupled vib d disk).1 = .ok ()) (hE : ∃ a, entry d .E [a, a] ≠ 0) :
    (createBasicDiagonal vib har rho (save .coupled vib d disk).2).1 = .ok () ∧
    ∀ p, p = har ∨ p = rho →
      ∃ v, load .diagonal p (createBasicDiagonal vib har rho (save .coupled vib d disk).2).2 = .ok v ∧
        v.model.toDict.A = d.A ∧ v.model.toDict.N = d.N ∧
        ∀ k idx a, k ≠ .w → idx.length = order k →
          entry v.model.toDict k (idx ++ [a]) = entry d k (idx ++ [a, a]) := by
  obtain ⟨d', hw, hA, hN, hok, hf, hother, -, he⟩ := C07_remove_coupling vib har d disk h
  have hc : createBasicDiagonal vib har rho (save .coupled vib d disk).2 =
      (.ok (), (removeCoupling vib har (save .coupled vib d disk).2).2.write rho (toFile d')) := by
    unfold createBasicDiagonal
    rw [show removeCoupling vib har (save .coupled vib d disk).2 =
      (.ok (), (removeCoupling vib har (save .coupled vib d disk).2).2) from Prod.ext hok rfl]
    simp only [copyFile, hf]
  obtain ⟨A, N, m, rfl⟩ := wellFormed_iff.mp hw
  refine ⟨by rw [hc], fun p hp => ?_⟩
  have hfile : (createBasicDiagonal vib har rho (save .coupled vib d disk).2).2 p
      = some (toFile m.toDict) := by
    rw [hc]
    simp only [Disk.write]
    rcases hp with rfl | rfl
    · split
      · rfl
      · exact hf
    · simp
  have hk : (kept m).arr .E ≠ none := by
    obtain ⟨a, ha⟩ := hE
    exact (nonzero_iff_entry m .E).mpr ⟨[a], by
      have := he .E [] a (by decide) rfl
      simp only [List.nil_append] at this
      rw [this]; exact ha⟩
  refine ⟨⟨A, N, kept m⟩, by rw [load_diagonal m p _ hfile, if_neg hk], hA, hN, fun k idx a hw hl => ?_⟩
  rw [entry_eq_get, kept_get, ← entry_eq_get]
  exact he k idx a hw hl

/-- C08 is false when every diagonal energy is zero: both files are created without complaint and
neither can be loaded. -/
theorem C08_zero_energies_refuted (vib har rho : Str) (d : Dict α) (disk : Disk α)
    (h : (save .coupled vib d disk).1 = .ok ()) (hE : ∀ a, entry d .E [a, a] = 0) :
    (createBasicDiagonal vib har rho (save .coupled vib d disk).2).1 = .ok () ∧
    ∀ p, p = har ∨ p = rho →
      load .diagonal p (createBasicDiagonal vib har rho (save .coupled vib d disk).2).2
        = .error .assertion := by
  obtain ⟨d', hw, hA, hN, hok, hf, hother, -, he⟩ := C07_remove_coupling vib har d disk h
  have hc : createBasicDiagonal vib har rho (save .coupled vib d disk).2 =
      (.ok (), (removeCoupling vib har (save .coupled vib d disk).2).2.write rho (toFile d')) := by
    unfold createBasicDiagonal
    rw [show removeCoupling vib har (save .coupled vib d disk).2 =
      (.ok (), (removeCoupling vib har (save .coupled vib d disk).2).2) from Prod.ext hok rfl]
    simp only [copyFile, hf]
  obtain ⟨A, N, m, rfl⟩ := wellFormed_iff.mp hw
  refine ⟨by rw [hc], fun p hp => ?_⟩
  have hfile : (createBasicDiagonal vib har rho (save .coupled vib d disk).2).2 p
      = some (toFile m.toDict) := by
    rw [hc]
    simp only [Disk.write]
    rcases hp with rfl | rfl
    · split
      · rfl
      · exact hf
    · simp
  have hk : (kept m).arr .E = none := by
    by_contra hcon
    obtain ⟨idx, hidx⟩ := (nonzero_iff_entry m .E).mp hcon
    apply hidx
    match idx with
    | [a] =>
      have := he .E [] a (by decide) rfl
      simp only [List.nil_append] at this
      rw [this]; exact hE a
    | [] => rw [entry_eq_get]; exact at_length _ _ (by simp [shape, modes, surf])
    | _ :: _ :: _ => rw [entry_eq_get]; exact at_length _ _ (by simp [shape, modes, surf])
  rw [load_diagonal m p _ hfile, if_pos hk]

/-- The hypotheses of both C08 theorems are met by saved models: one with energies 1, one with a
purely off-diagonal energy matrix. -/
example : (∃ d : Dict ℚ, WellFormed .coupled d ∧ ∃ a, entry d .E [a, a] ≠ 0) ∧
    (∃ d : Dict ℚ, WellFormed .coupled d ∧ (∃ a b, entry d .E [a, b] ≠ 0) ∧
      ∀ a, entry d .E [a, a] = 0) := by
  refine ⟨⟨⟨some 1, some 2, fun k => if k = .E then some ⟨[2, 2], fun _ _ => 1⟩ else none⟩,
    ⟨2, 1, rfl, rfl, ?_⟩, 0, by simp [entry, at_]⟩,
    ⟨⟨some 1, some 2, fun k => if k = .E then some ⟨[2, 2], fun a b => if a = b then 0 else 1⟩ else none⟩,
    ⟨2, 1, rfl, rfl, ?_⟩, ⟨0, 1, by simp [entry, at_]⟩, fun a => ?_⟩⟩
  · intro k a h; cases k <;> cases h; rfl
  · intro k a h; cases k <;> cases h; rfl
  · simp [entry, at_]

end Pibronic.Props.ModelDerived
