import Verif.Lemmas.FakeCoupling
import Verif.Props.ModelFiles
import Mathlib.Tactic.FinCases
import Mathlib.Tactic.NormNum

set_option autoImplicit false
set_option linter.unusedSectionVars false

/-!
Theorems about `create_fake_coupled_model`: the change of basis (C05) and the crash points (C06).

`vib` and `orig` are the paths of `coupled_model.json` and `original_coupled_model.json`, which are
different files (C18).
-/
namespace Pibronic.Props.FakeCoupling
open Py Pibronic.ModelIO Spec.ModelIO
variable {α : Type} [CommRing α] [DecidableEq α] [AllClose α]

/-! ### C05 -/

/-- C05: after a successful call, every surface matrix of the loaded model is `M X Mᵀ` where `X` is
the surface matrix before and `M` is the matrix that was stored; dimensions and frequencies are
unchanged.  The model before is symmetric to numpy's precision, and when it is exactly symmetric so is
the new one. -/
theorem C05_change_of_basis (vib orig : Str) (stored : Option (NDArray α))
    (arg : UArg α) (disk : Disk α) (v₀ : Verified α .coupled) (ops : List (Op α)) (U : NDArray α)
    (h₀ : load .coupled vib disk = .ok v₀)
    (h : createFake vib orig stored arg disk = .ok (ops, U)) :
    ∃ M : Matrix (Fin v₀.A) (Fin v₀.A) α, U = ⟨[v₀.A, v₀.A], fun a b => M a b⟩ ∧
    ∃ v₁, load .coupled vib (runOps ops disk) = .ok v₁ ∧ v₁.A = v₀.A ∧ v₁.N = v₀.N ∧
      (∀ idx, entry v₁.model.toDict .w idx = entry v₀.model.toDict .w idx) ∧
      (∀ k idx, k ≠ .w → idx.length = order k →
        surfaceMatrix v₁.model.toDict v₀.A k idx
          = M * surfaceMatrix v₀.model.toDict v₀.A k idx * M.transpose) ∧
      SurfaceNear v₀.model.toDict ∧ ModeNear v₀.model.toDict ∧
      (SurfaceSymmetric v₀.model.toDict → SurfaceSymmetric v₁.model.toDict) ∧
      (ModeSymmetric v₀.model.toDict → ModeSymmetric v₁.model.toDict) := by
  obtain ⟨old, v, u, hd, hl, hu, hsn, hmn, hU, hops⟩ := createFake_ok h
  rw [h₀] at hl
  cases hl
  subst hU hops
  refine ⟨toMat u, rfl, ?_⟩
  have hf : runOps [⟨orig, none⟩, ⟨orig, some old⟩, ⟨vib, none⟩, ⟨vib, some (toFile
      (Model.mapSurf (kind := .coupled) (kind' := .coupled) (einsumSurf u) v₀.model).toDict)⟩] disk vib
      = some (toFile (Model.mapSurf (kind := .coupled) (kind' := .coupled) (einsumSurf u)
          v₀.model).toDict) := by
    rw [runOps_four]; simp [Disk.write]
  obtain ⟨m', hl, hg, -⟩ := load_coupled _ vib _ hf
  have hsame := sameModel_of_get hg
  have hmat : ∀ k idx, k ≠ .w → idx.length = order k → surfaceMatrix m'.toDict v₀.A k idx
      = toMat u * surfaceMatrix v₀.model.toDict v₀.A k idx * (toMat u).transpose := by
    intro k idx hk hl
    rw [← surfaceMatrix_einsum u v₀.model k hk idx hl]
    ext a b
    exact hsame.2.2 _ _
  have hsym : SurfaceSymmetric v₀.model.toDict → SurfaceSymmetric m'.toDict := by
    intro hs
    rw [surfaceSymmetric_iff]
    intro k idx hk hl
    rw [hmat k idx hk hl]
    have := (surfaceSymmetric_iff _).mp hs k idx hk hl
    unfold Matrix.IsSymm at this ⊢
    rw [Matrix.transpose_mul, Matrix.transpose_mul, Matrix.transpose_transpose, this, Matrix.mul_assoc]
  refine ⟨⟨_, _, m'⟩, hl, rfl, rfl, fun idx => (hsame.2.2 _ _).trans (entry_mapSurf_w
    (kind := .coupled) (kind' := .coupled) (einsumSurf u) v₀.model idx), hmat, hsn, hmn, hsym, fun hm => ⟨?_, ?_⟩⟩
  · intro i j a b
    by_cases ho : a < v₀.A ∧ b < v₀.A
    · have h1 := congrFun (congrFun (hmat .G2 [i, j] (by decide) rfl) ⟨a, ho.1⟩) ⟨b, ho.2⟩
      have h2 := congrFun (congrFun (hmat .G2 [j, i] (by decide) rfl) ⟨a, ho.1⟩) ⟨b, ho.2⟩
      have h3 : surfaceMatrix v₀.model.toDict v₀.A .G2 [i, j]
          = surfaceMatrix v₀.model.toDict v₀.A .G2 [j, i] := by ext a b; exact hm.1 i j a.1 b.1
      rw [h3, ← h2] at h1
      exact h1
    · exact (entry_out m' ho .G2 (by decide) [i, j] rfl).trans
        (entry_out m' ho .G2 (by decide) [j, i] rfl).symm
  · intro i j k l a b
    by_cases ho : a < v₀.A ∧ b < v₀.A
    · have h1 := congrFun (congrFun (hmat .G4 [i, j, k, l] (by decide) rfl) ⟨a, ho.1⟩) ⟨b, ho.2⟩
      have h2 := congrFun (congrFun (hmat .G4 [j, i, l, k] (by decide) rfl) ⟨a, ho.1⟩) ⟨b, ho.2⟩
      have h3 : surfaceMatrix v₀.model.toDict v₀.A .G4 [i, j, k, l]
          = surfaceMatrix v₀.model.toDict v₀.A .G4 [j, i, l, k] := by
        ext a b; exact hm.2 i j k l a.1 b.1
      rw [h3, ← h2] at h1
      exact h1
    · exact (entry_out m' ho .G4 (by decide) [i, j, k, l] rfl).trans
        (entry_out m' ho .G4 (by decide) [j, i, l, k] rfl).symm

/-- C05: a given matrix is the one that is used and it is orthonormal to numpy's precision. -/
theorem C05_given_matrix_is_used (vib orig : Str) (stored : Option (NDArray α)) (G : NDArray α)
    (disk : Disk α) (v₀ : Verified α .coupled) (ops : List (Op α)) (U : NDArray α)
    (h₀ : load .coupled vib disk = .ok v₀)
    (h : createFake vib orig stored (.given G) disk = .ok (ops, U)) :
    U = G ∧ ∃ M : Matrix (Fin v₀.A) (Fin v₀.A) α,
      G = ⟨[v₀.A, v₀.A], fun a b => M a b⟩ ∧ NearOne (M * M.transpose) := by
  obtain ⟨old, v, u, hd, hl, hu, -, -, hU, -⟩ := createFake_ok h
  rw [h₀] at hl
  cases hl
  simp only [chooseU] at hu
  cases hc : G.cast? [v₀.A, v₀.A] with
  | none => rw [hc] at hu; cases hu
  | some g =>
    rw [hc] at hu
    simp only [bind, Except.bind] at hu
    split at hu
    · next ho =>
      cases hu
      rw [cast?_eq_some] at hc
      subst hc
      exact ⟨hU, toMat u, rfl, fun a b => by rw [← Matrix.one_apply]; exact ho a b⟩
    · cases hu

/-- C05: when the matrix is orthonormal, every surface matrix keeps its eigenvalues (characteristic
polynomial) and its trace. -/
theorem C05_spectrum_unchanged (vib orig : Str) (stored : Option (NDArray α))
    (arg : UArg α) (disk : Disk α) (v₀ : Verified α .coupled) (ops : List (Op α))
    (M : Matrix (Fin v₀.A) (Fin v₀.A) α) (h₀ : load .coupled vib disk = .ok v₀)
    (h : createFake vib orig stored arg disk = .ok (ops, ⟨[v₀.A, v₀.A], fun a b => M a b⟩))
    (hM : M * M.transpose = 1) :
    ∃ v₁, load .coupled vib (runOps ops disk) = .ok v₁ ∧ ∀ k idx, k ≠ .w → idx.length = order k →
      (surfaceMatrix v₁.model.toDict v₀.A k idx).charpoly
        = (surfaceMatrix v₀.model.toDict v₀.A k idx).charpoly ∧
      (surfaceMatrix v₁.model.toDict v₀.A k idx).trace
        = (surfaceMatrix v₀.model.toDict v₀.A k idx).trace := by
  obtain ⟨M', hU, v₁, hl, -, -, -, hmat, -⟩ := C05_change_of_basis vib orig stored arg disk v₀ ops _ h₀ h
  have : M = M' := by
    have h1 := eq_of_heq (NDArray.mk.inj hU).2
    ext a b
    exact congrFun (congrFun h1 a) b
  subst this
  refine ⟨v₁, hl, fun k idx hk hi => ?_⟩
  have hM' : M.transpose * M = 1 := mul_eq_one_comm.mp hM
  rw [hmat k idx hk hi]
  constructor
  · rw [Matrix.charpoly_mul_comm, ← Matrix.mul_assoc, hM', Matrix.one_mul]
  · rw [Matrix.trace_mul_comm, ← Matrix.mul_assoc, hM', Matrix.one_mul]

/-- C05: a call with an orthonormal matrix of the right size succeeds for every model that is
symmetric in the surfaces and the modes, all to numpy's precision. -/
theorem C05_succeeds (vib orig : Str) (stored : Option (NDArray α)) (disk : Disk α)
    (v₀ : Verified α .coupled) (M : Matrix (Fin v₀.A) (Fin v₀.A) α)
    (h₀ : load .coupled vib disk = .ok v₀) (hs : SurfaceNear v₀.model.toDict)
    (hm : ModeNear v₀.model.toDict) (hM : NearOne (M * M.transpose)) :
    ∃ ops, createFake vib orig stored (.given ⟨[v₀.A, v₀.A], fun a b => M a b⟩) disk
      = .ok (ops, ⟨[v₀.A, v₀.A], fun a b => M a b⟩) := by
  unfold createFake
  cases hd : disk vib with
  | none => simp [load, openFile, hd, bind, Except.bind] at h₀
  | some old =>
    simp only [bind, Except.bind]
    rw [h₀]
    have hc : chooseU v₀.A stored (.given ⟨[v₀.A, v₀.A], fun a b => M a b⟩)
        = .ok (fun a b => M a b) := by
      simp only [chooseU, cast?_mk, bind, Except.bind]
      rw [if_pos]
      intro a b
      rw [Matrix.one_apply]
      exact hM a b
    simp only [hc]
    rw [if_pos ⟨(symmetricInSurfaces_iff _).mpr hs, (symmetricInModes_iff _).mpr hm⟩, verify_toDict]
    exact ⟨_, rfl⟩

/-- C05: a model that is not symmetric to numpy's precision and a matrix that is not orthonormal to
numpy's precision are rejected before anything is written. -/
theorem C05_rejects (vib orig : Str) (stored : Option (NDArray α)) (arg : UArg α) (disk : Disk α)
    (v₀ : Verified α .coupled) (h₀ : load .coupled vib disk = .ok v₀)
    (h : ¬ SurfaceNear v₀.model.toDict ∨ ¬ ModeNear v₀.model.toDict ∨
      ∃ G, arg = .given G ∧ ∀ M : Matrix (Fin v₀.A) (Fin v₀.A) α, NearOne (M * M.transpose) →
        G ≠ ⟨[v₀.A, v₀.A], fun a b => M a b⟩) :
    ∃ e, createFake vib orig stored arg disk = .error e := by
  cases hc : createFake vib orig stored arg disk with
  | error e => exact ⟨e, rfl⟩
  | ok r =>
    exfalso
    obtain ⟨ops, U⟩ := r
    obtain ⟨old, v, u, hd, hl, hu, hs, hm, -⟩ := createFake_ok hc
    rw [h₀] at hl
    cases hl
    rcases h with h | h | ⟨G, rfl, h⟩
    · exact h hs
    · exact h hm
    · obtain ⟨-, M, hG, hM⟩ := C05_given_matrix_is_used vib orig stored G disk v₀ ops U h₀ hc
      exact h M hM hG

/-- C05: the reasons for a refusal, in the order in which they are found: no model file, no model in it,
no usable matrix (an unknown kind of argument, a missing stored matrix, a wrong shape, a given matrix
that is not orthonormal to numpy's precision), a model that is not symmetric to numpy's precision. -/
theorem C05_errors (vib orig : Str) (stored : Option (NDArray α)) (arg : UArg α) (disk : Disk α) :
    (disk vib = none → createFake vib orig stored arg disk = .error .assertion) ∧
    (∀ old e, disk vib = some old → load .coupled vib disk = .error e →
      createFake vib orig stored arg disk = .error e) ∧
    ∀ old (v₀ : Verified α .coupled), disk vib = some old → load .coupled vib disk = .ok v₀ →
      (arg = .other → createFake vib orig stored arg disk = .error .exception) ∧
      (arg = .reuse → stored = none → createFake vib orig stored arg disk = .error .os) ∧
      (∀ G, arg = .given G → G.shape ≠ [v₀.A, v₀.A] →
        createFake vib orig stored arg disk = .error .value) ∧
      (∀ M : Matrix (Fin v₀.A) (Fin v₀.A) α, arg = .given ⟨[v₀.A, v₀.A], fun a b => M a b⟩ →
        ¬ NearOne (M * M.transpose) → createFake vib orig stored arg disk = .error .assertion) ∧
      (∀ M : Matrix (Fin v₀.A) (Fin v₀.A) α, arg = .given ⟨[v₀.A, v₀.A], fun a b => M a b⟩ →
        NearOne (M * M.transpose) → ¬ SurfaceNear v₀.model.toDict ∨ ¬ ModeNear v₀.model.toDict →
        createFake vib orig stored arg disk = .error .assertion) := by
  refine ⟨fun h => ?_, fun old e h hl => ?_, fun old v₀ h hl => ⟨fun ha => ?_, fun ha hs => ?_,
    fun G ha hs => ?_, fun M ha hM => ?_, fun M ha hM hs => ?_⟩⟩
  · unfold createFake; rw [h]
  · unfold createFake; rw [h]; simp [hl, bind, Except.bind]
  · unfold createFake; rw [h]; simp [hl, ha, chooseU, bind, Except.bind]
  · unfold createFake; rw [h]; simp [hl, ha, hs, chooseU, bind, Except.bind]
  · unfold createFake; rw [h]; simp [hl, ha, chooseU, NDArray.cast?, hs, bind, Except.bind]
  · unfold createFake
    rw [h]
    have : ¬ (∀ a b, Close ((toMat (fun a b => M a b : Tensor α [v₀.A, v₀.A]) *
      (toMat (fun a b => M a b : Tensor α [v₀.A, v₀.A])).transpose) a b)
      ((1 : Matrix (Fin v₀.A) (Fin v₀.A) α) a b)) := fun hc => hM fun a b => by
        rw [← Matrix.one_apply]; exact hc a b
    simp [hl, ha, chooseU, NDArray.cast?, this, bind, Except.bind]
  · have hu : ∀ a b, Close ((toMat (fun a b => M a b : Tensor α [v₀.A, v₀.A]) *
      (toMat (fun a b => M a b : Tensor α [v₀.A, v₀.A])).transpose) a b)
      ((1 : Matrix (Fin v₀.A) (Fin v₀.A) α) a b) := fun a b => by rw [Matrix.one_apply]; exact hM a b
    have hns : ¬ (SymmetricInSurfaces v₀.model ∧ SymmetricInModes v₀.model) := by
      intro hc
      have hs' : SurfaceNear v₀.model.toDict := (symmetricInSurfaces_iff _).mp hc.1
      have hm' : ModeNear v₀.model.toDict := (symmetricInModes_iff _).mp hc.2
      exact hs.elim (fun h => h hs') (fun h => h hm')
    unfold createFake
    rw [h]
    simp [hl, ha, chooseU, NDArray.cast?, hu, hns, bind, Except.bind]

/-- C05: applying the routine to a symmetric model and then again with the transposed matrix succeeds and
restores the model. -/
theorem C05_transpose_restores (vib orig : Str) (stored stored' : Option (NDArray α)) (disk : Disk α)
    (v₀ : Verified α .coupled) (M : Matrix (Fin v₀.A) (Fin v₀.A) α) (ops : List (Op α)) (U : NDArray α)
    (h₀ : load .coupled vib disk = .ok v₀) (hs₀ : SurfaceSymmetric v₀.model.toDict)
    (hm₀ : ModeSymmetric v₀.model.toDict) (hM : M * M.transpose = 1)
    (h : createFake vib orig stored (.given ⟨[v₀.A, v₀.A], fun a b => M a b⟩) disk = .ok (ops, U)) :
    ∃ ops' U', createFake vib orig stored' (.given ⟨[v₀.A, v₀.A], fun a b => M.transpose a b⟩)
        (runOps ops disk) = .ok (ops', U') ∧
      ∃ v₂, load .coupled vib (runOps ops' (runOps ops disk)) = .ok v₂ ∧
        SameModel v₂.model.toDict v₀.model.toDict := by
  have hUG := (C05_given_matrix_is_used vib orig stored _ disk v₀ ops U h₀ h).1
  obtain ⟨M₁, hU, ⟨A₁, N₁, m₁⟩, hl₁, hA, hN, hw, hmat, -, -, hs, hm⟩ :=
    C05_change_of_basis vib orig stored _ disk v₀ ops U h₀ h
  obtain ⟨A₀, N₀, m₀⟩ := v₀
  simp only at hA hN
  subst hA hN
  have hM₁ : M = M₁ := by
    have h1 := eq_of_heq (NDArray.mk.inj (hUG.symm.trans hU)).2
    ext a b
    exact congrFun (congrFun h1 a) b
  subst hM₁
  have hM' : M.transpose * M = 1 := mul_eq_one_comm.mp hM
  obtain ⟨ops', h'⟩ := C05_succeeds vib orig stored' (runOps ops disk) ⟨A₁, N₁, m₁⟩ M.transpose hl₁
    (hs hs₀).near (hm hm₀).near (by rw [Matrix.transpose_transpose, hM']; exact NearOne.one)
  refine ⟨ops', _, h', ?_⟩
  obtain ⟨M₂, hU₂, ⟨A₂, N₂, m₂⟩, hl₂, hA, hN, hw₂, hmat₂, -⟩ :=
    C05_change_of_basis vib orig stored' _ (runOps ops disk) ⟨A₁, N₁, m₁⟩ ops' _ hl₁ h'
  simp only at hA hN
  subst hA hN
  have hM₂ : M.transpose = M₂ := by
    have h1 := eq_of_heq (NDArray.mk.inj hU₂).2
    ext a b
    exact congrFun (congrFun h1 a) b
  subst hM₂
  refine ⟨_, hl₂, sameModel_of_surfaces (fun idx => (hw₂ idx).trans (hw idx)) fun k idx hk hi => ?_⟩
  have h1 := hmat k idx hk hi
  have h2 := hmat₂ k idx hk hi
  simp only at h1 h2
  rw [h2, h1, Matrix.transpose_transpose, ← Matrix.mul_assoc, ← Matrix.mul_assoc, hM', Matrix.one_mul,
    Matrix.mul_assoc, hM', Matrix.mul_one]

/-- The matrix that exchanges two surfaces. -/
def swap : Matrix (Fin 2) (Fin 2) ℚ := !![0, 1; 1, 0]

theorem swap_orthonormal : swap * swap.transpose = 1 := by
  ext a b; fin_cases a <;> fin_cases b <;> simp [swap, Matrix.mul_apply]

/-- The hypotheses are met: a saved two-surface model with energies 1 and 2, a non-trivial
orthonormal matrix, and a call that succeeds. -/
theorem witness : ∃ (disk : Disk ℚ) (m' : Model ℚ .coupled 2 1),
    load .coupled c!"vib" disk = .ok ⟨2, 1, m'⟩ ∧
    entry m'.toDict .E [0, 0] = 1 ∧ entry m'.toDict .E [1, 1] = 2 ∧
    SurfaceSymmetric m'.toDict ∧ ModeSymmetric m'.toDict ∧
    ∃ ops U, createFake c!"vib" c!"orig" none (.given ⟨[2, 2], fun a b => swap a b⟩) disk
      = .ok (ops, U) := by
  let m : Model ℚ .coupled 2 1 := ⟨fun k => match k with
    | .E => some (fun a b => if a = b then (a.1 : ℚ) + 1 else 0)
    | _ => none⟩
  let disk : Disk ℚ := fun p => if p = c!"vib" then some (toFile m.toDict) else none
  obtain ⟨m', hl, hg, -⟩ := load_coupled m c!"vib" disk (by simp [disk])
  have hsame := sameModel_of_get hg
  have hE : ∀ a b, entry m'.toDict .E [a, b] = if a = b ∧ a < 2 then (a : ℚ) + 1 else 0 := by
    intro a b
    rw [hsame.2.2]
    simp only [m, entry_toDict]
    show at_ [2, 2] (fun a b : Fin 2 => if a = b then (a.1 : ℚ) + 1 else 0) [a, b] = _
    simp only [at_]
    by_cases ha : a < 2
    · by_cases hb : b < 2
      · simp [ha, hb]
      · have : ¬ (a = b) := by omega
        simp [hb, this]
    · simp [ha]
  have h0 : ∀ k idx, k ≠ .E → entry m'.toDict k idx = 0 := by
    intro k idx hk
    rw [hsame.2.2, entry_toDict]
    have : m.arr k = none := by cases k <;> simp_all [m]
    rw [this]
    exact at_zeros _ _
  have hs : SurfaceSymmetric m'.toDict := by
    intro k idx a b hk hl
    by_cases hkE : k = .E
    · subst hkE
      obtain rfl := List.length_eq_zero_iff.mp hl
      simp only [List.nil_append, hE]
      by_cases hab : a = b
      · subst hab; rfl
      · rw [if_neg (fun h => hab h.1), if_neg (fun h => hab h.1.symm)]
    · rw [h0 k _ hkE, h0 k _ hkE]
  have hm : ModeSymmetric m'.toDict :=
    ⟨fun i j a b => by rw [h0 _ _ (by decide), h0 _ _ (by decide)],
      fun i j k l a b => by rw [h0 _ _ (by decide), h0 _ _ (by decide)]⟩
  obtain ⟨ops, hops⟩ := C05_succeeds c!"vib" c!"orig" none disk ⟨2, 1, m'⟩ swap hl hs.near hm.near
    (by rw [swap_orthonormal]; exact NearOne.one)
  exact ⟨disk, m', hl, by simp [hE], by rw [hE]; norm_num, hs, hm, ops, _, hops⟩

/-- C05, the precision of the check: a given matrix that is only orthonormal to numpy's precision is
accepted, and then the surface matrices do not keep their eigenvalues exactly. -/
theorem C05_near_orthonormal : ∃ (disk : Disk ℚ) (v₀ v₁ : Verified ℚ .coupled) (G : NDArray ℚ)
    (ops : List (Op ℚ)), load .coupled c!"vib" disk = .ok v₀ ∧
      createFake c!"vib" c!"orig" none (.given G) disk = .ok (ops, G) ∧
      load .coupled c!"vib" (runOps ops disk) = .ok v₁ ∧ v₀.A = 1 ∧ v₁.A = 1 ∧
      entry v₀.model.toDict .E [0, 0] = 1 ∧ entry v₁.model.toDict .E [0, 0] = (1 + 1 / 10 ^ 6) ^ 2 := by
  let m : Model ℚ .coupled 1 1 := ⟨fun k => match k with
    | .E => some (fun _ _ => (1 : ℚ))
    | _ => none⟩
  let disk : Disk ℚ := fun p => if p = c!"vib" then some (toFile m.toDict) else none
  obtain ⟨m', hl, hg, -⟩ := load_coupled m c!"vib" disk (by simp [disk])
  have hsame := sameModel_of_get hg
  have one : ∀ a : Nat, a < 1 → a = 0 := fun a h => by omega
  have hs : SurfaceNear m'.toDict := by
    intro k idx a b hk hi
    by_cases ho : a < 1 ∧ b < 1
    · rw [one a ho.1, one b ho.2]; exact AllClose.refl _
    · rw [entry_out m' ho k hk _ hi, entry_out m' (fun h => ho ⟨h.2, h.1⟩) k hk _ hi]
      exact AllClose.refl _
  have h0 : ∀ k idx, k ≠ .E → entry m'.toDict k idx = 0 := by
    intro k idx hk
    rw [hsame.2.2, entry_toDict]
    have : m.arr k = none := by cases k <;> simp_all [m]
    rw [this]
    exact at_zeros _ _
  have hm : ModeNear m'.toDict :=
    ⟨fun i j a b => by rw [h0 _ _ (by decide), h0 _ _ (by decide)]; exact AllClose.refl _,
      fun i j k l a b => by rw [h0 _ _ (by decide), h0 _ _ (by decide)]; exact AllClose.refl _⟩
  let M : Matrix (Fin 1) (Fin 1) ℚ := fun _ _ => 1 + 1 / 10 ^ 6
  have hM : NearOne (M * M.transpose) := by
    intro a b
    rw [close_iff, if_pos (Subsingleton.elim a b)]
    rw [show (M * M.transpose) a b = (1 + 1 / 10 ^ 6) * (1 + 1 / 10 ^ 6) by
      rw [Matrix.mul_apply]; exact Fin.sum_univ_one _]
    norm_num [abs_of_pos]
  obtain ⟨ops, hops⟩ := C05_succeeds c!"vib" c!"orig" none disk ⟨1, 1, m'⟩ M hl hs hm hM
  obtain ⟨M', hU, ⟨A₁, N₁, m₁⟩, hl₁, hA, -, -, hmat, -⟩ := C05_change_of_basis _ _ _ _ _ _ _ _ hl hops
  have hMM : M = M' := by
    have h1 := eq_of_heq (NDArray.mk.inj hU).2
    ext a b
    exact congrFun (congrFun h1 a) b
  subst hMM
  have hE : entry m'.toDict .E [0, 0] = 1 := by
    rw [hsame.2.2, entry_toDict]
    show at_ [1, 1] (fun _ _ => (1 : ℚ)) [0, 0] = 1
    simp [at_]
  refine ⟨disk, _, _, _, ops, hl, hops, hl₁, rfl, hA, hE, ?_⟩
  have h1 := congrFun (congrFun (hmat .E [] (by decide) rfl) (0 : Fin 1)) (0 : Fin 1)
  simp only [Matrix.mul_apply, Matrix.transpose_apply, Fin.sum_univ_one] at h1
  have h2 : surfaceMatrix m'.toDict 1 .E [] 0 0 = 1 := hE
  refine Eq.trans h1 ?_
  show (1 + 1 / 10 ^ 6) * surfaceMatrix m'.toDict 1 .E [] 0 0 * (1 + 1 / 10 ^ 6) = (1 + 1 / 10 ^ 6 : ℚ) ^ 2
  rw [h2]
  norm_num

/-! ### C06 -/

/-- C06: wherever a call is interrupted, the model file from before the call is complete in
`coupled_model.json` or in `original_coupled_model.json`. -/
theorem C06_model_survives_crash (vib orig : Str) (hne : vib ≠ orig) (stored : Option (NDArray α))
    (arg : UArg α) (disk : Disk α) (ops : List (Op α)) (U : NDArray α) (old : File α)
    (hold : disk vib = some old) (h : createFake vib orig stored arg disk = .ok (ops, U)) (n : Nat) :
    runOps (ops.take n) disk vib = some old ∨ runOps (ops.take n) disk orig = some old := by
  obtain ⟨old', v, u, hd, -, -, -, -, -, rfl⟩ := createFake_ok h
  rw [hold] at hd
  cases hd
  have hne' : orig ≠ vib := fun hc => hne hc.symm
  rcases n with _ | _ | _ | _ | n
  · left; simpa [runOps] using hold
  · left; simpa [runOps, Op.run, hne] using hold
  · left; simpa [runOps, Op.run, hne] using hold
  · right; simp [runOps, Op.run, hne']
  · right; simp [runOps, Op.run, hne']

/-- C06: after success the model from before the call is in `original_coupled_model.json`, and no
other file changed. -/
theorem C06_backup_after_success (vib orig : Str) (hne : vib ≠ orig) (stored : Option (NDArray α))
    (arg : UArg α) (disk : Disk α) (ops : List (Op α)) (U : NDArray α)
    (h : createFake vib orig stored arg disk = .ok (ops, U)) :
    runOps ops disk orig = disk vib ∧ ∀ p, p ≠ vib → p ≠ orig → runOps ops disk p = disk p := by
  obtain ⟨old', v, u, hd, -, -, -, -, -, rfl⟩ := createFake_ok h
  rw [hd, runOps_four]
  constructor
  · simp [Disk.write, hne.symm]
  · intro p h1 h2
    simp [Disk.write, h1, h2]

/-- C06: a crash anywhere in a call never touches a file other than the two model files. -/
theorem C06_crash_other_files (vib orig : Str) (stored : Option (NDArray α))
    (arg : UArg α) (disk : Disk α) (ops : List (Op α)) (U : NDArray α)
    (h : createFake vib orig stored arg disk = .ok (ops, U)) (n : Nat) (p : Str) (h1 : p ≠ vib)
    (h2 : p ≠ orig) : runOps (ops.take n) disk p = disk p := by
  obtain ⟨old', v, u, hd, -, -, -, -, -, rfl⟩ := createFake_ok h
  rcases n with _ | _ | _ | _ | n <;> simp [runOps, Op.run, h1, h2]

/-- C06, repeated calls: the second call replaces the backup by the output of the first call. -/
theorem C06_second_call_overwrites_backup (vib orig : Str) (hne : vib ≠ orig)
    (stored' : Option (NDArray α)) (arg' : UArg α) (disk : Disk α)
    (ops ops' : List (Op α)) (U' : NDArray α)
    (h' : createFake vib orig stored' arg' (runOps ops disk) = .ok (ops', U')) :
    runOps ops' (runOps ops disk) orig = runOps ops disk vib :=
  (C06_backup_after_success vib orig hne stored' arg' _ ops' U' h').1

/-- C06 is false of repeated calls: there is a history of two successful calls after which neither
file holds the first model. -/
theorem C06_first_model_lost_refuted : ∃ (disk : Disk ℚ) (v₀ : Verified ℚ .coupled)
    (arg arg' : UArg ℚ) (ops ops' : List (Op ℚ)) (U U' : NDArray ℚ),
    load .coupled c!"vib" disk = .ok v₀ ∧
    createFake c!"vib" c!"orig" none arg disk = .ok (ops, U) ∧
    createFake c!"vib" c!"orig" (some U) arg' (runOps ops disk) = .ok (ops', U') ∧
    ∀ p, p = c!"vib" ∨ p = c!"orig" → ∀ v, load .coupled p (runOps ops' (runOps ops disk)) = .ok v →
      ¬ SameModel v.model.toDict v₀.model.toDict := by
  obtain ⟨disk, m, hl, hE0, hE1, hs, hm, ops, U, h⟩ := witness
  have hUG := (C05_given_matrix_is_used _ _ _ _ _ _ _ _ hl h).1
  obtain ⟨M, hU, ⟨A₁, N₁, m₁⟩, hl₁, hA, hN, -, hmat, -, -, hs₁, hm₁⟩ :=
    C05_change_of_basis _ _ _ _ _ _ _ _ hl h
  simp only at hA hN
  subst hA hN
  have hM : swap = M := by
    have h1 := eq_of_heq (NDArray.mk.inj (hUG.symm.trans hU)).2
    ext a b
    exact congrFun (congrFun h1 a) b
  subst hM
  obtain ⟨ops', h'⟩ := C05_succeeds c!"vib" c!"orig" (some U) (runOps ops disk) ⟨2, 1, m₁⟩ 1 hl₁
    (hs₁ hs).near (hm₁ hm).near (by rw [Matrix.transpose_one, Matrix.mul_one]; exact NearOne.one)
  obtain ⟨M, hU', ⟨A₂, N₂, m₂⟩, hl₂, hA, hN, -, hmat₂, -⟩ := C05_change_of_basis _ _ _ _ _ _ _ _ hl₁ h'
  simp only at hA hN
  subst hA hN
  have hM : (1 : Matrix (Fin 2) (Fin 2) ℚ) = M := by
    have h1 := eq_of_heq (NDArray.mk.inj hU').2
    ext a b
    exact congrFun (congrFun h1 a) b
  subst hM
  have e1 : entry m₁.toDict .E [0, 0] = 2 := by
    have := congrFun (congrFun (hmat .E [] (by decide) rfl) 0) 0
    simp only [Matrix.mul_apply, Fin.sum_univ_two, swap, Matrix.transpose_apply] at this
    simp only [surfaceMatrix, Matrix.cons_val, Matrix.of_apply] at this
    simp only [List.nil_append, Fin.isValue, Fin.val_zero, Fin.val_one, hE0, hE1] at this
    rw [this]; norm_num
  have e2 : entry m₂.toDict .E [0, 0] = 2 := by
    have := congrFun (congrFun (hmat₂ .E [] (by decide) rfl) 0) 0
    simp only [Matrix.transpose_one, Matrix.mul_one, Matrix.one_mul] at this
    exact this.trans e1
  refine ⟨disk, _, _, _, ops, ops', U, _, hl, h, h', ?_⟩
  rintro p (rfl | rfl) v hv hsame
  · rw [hl₂] at hv
    cases hv
    have := hsame.2.2 .E [0, 0]
    rw [e2] at this
    exact absurd (this.trans hE0) (by norm_num)
  · have hb := C06_second_call_overwrites_backup c!"vib" c!"orig" (by decide) _ _ disk ops ops' _ h'
    have : load .coupled c!"orig" (runOps ops' (runOps ops disk)) = .ok ⟨2, 1, m₁⟩ := by
      rw [← hl₁]
      unfold load openFile
      rw [hb]
    rw [this] at hv
    cases hv
    have := hsame.2.2 .E [0, 0]
    rw [e1] at this
    exact absurd (this.trans hE0) (by norm_num)

/-- A matrix that is not orthonormal, here the zero matrix, is refused. -/
example : ∃ (disk : Disk ℚ) (v₀ : Verified ℚ .coupled), load .coupled c!"vib" disk = .ok v₀ ∧
    ∃ e, createFake c!"vib" c!"orig" none (.given ⟨[2, 2], fun _ _ => 0⟩) disk = .error e := by
  obtain ⟨disk, m', hl, -⟩ := witness
  refine ⟨disk, _, hl, C05_rejects _ _ _ _ disk _ hl (.inr (.inr ⟨_, rfl, fun M hM h => ?_⟩))⟩
  have h2 : (fun _ _ => 0 : Fin 2 → Fin 2 → ℚ) = fun a b => M a b := by
    injection h
  have h3 := (close_iff _ _).mp (hM 0 0)
  have h4 : ∀ a b, M a b = 0 := fun a b => (congrFun (congrFun h2 a) b).symm
  simp [Matrix.mul_apply, h4] at h3
  norm_num at h3

/-- The theorems about a successful call apply to the witness. -/
example : ∃ (disk : Disk ℚ) (ops ops' : List (Op ℚ)) (U U' : NDArray ℚ),
    createFake c!"vib" c!"orig" none (.given ⟨[2, 2], fun a b => swap a b⟩) disk = .ok (ops, U) ∧
    createFake c!"vib" c!"orig" (some U) (.given ⟨[2, 2], fun a b => swap.transpose a b⟩)
      (runOps ops disk) = .ok (ops', U') ∧
    runOps ops' (runOps ops disk) c!"orig" = runOps ops disk c!"vib" := by
  obtain ⟨disk, m', hl, -, -, hs, hm, ops, U, h⟩ := witness
  obtain ⟨ops', U', h', -⟩ := C05_transpose_restores _ _ none (some U) disk _ swap ops U hl hs hm
    swap_orthonormal h
  exact ⟨disk, ops, ops', U, U', h, h', C06_second_call_overwrites_backup _ _ (by decide) _ _ _ _ _ _ h'⟩

end Pibronic.Props.FakeCoupling
