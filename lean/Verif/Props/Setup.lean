import Verif.Model.Setup
import Verif.Props.FileStructure
import Verif.Props.FakeCoupling
import Verif.Props.ModelDerived
import Verif.Props.ModelGenerated

set_option autoImplicit false
set_option linter.unusedSectionVars false

/-!
C125: preparing the models of an example data set.  C126: which files this changes.  C127: the sampling models of the
paper.
-/
namespace Pibronic.Props.Setup
open Py FileName Pibronic.FileStructure Pibronic.Setup Pibronic.Examples Spec.FileStructure Spec.ModelIO
open Pibronic.ModelIO hiding Disk
open Pibronic.Props.FileStructure Pibronic.Props.ModelGenerated
variable {α : Type}

/-! ### Paths -/

/-- A file in `data_set_D/parameters`. -/
def param (root : Str) (d : Nat) (name : Str) : Str := dataDir root d ++ c!"parameters" ++ (c!"/" ++ name)

/-- The sampling model of `data_set_D/rho_R`. -/
def rhoFile (root : Str) (d r : Nat) : Str := rhoDir root d r ++ c!"parameters/sampling_model.json"

theorem tail_ne {a b s t : Str} (n : Nat) (hs : n ≤ s.length) (ht : n ≤ t.length)
    (h : s.reverse.take n ≠ t.reverse.take n) : a ++ s ≠ b ++ t := by
  intro hc
  apply h
  have := congrArg (fun x => x.reverse.take n) hc
  simpa [List.reverse_append, List.take_append_of_le_length, hs, ht] using this

theorem rhoFile_ne (root : Str) (d : Nat) {r r' : Nat} (h : r ≠ r') : rhoFile root d r ≠ rhoFile root d r' := by
  intro hc
  exact C18_rho_disjoint root d r r' h (rhoFile root d r) ⟨_, rfl⟩ (by rw [hc]; exact ⟨_, rfl⟩)

theorem param_ne (root root' : Str) (d d' : Nat) {name name' : Str} (n : Nat) (hn : n ≤ name.length + 1)
    (hn' : n ≤ name'.length + 1) (h : (c!"/" ++ name).reverse.take n ≠ (c!"/" ++ name').reverse.take n) :
    param root d name ≠ param root' d' name' :=
  tail_ne n (by simpa [Nat.add_comm] using hn) (by simpa [Nat.add_comm] using hn') h

theorem rhoFile_ne_param (root root' : Str) (d d' r : Nat) {name : Str} (n : Nat) (hn : n ≤ name.length + 1)
    (hn2 : n ≤ 30)
    (h : (c!"parameters/sampling_model.json").reverse.take n ≠ (c!"/" ++ name).reverse.take n) :
    rhoFile root d r ≠ param root' d' name :=
  tail_ne n hn2 (by simpa [Nat.add_comm] using hn) h

section
variable {root absRoot : Str} (hr : RootOk root absRoot) (d : Nat)
include hr

theorem init_paths (r : Nat) : let s := initFS root absRoot d r
    s.pathVibModel = param absRoot d c!"coupled_model.json" ∧
    s.pathOrigModel = param absRoot d c!"original_coupled_model.json" ∧
    s.pathHarModel = param absRoot d c!"harmonic_model.json" ∧
    s.pathIterModel = param absRoot d c!"iterative_model.json" ∧
    s.pathOrthoMat = param absRoot d c!"orthogonal_matrix.npy" ∧
    s.pathRhoModel = rhoFile absRoot d r ∧ s.idData = d := by
  intro s
  have : s = _ := initFS_eq hr d r
  rw [this]
  simp [param, rhoFile]

theorem atRho_path (r : Nat) : (atRho (initFS root absRoot d 0) r).pathRhoModel = rhoFile absRoot d r := by
  have h := changeRho_rho hr (initFS root absRoot d 0) r ⟨[], fun _ => none⟩ (by rw [initFS_eq hr])
  have h2 := (init_paths hr d r).2.2.2.2.2.1
  simp only [rhoLocations, List.cons.injEq] at h
  rw [atRho, h.2.2.2.2.1]
  exact h2

end

theorem open_given {p : Project} {e : Env α} {root absRoot : Str} {d : Nat} (hv : p.assertId d = .ok ())
    (hd : e.isDir root = true) : openData p e (some (root, absRoot)) d = .ok (initFS root absRoot d 0) := by
  simp [openData, hv, hd, bind, Except.bind]

/-! ### What a statement leaves alone -/

/-- Only the files in `P` are changed, and no matrix. -/
def Only (P : Str → Prop) (f : Step α) : Prop :=
  ∀ w, (∀ p, ¬ P p → (f w).2.files p = w.files p) ∧ (f w).2.mats = w.mats

theorem Only.mono {P Q : Str → Prop} {f : Step α} (h : Only P f) (hPQ : ∀ p, P p → Q p) : Only Q f :=
  fun w => ⟨fun p hp => (h w).1 p fun hc => hp (hPQ p hc), (h w).2⟩

theorem Only.andThen {P : Str → Prop} {f g : Step α} (hf : Only P f) (hg : Only P g) : Only P (andThen f g) := by
  intro w
  have h1 := hf w
  unfold Pibronic.Setup.andThen
  cases h : f w with
  | mk r w1 =>
    rw [h] at h1
    cases r with
    | error e => exact h1
    | ok u =>
      have h2 := hg w1
      exact ⟨fun p hp => ((h2.1 p hp).trans (h1.1 p hp)), h2.2.trans h1.2⟩

theorem only_files {P : Str → Prop} {f : ModelIO.Disk α → Except Err Unit × ModelIO.Disk α}
    (h : ∀ k p, ¬ P p → (f k).2 p = k p) : Only P (onFiles f) :=
  fun w => ⟨fun p hp => h w.files p hp, rfl⟩

theorem write_other (k : ModelIO.Disk α) {p q : Str} (f : File α) (h : q ≠ p) : k.write p f q = k q := by
  simp [ModelIO.Disk.write, h]

theorem write_same (k : ModelIO.Disk α) (p : Str) (f : File α) : k.write p f p = some f := by
  simp [ModelIO.Disk.write]

theorem copyFile_other (src dst : Str) (k : ModelIO.Disk α) (p : Str) (h : p ≠ dst) :
    (copyFile src dst k).2 p = k p := by
  unfold copyFile
  cases k src with
  | none => rfl
  | some f => exact write_other _ _ h

theorem iterativeWrapper_only (pr : Project) (e : Env α) (root : Option (Str × Str)) (d : Nat) :
    Only (fun p => ∃ s, openData pr e root d = .ok s ∧ p = s.pathIterModel) (iterativeWrapper pr e root d) := by
  intro w
  unfold iterativeWrapper
  cases h : openData pr e root d with
  | error err => exact ⟨fun _ _ => rfl, rfl⟩
  | ok s =>
    simp only
    cases e.iterate (w.files s.pathVibModel) with
    | error err => exact ⟨fun _ _ => rfl, rfl⟩
    | ok o =>
      cases o with
      | none => exact ⟨fun _ _ => rfl, rfl⟩
      | some f => exact ⟨fun p hp => write_other _ _ fun hc => hp ⟨s, rfl, hc⟩, rfl⟩

variable [Field α] [DecidableEq α] [AllClose α]

theorem save_other (kind : Kind) (path : Str) (d : Dict α) (k : ModelIO.Disk α) (p : Str) (h : p ≠ path) :
    (save kind path d k).2 p = k p := by
  unfold save
  cases verify kind d with
  | error e => rfl
  | ok v => exact write_other _ _ h

theorem recalculate_other (me : (A : Nat) → Tensor α [A, A] → α) (vib path : Str) (k : ModelIO.Disk α) (p : Str)
    (h : p ≠ path) : (recalculate me vib path k).2 p = k p := by
  unfold recalculate
  split
  · rfl
  · exact save_other _ _ _ _ _ h

theorem replaceEnergies_other (e : Env α) (vib iter rho : Str) (k : ModelIO.Disk α) (p : Str)
    (h : p ≠ rho) : (replaceEnergies e vib iter rho k).2 p = k p := by
  unfold replaceEnergies
  split
  · rfl
  · exact save_other _ _ _ _ _ h

/-- The files of the iterative part. -/
theorem iterativeDistributions_only (e : Env α) (s : FS) :
    Only (fun p => p = (atRho s 2).pathRhoModel ∨ p = (atRho s 3).pathRhoModel ∨ p = (atRho s 4).pathRhoModel ∨
      ∃ t, openData artificial e none s.idData = .ok t ∧ p = t.pathIterModel) (iterativeDistributions e s) := by
  unfold iterativeDistributions
  refine Only.andThen ((iterativeWrapper_only artificial e none s.idData).mono fun p hp => .inr (.inr (.inr hp))) ?_
  refine Only.andThen (only_files fun k p hp => copyFile_other _ _ k p fun hc => hp (.inl hc)) ?_
  refine Only.andThen (only_files fun k p hp => copyFile_other _ _ k p fun hc => hp (.inr (.inl hc))) ?_
  refine Only.andThen (only_files fun k p hp => replaceEnergies_other _ _ _ _ k p fun hc => hp (.inr (.inl hc))) ?_
  refine Only.andThen (only_files fun k p hp => copyFile_other _ _ k p fun hc => hp (.inr (.inr (.inl hc)))) ?_
  exact only_files fun k p hp => recalculate_other _ _ _ k p fun hc => hp (.inr (.inr (.inl hc)))

/-! ### C125 -/

/-- A file holds a coupled model. -/
def Reads (f : File α) (v : Verified α .coupled) : Prop := load .coupled [] (fun _ => some f) = .ok v

theorem load_congr {kind : Kind} {p q : Str} {k l : ModelIO.Disk α} (h : k p = l q) :
    load kind p k = load kind q l := by
  unfold load openFile
  rw [h]

theorem Reads.load {f : File α} {v : Verified α .coupled} (h : Reads f v) {p : Str} {k : ModelIO.Disk α}
    (hk : k p = some f) : load .coupled p k = .ok v := by
  rw [← h]
  exact load_congr hk

/-- A sampling model read from a file. -/
def ReadsSampling (f : File α) (v : Verified α .diagonal) : Prop := load .diagonal [] (fun _ => some f) = .ok v

/-- The coupled model in another basis. -/
def turned (v : Verified α .coupled) (M : Matrix (Fin v.A) (Fin v.A) α) : Model α .coupled v.A v.N :=
  Model.mapSurf (kind := .coupled) (kind' := .coupled) (einsumSurf fun a b => M a b) v.model

/-- The diagonal of a coupled model. -/
def diagonal {A N : Nat} (m : Model α .coupled A N) : Model α .diagonal A N :=
  Model.mapSurf (kind := .coupled) (kind' := .diagonal) (diagonalOf (A := A)) m

/-- The matrix that is used: the stored one, or a new one when there is none. -/
def Uses (e : Env α) (d : Nat) (stored : Option (NDArray α)) (A : Nat) (M : Matrix (Fin A) (Fin A) α) : Prop :=
  stored = some ⟨[A, A], fun a b => M a b⟩ ∨
  stored = none ∧ ∃ t, tuningParameter d = .ok t ∧ e.orthonormal t A = .ok ⟨[A, A], fun a b => M a b⟩

/-- The first part of the preparation as one change of the files. -/
theorem basic_run (e : Env α) {root absRoot : Str} (hr : RootOk root absRoot) (name : Str) (d : Nat)
    (hv : artificial.assertId d = .ok ()) (hd : e.isDir root = true) (w : World α) {f : File α}
    {v : Verified α .coupled}
    (hf : e.inputs (inputPath e c!"input_json" (c!"model_" ++ name ++ c!".json")) = some f) (hl : Reads f v)
    (hs : SurfaceNear v.model.toDict) (hm : ModeNear v.model.toDict) {M : Matrix (Fin v.A) (Fin v.A) α}
    (hM : Uses e d (w.mats (param absRoot d c!"orthogonal_matrix.npy")) v.A M)
    {m' : Model α .coupled v.A v.N} (hm' : Reads (toFile (turned v M).toDict) ⟨v.A, v.N, m'⟩) :
    let k1 := ((w.files.write (param absRoot d c!"coupled_model.json") f).write
      (param absRoot d c!"original_coupled_model.json") f).write (param absRoot d c!"coupled_model.json")
      (toFile (turned v M).toDict)
    let k2 := (k1.write (param absRoot d c!"harmonic_model.json") (toFile (diagonal m').toDict)).write
      (rhoFile absRoot d 0) (toFile (diagonal m').toDict)
    let k3 := k2.write (rhoFile absRoot d 1) (toFile (diagonal v.model).toDict)
    prepareModel e (some (root, absRoot)) name d w = iterativeDistributions e (initFS root absRoot d 0)
      { files := k3
        mats := fun p => if p = param absRoot d c!"orthogonal_matrix.npy" then some ⟨[v.A, v.A], fun a b => M a b⟩
          else w.mats p } := by
  intro k1 k2 k3
  obtain ⟨p1, p2, p3, p4, p5, p6, p7⟩ := init_paths hr d 0
  unfold prepareModel
  rw [open_given hv hd]
  simp only
  have h1 : copyInputJson e (initFS root absRoot d 0) name w =
      (.ok (), { w with files := w.files.write (param absRoot d c!"coupled_model.json") f }) := by
    simp only [copyInputJson, copyInput, hf, p1]
  have h2 : unitaryTransformation e (initFS root absRoot d 0) false
      { w with files := w.files.write (param absRoot d c!"coupled_model.json") f } =
      (.ok (), ⟨k1, fun p => if p = param absRoot d c!"orthogonal_matrix.npy" then
        some ⟨[v.A, v.A], fun a b => M a b⟩ else w.mats p⟩) := by
    have hfile := write_same w.files (param absRoot d c!"coupled_model.json") f
    have hload := hl.load hfile
    have hfake : ∀ arg, chooseU v.A (w.mats (param absRoot d c!"orthogonal_matrix.npy")) arg =
        .ok (fun a b => M a b) →
        createFake (param absRoot d c!"coupled_model.json") (param absRoot d c!"original_coupled_model.json")
          (w.mats (param absRoot d c!"orthogonal_matrix.npy")) arg
          (w.files.write (param absRoot d c!"coupled_model.json") f) =
        .ok ([⟨param absRoot d c!"original_coupled_model.json", none⟩,
          ⟨param absRoot d c!"original_coupled_model.json", some f⟩,
          ⟨param absRoot d c!"coupled_model.json", none⟩,
          ⟨param absRoot d c!"coupled_model.json", some (toFile (turned v M).toDict)⟩],
          ⟨[v.A, v.A], fun a b => M a b⟩) := by
      intro arg harg
      unfold createFake
      simp only [hfile, hload, bind, Except.bind, harg]
      rw [if_pos ⟨(symmetricInSurfaces_iff _).mpr hs, (symmetricInModes_iff _).mpr hm⟩, verify_toDict]
      rfl
    unfold unitaryTransformation
    simp only [p1, p2, p5, p7]
    rcases hM with hM | ⟨hM, t, ht, ho⟩
    · simp only [hM, Option.isSome_some, Bool.not_false, Bool.and_true, if_true, bind, Except.bind]
      rw [← hM, hfake .reuse (by simp only [chooseU, hM, cast?_mk])]
      simp only [runOps_four, hM]
      rfl
    · simp only [hM, Option.isSome_none, Bool.and_false, Bool.false_eq_true, if_false, bind, Except.bind, ht]
      rw [← hM, hfake (.fresh (e.orthonormal t)) (by simp only [chooseU, ho, bind, Except.bind, cast?_mk])]
      simp only [runOps_four]
      rfl
  have e1 : (param absRoot d c!"coupled_model.json") ≠ param absRoot d c!"original_coupled_model.json" :=
    tail_ne 19 (by decide) (by decide) (by decide)
  have hvib : k1 (param absRoot d c!"coupled_model.json") = some (toFile (turned v M).toDict) := write_same _ _ _
  have h3 : createBasicDiagonal (param absRoot d c!"coupled_model.json") (param absRoot d c!"harmonic_model.json")
      (rhoFile absRoot d 0) k1 = (.ok (), k2) := by
    unfold createBasicDiagonal removeCoupling
    rw [hm'.load hvib]
    simp only [save, verify_toDict]
    simp only [copyFile, write_same]
    rfl
  have horig : k2 (param absRoot d c!"original_coupled_model.json") = some f := by
    simp only [k2]
    rw [write_other _ _ (rhoFile_ne_param _ _ _ _ _ (name := c!"original_coupled_model.json") 19 (by decide) (by decide)
      (by decide)).symm, write_other _ _ (param_ne _ _ _ _ (name := c!"original_coupled_model.json")
        (name' := c!"harmonic_model.json") 13 (by decide) (by decide) (by decide))]
    simp only [k1]
    rw [write_other _ _ e1.symm, write_same]
  have h4 : removeCoupling (param absRoot d c!"original_coupled_model.json") (rhoFile absRoot d 1) k2 =
      (.ok (), k3) := by
    unfold removeCoupling
    rw [hl.load horig]
    simp only [save, verify_toDict]
    rfl
  have h5 : basicDistributions (initFS root absRoot d 0) (⟨k1, fun p => if p =
      param absRoot d c!"orthogonal_matrix.npy" then some ⟨[v.A, v.A], fun a b => M a b⟩ else w.mats p⟩ : World α) =
      (.ok (), ⟨k3, fun p => if p = param absRoot d c!"orthogonal_matrix.npy" then
        some ⟨[v.A, v.A], fun a b => M a b⟩ else w.mats p⟩) := by
    unfold basicDistributions
    simp only [andThen, onFiles, p1, p2, p3, atRho_path hr, h3, h4]
  simp only [andThen, h1, h2, h5]

theorem reads_saved {A N : Nat} (m : Model α .coupled A N) :
    ∃ m' : Model α .coupled A N, Reads (toFile m.toDict) ⟨A, N, m'⟩ ∧ ∀ k, m'.get k = m.get k := by
  obtain ⟨m', hl, hg, -⟩ := load_coupled m [] (fun _ => some (toFile m.toDict)) rfl
  exact ⟨m', hl, hg⟩

/-- The model files of a data set that do not come from the iterative method. -/
def basicFiles (root : Str) (d : Nat) : List Str :=
  [param root d c!"coupled_model.json", param root d c!"original_coupled_model.json",
    param root d c!"harmonic_model.json", rhoFile root d 0, rhoFile root d 1]

/-- The files that the iterative part may change, wherever it looks for its root. -/
theorem iterative_keeps (e : Env α) {root absRoot : Str} (hr : RootOk root absRoot) (d : Nat) (w : World α)
    (hdef : ∀ r, artificial.chooseRoot e.host = .ok r → RootOk r (e.absolute r)) :
    (∀ p ∈ basicFiles absRoot d, (iterativeDistributions e (initFS root absRoot d 0) w).2.files p = w.files p) ∧
    (iterativeDistributions e (initFS root absRoot d 0) w).2.mats = w.mats := by
  obtain ⟨h1, h2⟩ := iterativeDistributions_only e (initFS root absRoot d 0) w
  refine ⟨fun p hp => h1 p ?_, h2⟩
  simp only [atRho_path hr]
  have hiter : ∀ t, openData artificial e none (initFS root absRoot d 0).idData = .ok t →
      ∃ r', t.pathIterModel = param r' d c!"iterative_model.json" := by
    intro t ht
    have hid : (initFS root absRoot d 0).idData = d := rfl
    rw [hid] at ht
    unfold openData at ht
    cases ha : artificial.assertId d with
    | error x => simp [ha, bind, Except.bind] at ht
    | ok u =>
      cases hc : artificial.chooseRoot e.host with
      | error x => simp [ha, hc, bind, Except.bind] at ht
      | ok r =>
        simp only [ha, hc, bind, Except.bind] at ht
        split at ht
        · cases ht
          exact ⟨_, (init_paths (hdef r hc) d 0).2.2.2.1⟩
        · cases ht
  simp only [basicFiles, List.mem_cons, List.not_mem_nil, or_false] at hp
  rcases hp with rfl | rfl | rfl | rfl | rfl
  · rintro (h | h | h | ⟨t, ht, h⟩)
    · exact (rhoFile_ne_param _ _ _ _ _ (name := c!"coupled_model.json") 12 (by decide) (by decide) (by decide)).symm h
    · exact (rhoFile_ne_param _ _ _ _ _ (name := c!"coupled_model.json") 12 (by decide) (by decide) (by decide)).symm h
    · exact (rhoFile_ne_param _ _ _ _ _ (name := c!"coupled_model.json") 12 (by decide) (by decide) (by decide)).symm h
    · obtain ⟨r', hr'⟩ := hiter t ht
      exact param_ne _ _ _ _ (name := c!"coupled_model.json") (name' := c!"iterative_model.json") 12 (by decide)
        (by decide) (by decide) (h.trans hr')
  · rintro (h | h | h | ⟨t, ht, h⟩)
    · exact (rhoFile_ne_param _ _ _ _ _ (name := c!"original_coupled_model.json") 12 (by decide) (by decide) (by decide)).symm h
    · exact (rhoFile_ne_param _ _ _ _ _ (name := c!"original_coupled_model.json") 12 (by decide) (by decide) (by decide)).symm h
    · exact (rhoFile_ne_param _ _ _ _ _ (name := c!"original_coupled_model.json") 12 (by decide) (by decide) (by decide)).symm h
    · obtain ⟨r', hr'⟩ := hiter t ht
      exact param_ne _ _ _ _ (name := c!"original_coupled_model.json") (name' := c!"iterative_model.json") 12
        (by decide) (by decide) (by decide) (h.trans hr')
  · rintro (h | h | h | ⟨t, ht, h⟩)
    · exact (rhoFile_ne_param _ _ _ _ _ (name := c!"harmonic_model.json") 12 (by decide) (by decide) (by decide)).symm h
    · exact (rhoFile_ne_param _ _ _ _ _ (name := c!"harmonic_model.json") 12 (by decide) (by decide) (by decide)).symm h
    · exact (rhoFile_ne_param _ _ _ _ _ (name := c!"harmonic_model.json") 12 (by decide) (by decide) (by decide)).symm h
    · obtain ⟨r', hr'⟩ := hiter t ht
      exact param_ne _ _ _ _ (name := c!"harmonic_model.json") (name' := c!"iterative_model.json") 13 (by decide)
        (by decide) (by decide) (h.trans hr')
  · rintro (h | h | h | ⟨t, ht, h⟩)
    · exact rhoFile_ne _ _ (by decide) h
    · exact rhoFile_ne _ _ (by decide) h
    · exact rhoFile_ne _ _ (by decide) h
    · obtain ⟨r', hr'⟩ := hiter t ht
      exact rhoFile_ne_param _ _ _ _ _ (name := c!"iterative_model.json") 12 (by decide) (by decide) (by decide)
        (h.trans hr')
  · rintro (h | h | h | ⟨t, ht, h⟩)
    · exact rhoFile_ne _ _ (by decide) h
    · exact rhoFile_ne _ _ (by decide) h
    · exact rhoFile_ne _ _ (by decide) h
    · obtain ⟨r', hr'⟩ := hiter t ht
      exact rhoFile_ne_param _ _ _ _ _ (name := c!"iterative_model.json") 12 (by decide) (by decide) (by decide)
        (h.trans hr')

/-- The contents of the basic files. -/
theorem basic_files (e : Env α) {root absRoot : Str} (hr : RootOk root absRoot) (name : Str) (d : Nat)
    (hv : artificial.assertId d = .ok ()) (hd : e.isDir root = true)
    (hdef : ∀ r, artificial.chooseRoot e.host = .ok r → RootOk r (e.absolute r)) (w : World α) {f : File α}
    {v : Verified α .coupled}
    (hf : e.inputs (inputPath e c!"input_json" (c!"model_" ++ name ++ c!".json")) = some f) (hl : Reads f v)
    (hs : SurfaceNear v.model.toDict) (hm : ModeNear v.model.toDict) {M : Matrix (Fin v.A) (Fin v.A) α}
    (hM : Uses e d (w.mats (param absRoot d c!"orthogonal_matrix.npy")) v.A M)
    {m' : Model α .coupled v.A v.N} (hm' : Reads (toFile (turned v M).toDict) ⟨v.A, v.N, m'⟩) :
    let w' := (prepareModel e (some (root, absRoot)) name d w).2
    w'.mats = (fun p => if p = param absRoot d c!"orthogonal_matrix.npy" then
      some ⟨[v.A, v.A], fun a b => M a b⟩ else w.mats p) ∧
    w'.files (param absRoot d c!"coupled_model.json") = some (toFile (turned v M).toDict) ∧
    w'.files (param absRoot d c!"original_coupled_model.json") = some f ∧
    w'.files (param absRoot d c!"harmonic_model.json") = some (toFile (diagonal m').toDict) ∧
    w'.files (rhoFile absRoot d 0) = some (toFile (diagonal m').toDict) ∧
    w'.files (rhoFile absRoot d 1) = some (toFile (diagonal v.model).toDict) := by
  intro w'
  have hrun := basic_run e hr name d hv hd w hf hl hs hm hM hm'
  simp only at hrun
  obtain ⟨hk, hmats⟩ := iterative_keeps e hr d ⟨_, _⟩ hdef
  simp only [w', hrun]
  refine ⟨hmats, ?_⟩
  have a0 := rhoFile_ne absRoot d (r := 0) (r' := 1) (by decide)
  have c0 : ∀ r, rhoFile absRoot d r ≠ param absRoot d c!"coupled_model.json" := fun r =>
    rhoFile_ne_param _ _ _ _ _ 12 (by decide) (by decide) (by decide)
  have c1 : ∀ r, rhoFile absRoot d r ≠ param absRoot d c!"original_coupled_model.json" := fun r =>
    rhoFile_ne_param _ _ _ _ _ 12 (by decide) (by decide) (by decide)
  have c2 : ∀ r, rhoFile absRoot d r ≠ param absRoot d c!"harmonic_model.json" := fun r =>
    rhoFile_ne_param _ _ _ _ _ 12 (by decide) (by decide) (by decide)
  have d1 : param absRoot d c!"coupled_model.json" ≠ param absRoot d c!"harmonic_model.json" :=
    param_ne _ _ _ _ 12 (by decide) (by decide) (by decide)
  have d2 : param absRoot d c!"original_coupled_model.json" ≠ param absRoot d c!"harmonic_model.json" :=
    param_ne _ _ _ _ 12 (by decide) (by decide) (by decide)
  have d3 : param absRoot d c!"original_coupled_model.json" ≠ param absRoot d c!"coupled_model.json" :=
    param_ne _ _ _ _ 19 (by decide) (by decide) (by decide)
  refine ⟨?_, ?_, ?_, ?_, ?_⟩
  · rw [hk _ (by simp [basicFiles])]
    simp only [write_other _ _ (c0 _).symm, write_other _ _ d1, write_same]
  · rw [hk _ (by simp [basicFiles])]
    simp only [write_other _ _ (c1 _).symm, write_other _ _ d2, write_other _ _ d3, write_same]
  · rw [hk _ (by simp [basicFiles])]
    simp only [write_other _ _ (c2 _).symm, write_same]
  · rw [hk _ (by simp [basicFiles])]
    simp only [write_other _ _ a0, write_same]
  · rw [hk _ (by simp [basicFiles])]
    simp only [write_same]

theorem default_root {e : Env α} (hdef : RootOk artificial.serverRoot (e.absolute artificial.serverRoot)) :
    ∀ r, artificial.chooseRoot e.host = .ok r → RootOk r (e.absolute r) := by
  intro r h
  unfold Project.chooseRoot at h
  split at h
  · cases h; exact hdef
  · cases h

/-- C125: after a data set was prepared, from whatever was there before and however the iterative part ends,
`original_coupled_model.json` is the input file, `coupled_model.json` is the input in the basis given by the stored
matrix `M` (the one that was stored before, or else the new one), `harmonic_model.json` and the sampling model 0 are
its diagonal, and the sampling model 1 is the diagonal of the input. -/
theorem C125_models (e : Env α) {root absRoot : Str} (hr : RootOk root absRoot) (name : Str) (d : Nat)
    (hv : artificial.assertId d = .ok ()) (hd : e.isDir root = true)
    (hdef : RootOk artificial.serverRoot (e.absolute artificial.serverRoot)) (w : World α) {f : File α}
    {v : Verified α .coupled}
    (hf : e.inputs (inputPath e c!"input_json" (c!"model_" ++ name ++ c!".json")) = some f) (hl : Reads f v)
    (hs : SurfaceNear v.model.toDict) (hm : ModeNear v.model.toDict) {M : Matrix (Fin v.A) (Fin v.A) α}
    (hM : Uses e d (w.mats (param absRoot d c!"orthogonal_matrix.npy")) v.A M) :
    let w' := (prepareModel e (some (root, absRoot)) name d w).2
    w'.mats (param absRoot d c!"orthogonal_matrix.npy") = some ⟨[v.A, v.A], fun a b => M a b⟩ ∧
    (∀ p, p ≠ param absRoot d c!"orthogonal_matrix.npy" → w'.mats p = w.mats p) ∧
    w'.files (param absRoot d c!"original_coupled_model.json") = some f ∧
    ∃ v₁, load .coupled (param absRoot d c!"coupled_model.json") w'.files = .ok v₁ ∧ v₁.A = v.A ∧ v₁.N = v.N ∧
      (∀ idx, entry v₁.model.toDict .w idx = entry v.model.toDict .w idx) ∧
      (∀ k idx, k ≠ .w → idx.length = order k → surfaceMatrix v₁.model.toDict v.A k idx
        = M * surfaceMatrix v.model.toDict v.A k idx * M.transpose) ∧
      ∃ d₀ d₁ : Dict α, WellFormed .diagonal d₀ ∧ WellFormed .diagonal d₁ ∧
        d₀.A = some v.A ∧ d₀.N = some v.N ∧ d₁.A = some v.A ∧ d₁.N = some v.N ∧
        w'.files (param absRoot d c!"harmonic_model.json") = some (toFile d₀) ∧
        w'.files (rhoFile absRoot d 0) = some (toFile d₀) ∧
        w'.files (rhoFile absRoot d 1) = some (toFile d₁) ∧
        (∀ idx, entry d₀ .w idx = entry v.model.toDict .w idx ∧ entry d₁ .w idx = entry v.model.toDict .w idx) ∧
        ∀ k idx a, k ≠ .w → idx.length = order k →
          entry d₀ k (idx ++ [a]) = entry v₁.model.toDict k (idx ++ [a, a]) ∧
          entry d₁ k (idx ++ [a]) = entry v.model.toDict k (idx ++ [a, a]) := by
  intro w'
  obtain ⟨m', hm', hg⟩ := reads_saved (turned v M)
  obtain ⟨k0, k1, k2, k3, k4, k5⟩ := basic_files e hr name d hv hd (default_root hdef) w hf hl hs hm hM hm'
  have hsame := sameModel_of_get hg
  have hdiag : ∀ (m : Model α .coupled v.A v.N) k idx a, k ≠ .w → idx.length = order k →
      entry (diagonal m).toDict k (idx ++ [a]) = entry m.toDict k (idx ++ [a, a]) := fun m k idx a hk hlen =>
    entry_mapSurf (kind := .coupled) (kind' := .diagonal) (diagonalOf (A := v.A)) [a]
      (fun x => x [a, a]) (fun x => at_diagonalOf a x) rfl m k hk idx hlen
  refine ⟨by simp only [w', k0]; simp, fun p hp => by simp only [w', k0]; simp [hp], k2, ⟨v.A, v.N, m'⟩, hm'.load k1, rfl,
    rfl, fun idx => ?_, fun k idx hk hlen => ?_, (diagonal m').toDict, (diagonal v.model).toDict,
    wellFormed_iff.mpr ⟨_, _, _, rfl⟩, wellFormed_iff.mpr ⟨_, _, _, rfl⟩, rfl, rfl, rfl, rfl, k3, k4, k5,
    fun idx => ⟨?_, ?_⟩, fun k idx a hk hlen => ⟨hdiag m' k idx a hk hlen, hdiag v.model k idx a hk hlen⟩⟩
  · exact (hsame.2.2 _ _).trans (entry_mapSurf_w _ _ idx)
  · refine Eq.trans ?_ (surfaceMatrix_einsum (fun a b => M a b) v.model k hk idx hlen)
    ext a b
    exact hsame.2.2 _ _
  · exact (entry_mapSurf_w (kind := .coupled) (kind' := .diagonal) (diagonalOf (A := v.A)) m' idx).trans
      ((hsame.2.2 _ _).trans (entry_mapSurf_w _ _ idx))
  · exact entry_mapSurf_w (kind := .coupled) (kind' := .diagonal) (diagonalOf (A := v.A)) v.model idx

/-- C125: preparing the data set again, on any host, with any other draw of a random matrix and any other behaviour of
the iterative method, leaves these files and the stored matrix as they are. -/
theorem C125_again (e e' : Env α) {root absRoot : Str} (hr : RootOk root absRoot) (name : Str) (d : Nat)
    (hv : artificial.assertId d = .ok ()) (hd : e.isDir root = true) (hd' : e'.isDir root = true)
    (hdef : RootOk artificial.serverRoot (e.absolute artificial.serverRoot))
    (hdef' : RootOk artificial.serverRoot (e'.absolute artificial.serverRoot)) (w : World α) {f : File α}
    {v : Verified α .coupled}
    (hf : e.inputs (inputPath e c!"input_json" (c!"model_" ++ name ++ c!".json")) = some f)
    (hf' : e'.inputs (inputPath e' c!"input_json" (c!"model_" ++ name ++ c!".json")) = some f) (hl : Reads f v)
    (hs : SurfaceNear v.model.toDict) (hm : ModeNear v.model.toDict) {M : Matrix (Fin v.A) (Fin v.A) α}
    (hM : Uses e d (w.mats (param absRoot d c!"orthogonal_matrix.npy")) v.A M) :
    let w₁ := (prepareModel e (some (root, absRoot)) name d w).2
    let w₂ := (prepareModel e' (some (root, absRoot)) name d w₁).2
    (∀ p ∈ basicFiles absRoot d, w₂.files p = w₁.files p ∧ w₁.files p ≠ none) ∧ w₂.mats = w₁.mats := by
  intro w₁ w₂
  obtain ⟨m', hm', hg⟩ := reads_saved (turned v M)
  obtain ⟨k0, k1, k2, k3, k4, k5⟩ := basic_files e hr name d hv hd (default_root hdef) w hf hl hs hm hM hm'
  have hM' : Uses e' d (w₁.mats (param absRoot d c!"orthogonal_matrix.npy")) v.A M := by
    left
    simp only [w₁, k0, if_true]
  obtain ⟨l0, l1, l2, l3, l4, l5⟩ := basic_files e' hr name d hv hd' (default_root hdef') w₁ hf' hl hs hm hM' hm'
  constructor
  · intro p hp
    simp only [basicFiles, List.mem_cons, List.not_mem_nil, or_false] at hp
    rcases hp with rfl | rfl | rfl | rfl | rfl
    · exact ⟨l1.trans k1.symm, by simp only [w₁]; rw [k1]; exact Option.some_ne_none _⟩
    · exact ⟨l2.trans k2.symm, by simp only [w₁]; rw [k2]; exact Option.some_ne_none _⟩
    · exact ⟨l3.trans k3.symm, by simp only [w₁]; rw [k3]; exact Option.some_ne_none _⟩
    · exact ⟨l4.trans k4.symm, by simp only [w₁]; rw [k4]; exact Option.some_ne_none _⟩
    · exact ⟨l5.trans k5.symm, by simp only [w₁]; rw [k5]; exact Option.some_ne_none _⟩
  · refine l0.trans ?_
    funext p
    simp only [w₁]
    rw [k0]
    simp only
    split <;> rfl

/-! ### C126 -/

/-- Only the files in `P` are changed. -/
def OnlyFiles (P : Str → Prop) (f : Step α) : Prop := ∀ w p, ¬ P p → (f w).2.files p = w.files p

theorem OnlyFiles.andThen {P : Str → Prop} {f g : Step α} (hf : OnlyFiles P f) (hg : OnlyFiles P g) :
    OnlyFiles P (andThen f g) := by
  intro w p hp
  have h1 := hf w p hp
  unfold Pibronic.Setup.andThen
  cases h : f w with
  | mk r w1 =>
    rw [h] at h1
    cases r with
    | error e => exact h1
    | ok u => exact (hg w1 p hp).trans h1

theorem copyInput_only (e : Env α) (src dst : Str) : OnlyFiles (· = dst) (copyInput e src dst) := by
  intro w p hp
  unfold copyInput
  cases e.inputs src with
  | none => rfl
  | some f => exact write_other _ _ hp

theorem removeCoupling_other (src dst : Str) (k : ModelIO.Disk α) (p : Str) (h : p ≠ dst) :
    (removeCoupling src dst k).2 p = k p := by
  unfold removeCoupling
  split
  · rfl
  · exact save_other _ _ _ _ _ h

theorem createBasicDiagonal_other (vib har rho : Str) (k : ModelIO.Disk α) (p : Str) (h : p ≠ har) (h' : p ≠ rho) :
    (createBasicDiagonal vib har rho k).2 p = k p := by
  unfold createBasicDiagonal
  have := removeCoupling_other vib har k p h
  split
  · next h1 => rw [h1] at this; exact this
  · next h1 => rw [h1] at this; exact (copyFile_other _ _ _ _ h').trans this

theorem unitary_only (e : Env α) (s : FS) (b : Bool) :
    OnlyFiles (fun p => p = s.pathVibModel ∨ p = s.pathOrigModel) (unitaryTransformation e s b) := by
  intro w p hp
  unfold unitaryTransformation
  simp only
  split
  · rfl
  · next ops U h =>
    simp only
    simp only [bind, Except.bind] at h
    split at h
    · cases h
    · obtain ⟨old, v, u, -, -, -, -, -, -, hops⟩ := createFake_ok h
      rw [hops, runOps_four]
      push_neg at hp
      rw [write_other _ _ hp.1, write_other _ _ hp.2]

/-- The model files of a data set under a root. -/
def setFiles (root : Str) (d : Nat) : List Str :=
  basicFiles root d ++ [rhoFile root d 2, rhoFile root d 3, rhoFile root d 4, param root d c!"iterative_model.json"]

theorem prepare_only (e : Env α) {root absRoot : Str} (hr : RootOk root absRoot) (name : Str) (d : Nat) (s : FS)
    (hs : s = initFS root absRoot d 0) :
    OnlyFiles (fun p => p ∈ basicFiles absRoot d ++ [rhoFile absRoot d 2, rhoFile absRoot d 3, rhoFile absRoot d 4] ∨
      ∃ t, openData artificial e none d = .ok t ∧ p = t.pathIterModel)
      (andThen (copyInputJson e s name) (andThen (unitaryTransformation e s false)
        (andThen (basicDistributions s) (iterativeDistributions e s)))) := by
  subst hs
  obtain ⟨p1, p2, p3, p4, p5, p6, p7⟩ := init_paths hr d 0
  refine OnlyFiles.andThen ?_ (OnlyFiles.andThen ?_ (OnlyFiles.andThen (OnlyFiles.andThen ?_ ?_) ?_))
  · intro w p hp
    refine copyInput_only _ _ _ w p fun hc => hp (.inl ?_)
    rw [hc, p1]; simp [basicFiles]
  · intro w p hp
    refine unitary_only _ _ _ w p fun hc => hp (.inl ?_)
    rcases hc with hc | hc
    · rw [hc, p1]; simp [basicFiles]
    · rw [hc, p2]; simp [basicFiles]
  · intro w p hp
    refine createBasicDiagonal_other _ _ _ _ p (fun hc => hp (.inl ?_)) (fun hc => hp (.inl ?_))
    · rw [hc, p3]; simp [basicFiles]
    · rw [hc, atRho_path hr]; simp [basicFiles]
  · intro w p hp
    refine removeCoupling_other _ _ _ p fun hc => hp (.inl ?_)
    rw [hc, atRho_path hr]; simp [basicFiles]
  · intro w p hp
    refine (iterativeDistributions_only e (initFS root absRoot d 0) w).1 p fun hc => hp ?_
    simp only [atRho_path hr, p7] at hc
    rcases hc with hc | hc | hc | hc
    · left; rw [hc]; simp
    · left; rw [hc]; simp
    · left; rw [hc]; simp
    · exact .inr hc

theorem open_none {p : Project} {e : Env α} {d : Nat} {t : FS} (h : openData p e none d = .ok t) :
    p.chooseRoot e.host = .ok p.serverRoot ∧ p.assertId d = .ok () ∧ e.isDir p.serverRoot = true ∧
    t = initFS p.serverRoot (e.absolute p.serverRoot) d 0 := by
  unfold openData at h
  cases ha : p.assertId d with
  | error x => simp [ha, bind, Except.bind] at h
  | ok u =>
    have hroot : ∀ r, p.chooseRoot e.host = .ok r → r = p.serverRoot := by
      intro r hr
      unfold Project.chooseRoot at hr
      split at hr
      · cases hr; rfl
      · cases hr
    cases hc : p.chooseRoot e.host with
    | error x => simp [ha, hc, bind, Except.bind] at h
    | ok r =>
      have := hroot r hc
      subst this
      simp only [ha, hc, bind, Except.bind] at h
      split at h
      · next hd => cases h; exact ⟨rfl, rfl, hd, rfl⟩
      · cases h

/-- C126: however the preparation of a data set ends, it changes no model file except those of this data set under the
root it works on and, which is one too many, `iterative_model.json` of the same data set under the root of the
server. -/
theorem C126_changes_partial (e : Env α) (root : Option (Str × Str)) (name : Str) (d : Nat)
    (hdef : RootOk artificial.serverRoot (e.absolute artificial.serverRoot))
    (hr : ∀ r, root = some r → RootOk r.1 r.2) (w : World α) (p : Str) :
    let absRoot := (root.map (·.2)).getD (e.absolute artificial.serverRoot)
    (prepareModel e root name d w).2.files p ≠ w.files p →
    p ∈ setFiles absRoot d ∨ p = param (e.absolute artificial.serverRoot) d c!"iterative_model.json" := by
  intro absRoot hne
  by_contra hc
  push_neg at hc
  apply hne
  unfold prepareModel
  cases ho : openData artificial e root d with
  | error x => rfl
  | ok s =>
    have hs : ∃ r, RootOk r absRoot ∧ s = initFS r absRoot d 0 := by
      cases root with
      | none => exact ⟨_, hdef, (open_none ho).2.2.2⟩
      | some r =>
        refine ⟨r.1, hr r rfl, ?_⟩
        unfold openData at ho
        cases ha : artificial.assertId d with
        | error x => simp [ha, bind, Except.bind] at ho
        | ok u =>
          simp only [ha, bind, Except.bind] at ho
          split at ho
          · cases ho; rfl
          · cases ho
    obtain ⟨r, hrr, hs⟩ := hs
    refine prepare_only e hrr name d s hs w p ?_
    rintro (h | ⟨t, ht, h⟩)
    · apply hc.1
      simp only [setFiles, List.mem_append] at h ⊢
      rcases h with h | h
      · exact .inl h
      · right
        simp only [List.mem_cons, List.not_mem_nil, or_false] at h ⊢
        tauto
    · apply hc.2
      rw [h, (open_none ht).2.2.2]
      exact (init_paths hdef d 0).2.2.2.1

theorem iter_notMem (root root' : Str) (d : Nat) :
    param root' d c!"iterative_model.json" ∉ basicFiles root d ++ [rhoFile root d 2, rhoFile root d 3,
      rhoFile root d 4] := by
  have c : ∀ r, param root' d c!"iterative_model.json" ≠ rhoFile root d r := fun r =>
    (rhoFile_ne_param _ _ _ _ _ 12 (by decide) (by decide) (by decide)).symm
  have d1 : param root' d c!"iterative_model.json" ≠ param root d c!"coupled_model.json" :=
    param_ne _ _ _ _ 12 (by decide) (by decide) (by decide)
  have d2 : param root' d c!"iterative_model.json" ≠ param root d c!"original_coupled_model.json" :=
    param_ne _ _ _ _ 12 (by decide) (by decide) (by decide)
  have d3 : param root' d c!"iterative_model.json" ≠ param root d c!"harmonic_model.json" :=
    param_ne _ _ _ _ 13 (by decide) (by decide) (by decide)
  simp [basicFiles, c, d1, d2, d3]

theorem param_root {root root' : Str} {d : Nat} {name : Str} (h : param root d name = param root' d name) :
    root = root' := by
  unfold param at h
  rw [List.append_cancel_right_eq, List.append_cancel_right_eq] at h
  unfold dataDir at h
  simpa only [List.append_assoc, List.append_cancel_right_eq] using h

section
variable (e : Env α) {root absRoot : Str} (hr : RootOk root absRoot) (name : Str) (d : Nat)
  (hv : artificial.assertId d = .ok ()) (hd : e.isDir root = true)
  (hdef : RootOk artificial.serverRoot (e.absolute artificial.serverRoot))
  (hh : e.host = c!"nlogn" ∨ e.host = c!"feynman") (hsd : e.isDir artificial.serverRoot = true)
  (w : World α) {f : File α} {v : Verified α .coupled}
  (hf : e.inputs (inputPath e c!"input_json" (c!"model_" ++ name ++ c!".json")) = some f) (hl : Reads f v)
  (hs : SurfaceNear v.model.toDict) (hm : ModeNear v.model.toDict) {M : Matrix (Fin v.A) (Fin v.A) α}
  (hM : Uses e d (w.mats (param absRoot d c!"orthogonal_matrix.npy")) v.A M)
include hv hdef hh hsd

theorem open_server : openData artificial e none d =
    .ok (initFS artificial.serverRoot (e.absolute artificial.serverRoot) d 0) := by
  simp [openData, hv, Project.chooseRoot, hh, hsd, bind, Except.bind]

include hr hd hf hl hs hm hM

/-- The state before the iterative part. -/
theorem before_iterative : ∃ k : ModelIO.Disk α, ∃ mats,
    prepareModel e (some (root, absRoot)) name d w =
      iterativeDistributions e (initFS root absRoot d 0) ⟨k, mats⟩ ∧
    (∀ p, p ∉ basicFiles absRoot d → k p = w.files p) ∧
    k (param absRoot d c!"coupled_model.json") = some (toFile (turned v M).toDict) := by
  obtain ⟨m', hm', hg⟩ := reads_saved (turned v M)
  refine ⟨_, _, basic_run e hr name d hv hd w hf hl hs hm hM hm', ?_, ?_⟩
  · intro p hp
    simp only [basicFiles, List.mem_cons, List.not_mem_nil, or_false, not_or] at hp
    obtain ⟨h1, h2, h3, h4, h5⟩ := hp
    rw [write_other _ _ h5, write_other _ _ h4, write_other _ _ h3, write_other _ _ h1, write_other _ _ h2,
      write_other _ _ h1]
  · have c0 : ∀ r, rhoFile absRoot d r ≠ param absRoot d c!"coupled_model.json" := fun r =>
      rhoFile_ne_param _ _ _ _ _ 12 (by decide) (by decide) (by decide)
    have d1 : param absRoot d c!"coupled_model.json" ≠ param absRoot d c!"harmonic_model.json" :=
      param_ne _ _ _ _ 12 (by decide) (by decide) (by decide)
    rw [write_other _ _ (c0 _).symm, write_other _ _ (c0 _).symm, write_other _ _ d1, write_same]

/-- C126 fails: a data set that is prepared under another root than that of the server gets its iterative model under
the root of the server, where it replaces what was there, and when the root has none of its own the preparation ends
with FileNotFoundError before the sampling models 2, 3 and 4 are made. -/
theorem C126_other_root_refuted (hne : absRoot ≠ e.absolute artificial.serverRoot) (g : File α)
    (hg : ∀ o, e.iterate o = .ok (some g)) :
    let r := prepareModel e (some (root, absRoot)) name d w
    r.2.files (param (e.absolute artificial.serverRoot) d c!"iterative_model.json") = some g ∧
    param (e.absolute artificial.serverRoot) d c!"iterative_model.json" ∉ setFiles absRoot d ∧
    (w.files (param absRoot d c!"iterative_model.json") = none →
      r.1 = .error .os ∧ ∀ i ∈ [2, 3, 4], r.2.files (rhoFile absRoot d i) = w.files (rhoFile absRoot d i)) := by
  intro r
  obtain ⟨k, mats, hrun, hk, -⟩ := before_iterative e hr name d hv hd hdef hh hsd w hf hl hs hm hM
  obtain ⟨p1, p2, p3, p4, p5, p6, p7⟩ := init_paths hr d 0
  have q4 := (init_paths hdef d 0).2.2.2.1
  have hnotin := iter_notMem absRoot (e.absolute artificial.serverRoot) d
  have hown : param (e.absolute artificial.serverRoot) d c!"iterative_model.json" ≠
      param absRoot d c!"iterative_model.json" := fun hc => hne (param_root hc).symm
  have hw : iterativeWrapper artificial e none d (⟨k, mats⟩ : World α) =
      (.ok (), ⟨k.write (param (e.absolute artificial.serverRoot) d c!"iterative_model.json") g, mats⟩) := by
    unfold iterativeWrapper
    rw [open_server e d hv hdef hh hsd]
    simp only [hg, q4]
  refine ⟨?_, ?_, ?_⟩
  · simp only [r, hrun]
    unfold iterativeDistributions andThen
    rw [p7, hw]
    simp only
    have : Only (fun p => p = rhoFile absRoot d 2 ∨ p = rhoFile absRoot d 3 ∨ p = rhoFile absRoot d 4) _ :=
      Only.andThen (only_files fun k p hp => copyFile_other (param absRoot d c!"iterative_model.json")
          (rhoFile absRoot d 2) k p fun hc => hp (.inl hc))
        (Only.andThen (only_files fun k p hp => copyFile_other (param absRoot d c!"iterative_model.json")
          (rhoFile absRoot d 3) k p fun hc => hp (.inr (.inl hc)))
        (Only.andThen (only_files fun k p hp => replaceEnergies_other e (param absRoot d c!"coupled_model.json")
          (param absRoot d c!"iterative_model.json") (rhoFile absRoot d 3) k p fun hc => hp (.inr (.inl hc)))
        (Only.andThen (only_files fun k p hp => copyFile_other (param absRoot d c!"iterative_model.json")
          (rhoFile absRoot d 4) k p fun hc => hp (.inr (.inr hc)))
        (only_files fun k p hp => recalculate_other e.minEig (param absRoot d c!"coupled_model.json")
          (rhoFile absRoot d 4) k p fun hc => hp (.inr (.inr hc))))))
    rw [p1, p4, atRho_path hr, atRho_path hr, atRho_path hr]
    have h2 := (this ⟨k.write (param (e.absolute artificial.serverRoot) d c!"iterative_model.json") g, mats⟩).1
      (param (e.absolute artificial.serverRoot) d c!"iterative_model.json") (by
        intro hc
        apply hnotin
        rcases hc with hc | hc | hc <;> rw [hc] <;> simp)
    exact h2.trans (write_same _ _ _)
  · intro hc
    rw [setFiles, List.mem_append] at hc
    rw [List.mem_append] at hnotin
    rcases hc with hc | hc
    · exact hnotin (.inl hc)
    · have := fun h => hnotin (.inr h)
      simp only [List.mem_cons, List.not_mem_nil, or_false] at hc this
      tauto
  · intro hno
    have hk2 : k.write (param (e.absolute artificial.serverRoot) d c!"iterative_model.json") g
        (param absRoot d c!"iterative_model.json") = none := by
      rw [write_other _ _ hown.symm, hk _ (fun hc => iter_notMem absRoot absRoot d (List.mem_append_left _ hc)), hno]
    have hres : r = (.error .os, ⟨k.write (param (e.absolute artificial.serverRoot) d c!"iterative_model.json") g,
        mats⟩) := by
      simp only [r, hrun]
      unfold iterativeDistributions andThen
      rw [p7, hw]
      simp only [onFiles, copyFile, p4, hk2]
    rw [hres]
    refine ⟨rfl, ?_⟩
    intro i hi
    have hne2 : rhoFile absRoot d i ≠ param (e.absolute artificial.serverRoot) d c!"iterative_model.json" :=
      rhoFile_ne_param _ _ _ _ _ 12 (by decide) (by decide) (by decide)
    show k.write _ g _ = _
    rw [write_other _ _ hne2]
    refine hk _ ?_
    have c0 : ∀ _ : Nat, rhoFile absRoot d i ≠ param absRoot d c!"coupled_model.json" := fun n =>
      rhoFile_ne_param _ _ _ _ _ 12 (by decide) (by decide) (by decide)
    have c1 : rhoFile absRoot d i ≠ param absRoot d c!"original_coupled_model.json" :=
      rhoFile_ne_param _ _ _ _ _ 12 (by decide) (by decide) (by decide)
    have c2 : rhoFile absRoot d i ≠ param absRoot d c!"harmonic_model.json" :=
      rhoFile_ne_param _ _ _ _ _ 12 (by decide) (by decide) (by decide)
    have hi0 : i ≠ 0 := by rintro rfl; simp at hi
    have hi1 : i ≠ 1 := by rintro rfl; simp at hi
    simp [basicFiles, c0 0, c1, c2, rhoFile_ne absRoot d hi0, rhoFile_ne absRoot d hi1]

end

omit [Field α] [DecidableEq α] [AllClose α] in
theorem andThen_ok {f g : Step α} {w x : World α} (h : f w = (.ok (), x)) : andThen f g w = g x := by
  simp only [andThen, h]

/-- The part after the iterative method has run. -/
noncomputable def tail (e : Env α) (absRoot : Str) (d : Nat) : Step α :=
  andThen (onFiles (copyFile (param absRoot d c!"iterative_model.json") (rhoFile absRoot d 2))) <|
  andThen (onFiles (copyFile (param absRoot d c!"iterative_model.json") (rhoFile absRoot d 3))) <|
  andThen (onFiles (replaceEnergies e (param absRoot d c!"coupled_model.json")
    (param absRoot d c!"iterative_model.json") (rhoFile absRoot d 3))) <|
  andThen (onFiles (copyFile (param absRoot d c!"iterative_model.json") (rhoFile absRoot d 4)))
    (onFiles (recalculate e.minEig (param absRoot d c!"coupled_model.json") (rhoFile absRoot d 4)))

/-- What the rest does with the model `g` that it finds. -/
theorem tail_run (e : Env α) (absRoot : Str) (d : Nat) (w : World α) {g : File α}
    (hg : w.files (param absRoot d c!"iterative_model.json") = some g) :
    let k := (w.files.write (rhoFile absRoot d 2) g).write (rhoFile absRoot d 3) g
    let r3 := replaceEnergies e (param absRoot d c!"coupled_model.json")
      (param absRoot d c!"iterative_model.json") (rhoFile absRoot d 3) k
    let r4 := recalculate e.minEig (param absRoot d c!"coupled_model.json") (rhoFile absRoot d 4)
      (r3.2.write (rhoFile absRoot d 4) g)
    (∃ er, r3.1 = .error er ∧ tail e absRoot d w = (.error er, ⟨r3.2, w.mats⟩)) ∨
    (r3.1 = .ok () ∧ tail e absRoot d w = (r4.1, ⟨r4.2, w.mats⟩)) := by
  intro k r3 r4
  have c : ∀ r, param absRoot d c!"iterative_model.json" ≠ rhoFile absRoot d r := fun r =>
    (rhoFile_ne_param _ _ _ _ _ 12 (by decide) (by decide) (by decide)).symm
  have h2 : onFiles (copyFile (param absRoot d c!"iterative_model.json") (rhoFile absRoot d 2)) w =
      (.ok (), ⟨w.files.write (rhoFile absRoot d 2) g, w.mats⟩) := by
    simp only [onFiles, copyFile, hg]
  have h3 : onFiles (copyFile (param absRoot d c!"iterative_model.json") (rhoFile absRoot d 3))
      (⟨w.files.write (rhoFile absRoot d 2) g, w.mats⟩ : World α) = (.ok (), ⟨k, w.mats⟩) := by
    simp only [onFiles, copyFile, write_other _ _ (c 2), hg]
    rfl
  have hki : r3.2 (param absRoot d c!"iterative_model.json") = some g := by
    simp only [r3, k]
    rw [replaceEnergies_other _ _ _ _ _ _ (c 3), write_other _ _ (c 3), write_other _ _ (c 2), hg]
  unfold tail
  simp only [andThen, h2, h3]
  rw [show onFiles (replaceEnergies e (param absRoot d c!"coupled_model.json")
    (param absRoot d c!"iterative_model.json") (rhoFile absRoot d 3)) (⟨k, w.mats⟩ : World α) =
    (r3.1, ⟨r3.2, w.mats⟩) from rfl]
  cases hr3 : r3.1 with
  | error er => exact .inl ⟨er, rfl, rfl⟩
  | ok u =>
    refine .inr ⟨rfl, ?_⟩
    simp only
    rw [show onFiles (copyFile (param absRoot d c!"iterative_model.json") (rhoFile absRoot d 4))
      (⟨r3.2, w.mats⟩ : World α) = (.ok (), ⟨r3.2.write (rhoFile absRoot d 4) g, w.mats⟩) by
        simp only [onFiles, copyFile, hki]]
    rfl

theorem tail_second (e : Env α) (absRoot : Str) (d : Nat) (w : World α) {g : File α}
    (hg : w.files (param absRoot d c!"iterative_model.json") = some g) :
    (tail e absRoot d w).2.files (rhoFile absRoot d 2) = some g ∧
    ∀ p, p ∉ [rhoFile absRoot d 2, rhoFile absRoot d 3, rhoFile absRoot d 4] →
      (tail e absRoot d w).2.files p = w.files p := by
  have n23 : rhoFile absRoot d 2 ≠ rhoFile absRoot d 3 := rhoFile_ne absRoot d (by decide)
  have n24 : rhoFile absRoot d 2 ≠ rhoFile absRoot d 4 := rhoFile_ne absRoot d (by decide)
  rcases tail_run e absRoot d w hg with ⟨er, -, h⟩ | ⟨-, h⟩
  · rw [h]
    refine ⟨?_, fun p hp => ?_⟩
    · simp only
      rw [replaceEnergies_other _ _ _ _ _ _ n23, write_other _ _ n23, write_same]
    · simp only [List.mem_cons, List.not_mem_nil, or_false, not_or] at hp
      simp only
      rw [replaceEnergies_other _ _ _ _ _ _ hp.2.1, write_other _ _ hp.2.1, write_other _ _ hp.1]
  · rw [h]
    refine ⟨?_, fun p hp => ?_⟩
    · simp only
      rw [recalculate_other _ _ _ _ _ n24, write_other _ _ n24, replaceEnergies_other _ _ _ _ _ _ n23,
        write_other _ _ n23, write_same]
    · simp only [List.mem_cons, List.not_mem_nil, or_false, not_or] at hp
      simp only
      rw [recalculate_other _ _ _ _ _ hp.2.2, write_other _ _ hp.2.2, replaceEnergies_other _ _ _ _ _ _ hp.2.1,
        write_other _ _ hp.2.1, write_other _ _ hp.1]

section
variable (e : Env α) (name : Str) (d : Nat)
  (hv : artificial.assertId d = .ok ())
  (hdef : RootOk artificial.serverRoot (e.absolute artificial.serverRoot))
  (hh : e.host = c!"nlogn" ∨ e.host = c!"feynman") (hsd : e.isDir artificial.serverRoot = true)
  (w : World α) {f : File α} {v : Verified α .coupled}
  (hf : e.inputs (inputPath e c!"input_json" (c!"model_" ++ name ++ c!".json")) = some f) (hl : Reads f v)
  (hs : SurfaceNear v.model.toDict) (hm : ModeNear v.model.toDict) {M : Matrix (Fin v.A) (Fin v.A) α}
  (hM : Uses e d (w.mats (param (e.absolute artificial.serverRoot) d c!"orthogonal_matrix.npy")) v.A M)
include hv hdef hh hsd hf hl hs hm hM

/-- Under the root of the server. -/
theorem server_run : ∃ k : ModelIO.Disk α, ∃ mats,
    (∀ p, p ∉ basicFiles (e.absolute artificial.serverRoot) d → k p = w.files p) ∧
    k (param (e.absolute artificial.serverRoot) d c!"coupled_model.json") = some (toFile (turned v M).toDict) ∧
    (e.iterate (some (toFile (turned v M).toDict)) = .ok none →
      prepareModel e none name d w = tail e (e.absolute artificial.serverRoot) d ⟨k, mats⟩) ∧
    ∀ g, e.iterate (some (toFile (turned v M).toDict)) = .ok (some g) →
      prepareModel e none name d w = tail e (e.absolute artificial.serverRoot) d
        ⟨k.write (param (e.absolute artificial.serverRoot) d c!"iterative_model.json") g, mats⟩ := by
  obtain ⟨k, mats, hrun, hk, hc⟩ := before_iterative e hdef name d hv hsd hdef hh hsd w hf hl hs hm hM
  obtain ⟨p1, p2, p3, p4, p5, p6, p7⟩ := init_paths hdef d 0
  have hsame : prepareModel e none name d w = prepareModel e
      (some (artificial.serverRoot, e.absolute artificial.serverRoot)) name d w := by
    unfold prepareModel
    rw [open_server e d hv hdef hh hsd, open_given hv hsd]
  have htail : ∀ x, iterativeWrapper artificial e none d (⟨k, mats⟩ : World α) = (.ok (), x) →
      prepareModel e none name d w = tail e (e.absolute artificial.serverRoot) d x := by
    intro x hx
    rw [hsame, hrun]
    unfold iterativeDistributions tail
    rw [p1, p4, p7, atRho_path hdef, atRho_path hdef, atRho_path hdef]
    rw [andThen_ok hx]
  refine ⟨k, mats, hk, hc, fun hi => htail _ ?_, fun g hi => htail _ ?_⟩
  · unfold iterativeWrapper
    rw [open_server e d hv hdef hh hsd]
    simp only [p1, hc, hi]
  · unfold iterativeWrapper
    rw [open_server e d hv hdef hh hsd]
    simp only [p1, hc, hi, p4]

/-- C126 fails: a run of the iterative method that leaves no model goes unnoticed, and the model `g` that an earlier
preparation left, perhaps from another input, becomes the sampling model 2 of the new one. -/
theorem C126_stale_refuted (hi : e.iterate (some (toFile (turned v M).toDict)) = .ok none) (g : File α)
    (hg : w.files (param (e.absolute artificial.serverRoot) d c!"iterative_model.json") = some g) :
    (prepareModel e none name d w).2.files (rhoFile (e.absolute artificial.serverRoot) d 2) = some g ∧
    (prepareModel e none name d w).2.files (param (e.absolute artificial.serverRoot) d c!"coupled_model.json") =
      some (toFile (turned v M).toDict) := by
  obtain ⟨k, mats, hk, hc, hn, -⟩ := server_run e name d hv hdef hh hsd w hf hl hs hm hM
  rw [hn hi]
  have hki : k (param (e.absolute artificial.serverRoot) d c!"iterative_model.json") = some g := by
    rw [hk _ (fun h => iter_notMem _ _ d (List.mem_append_left _ h)), hg]
  have c0 : ∀ r, rhoFile (e.absolute artificial.serverRoot) d r ≠
      param (e.absolute artificial.serverRoot) d c!"coupled_model.json" := fun r =>
    rhoFile_ne_param _ _ _ _ _ 12 (by decide) (by decide) (by decide)
  obtain ⟨h1, h2⟩ := tail_second e (e.absolute artificial.serverRoot) d ⟨k, mats⟩ hki
  exact ⟨h1, (h2 _ (by simp [(c0 _).symm])).trans hc⟩

/-- C126: when the iterative method makes the model `g` of the new coupled model, `g` is the iterative model and the
sampling model 2. -/
theorem C126_iterative_partial (g : File α)
    (hi : e.iterate (some (toFile (turned v M).toDict)) = .ok (some g)) :
    (prepareModel e none name d w).2.files (param (e.absolute artificial.serverRoot) d c!"iterative_model.json") =
      some g ∧
    (prepareModel e none name d w).2.files (rhoFile (e.absolute artificial.serverRoot) d 2) = some g := by
  obtain ⟨k, mats, hk, hc, -, hn⟩ := server_run e name d hv hdef hh hsd w hf hl hs hm hM
  rw [hn g hi]
  have c : ∀ r, param (e.absolute artificial.serverRoot) d c!"iterative_model.json" ≠
      rhoFile (e.absolute artificial.serverRoot) d r := fun r =>
    (rhoFile_ne_param _ _ _ _ _ 12 (by decide) (by decide) (by decide)).symm
  obtain ⟨h1, h2⟩ := tail_second e (e.absolute artificial.serverRoot) d
    ⟨k.write (param (e.absolute artificial.serverRoot) d c!"iterative_model.json") g, mats⟩ (write_same _ _ _)
  exact ⟨(h2 _ (by simp [c])).trans (write_same _ _ _), h1⟩

end

section energies
variable {β : Type} [Field β] [LinearOrder β] [IsStrictOrderedRing β]

/-- The lowest point is unique. -/
theorem lowest_unique (d : Dict β) (N a : Nat) (hw : ∀ i : Fin N, 0 < entry d .w [i.1]) (q : Fin N → β)
    (h : ∀ q', oscillator d N a q ≤ oscillator d N a q') :
    q = fun i => -(entry d .G1 [i.1, a]) / entry d .w [i.1] := by
  have h0 := (oscillator_least d N a hw).2
  have h1 := h fun i => -(entry d .G1 [i.1, a]) / entry d .w [i.1]
  rw [h0] at h1
  unfold oscillator at h1
  rw [sum_min (fun i => entry d .w [i.1]) (fun i => entry d .G1 [i.1, a]) _ hw] at h1
  have h2 : ∑ i : Fin N, entry d .w [i.1] * (q i - -(entry d .G1 [i.1, a]) / entry d .w [i.1]) ^ 2 / 2 ≤ 0 := by
    linarith
  have hnn : ∀ i ∈ Finset.univ, 0 ≤ entry d .w [(i : Fin N).1] *
      (q i - -(entry d .G1 [i.1, a]) / entry d .w [i.1]) ^ 2 / 2 :=
    fun i _ => by have := hw i; positivity
  have h3 := (Finset.sum_eq_zero_iff_of_nonneg hnn).mp (le_antisymm h2 (Finset.sum_nonneg hnn))
  funext i
  have h4 := h3 i (Finset.mem_univ _)
  have h5 := (hw i).ne'
  have h6 : (q i - -(entry d .G1 [i.1, a]) / entry d .w [i.1]) ^ 2 = 0 := by
    rcases div_eq_zero_iff.mp h4 with h | h
    · exact (mul_eq_zero.mp h).resolve_left h5
    · norm_num at h
  exact sub_eq_zero.mp (pow_eq_zero_iff (by decide) |>.mp h6)

omit [Field β] [LinearOrder β] [IsStrictOrderedRing β] in
theorem withEnergies_dict {A N : Nat} (m : Model β .diagonal A N) (new : Tensor β [A]) :
    ({ m.toDict with arr := fun k => if k = .E then some ⟨[A], new⟩ else m.toDict.arr k } : Dict β) =
      (m.withEnergies new).toDict := by
  have : ∀ key : Key, (if key = .E then some (⟨[A], new⟩ : NDArray β) else m.toDict.arr key) =
      (m.withEnergies new).toDict.arr key := by
    intro key
    cases key <;> rfl
  rw [funext this]
  rfl

theorem third_energies (e : Env β) (vib iter rho : Str) (k : ModelIO.Disk β) (i : Verified β .diagonal)
    (v : Verified β .coupled) (h1 : load .diagonal iter k = .ok i) (h2 : load .diagonal rho k = .ok i)
    (h3 : load .coupled vib k = .ok v) (hw : ∀ j : Fin i.N, 0 < entry i.model.toDict .w [j.1])
    (h : (replaceEnergies e vib iter rho k).1 = .ok ()) :
    ∃ d3, (replaceEnergies e vib iter rho k).2 rho = some (toFile d3) ∧ WellFormed .diagonal d3 ∧
      (∀ key idx, key ≠ .E → entry d3 key idx = entry i.model.toDict key idx) ∧
      ∀ (a : Fin i.A) (q : Fin i.N → β),
        (∀ q', oscillator i.model.toDict i.N a q ≤ oscillator i.model.toDict i.N a q') →
        ∀ qv : Fin v.N → β, (∀ (j : Fin i.N) (l : Fin v.N), j.1 = l.1 → qv l = q j) →
          entry d3 .E [a.1] = e.minEig v.A (fun b c => potentialMatrix v.model.toDict v.A v.N qv b c) := by
  unfold replaceEnergies at h ⊢
  rw [h1, h2, h3] at h ⊢
  simp only [bind, Except.bind] at h ⊢
  cases hs : singlePoint e.minEig i v with
  | error er => rw [hs] at h; cases h
  | ok new =>
    simp only
    rw [withEnergies_dict]
    have hother : ∀ key idx, key ≠ .E → entry (i.model.withEnergies new).toDict key idx
        = entry i.model.toDict key idx := by
      intro key idx hk
      simp only [entry_toDict]
      cases key <;> first | rfl | exact absurd rfl hk
    refine ⟨(i.model.withEnergies new).toDict, by simp [save, verify_toDict, ModelIO.Disk.write],
      wellFormed_iff.mpr ⟨i.A, i.N, _, rfl⟩, hother, fun a q hq qv hqv => ?_⟩
    have hE : entry (i.model.withEnergies new).toDict .E [a.1] = new a := by
      rw [entry_toDict]
      show at_ [i.A] new [a.1] = _
      simp only [at_, a.2, dite_true]
    rw [hE]
    unfold singlePoint at hs
    split at hs; · cases hs
    split at hs; · cases hs
    split at hs; · cases hs
    split at hs; · cases hs
    split at hs
    rotate_left
    · cases hs
    next hN =>
    cases hs
    show e.minEig v.A (potentialAt v (minimum i a ∘ Fin.cast hN.symm)) = _
    congr 1
    funext b c
    have hq' : ∀ j : Fin v.N, (minimum i a ∘ Fin.cast hN.symm) j = qv j := by
      intro j
      rw [Function.comp_apply, minimum_eq, hqv (Fin.cast hN.symm j) j rfl,
        lowest_unique i.model.toDict i.N a hw q hq]
    simp only [potentialAt, potentialMatrix, hq', entry_w, entry_G1c, entry_Ec, Finset.sum_div]

variable (e : Env β) (name : Str) (d : Nat)
  (hv : artificial.assertId d = .ok ())
  (hdef : RootOk artificial.serverRoot (e.absolute artificial.serverRoot))
  (hh : e.host = c!"nlogn" ∨ e.host = c!"feynman") (hsd : e.isDir artificial.serverRoot = true)
  (w : World β) {f : File β} {v : Verified β .coupled}
  (hf : e.inputs (inputPath e c!"input_json" (c!"model_" ++ name ++ c!".json")) = some f) (hl : Reads f v)
  (hs : SurfaceNear v.model.toDict) (hm : ModeNear v.model.toDict) {M : Matrix (Fin v.A) (Fin v.A) β}
  (hM : Uses e d (w.mats (param (e.absolute artificial.serverRoot) d c!"orthogonal_matrix.npy")) v.A M)
include hv hdef hh hsd hf hl hs hm hM

/-- C126: when the preparation succeeds, the sampling models 3 and 4 are the model `g` of the iterative method with
other energies.  At the point `q` where the oscillator of a surface of `g` is lowest, let `x` be the lowest
eigenvalue of the potential energy matrix of the new coupled model.  In the sampling model 4 the oscillator of that
surface is lowest at `q` with the height `x`.  In the sampling model 3 its stored energy is `x`, so that it is lower
than `x` at `q` by what the displacement gains. -/
theorem C126_energies_partial (g : File β)
    (hi : e.iterate (some (toFile (turned v M).toDict)) = .ok (some g))
    {i : Verified β .diagonal} (hgi : ReadsSampling g i)
    (hw : ∀ j : Fin i.N, 0 < entry i.model.toDict .w [j.1])
    (hok : (prepareModel e none name d w).1 = .ok ()) :
    ∃ d3 d4, (prepareModel e none name d w).2.files (rhoFile (e.absolute artificial.serverRoot) d 3) =
        some (toFile d3) ∧
      (prepareModel e none name d w).2.files (rhoFile (e.absolute artificial.serverRoot) d 4) = some (toFile d4) ∧
      WellFormed .diagonal d3 ∧ WellFormed .diagonal d4 ∧
      (∀ k idx, k ≠ .E → entry d3 k idx = entry i.model.toDict k idx ∧
        entry d4 k idx = entry i.model.toDict k idx) ∧
      ∀ a : Fin i.A, ∃ q : Fin i.N → β,
        (∀ q', oscillator i.model.toDict i.N a q ≤ oscillator i.model.toDict i.N a q') ∧
        (∀ q', oscillator d4 i.N a q ≤ oscillator d4 i.N a q') ∧
        ∀ qv : Fin v.N → β, (∀ (j : Fin i.N) (l : Fin v.N), j.1 = l.1 → qv l = q j) →
          let x := e.minEig v.A (fun b c => potentialMatrix (turned v M).toDict v.A v.N qv b c)
          oscillator d4 i.N a q = x ∧ entry d3 .E [a.1] = x := by
  obtain ⟨k, mats, hk, hc, -, hn⟩ := server_run e name d hv hdef hh hsd w hf hl hs hm hM
  rw [hn g hi] at hok ⊢
  generalize e.absolute artificial.serverRoot = R at *
  have hload : ∀ (k : ModelIO.Disk β) (p : Str), k p = some g → load .diagonal p k = .ok i := fun k p h => by
    rw [← hgi]; exact load_congr h
  obtain ⟨m', hm', hget⟩ := reads_saved (turned v M)
  have c : ∀ r, param R d c!"iterative_model.json" ≠ rhoFile R d r := fun r =>
    (rhoFile_ne_param _ _ _ _ _ 12 (by decide) (by decide) (by decide)).symm
  have c0 : ∀ r, param R d c!"coupled_model.json" ≠ rhoFile R d r := fun r =>
    (rhoFile_ne_param _ _ _ _ _ 12 (by decide) (by decide) (by decide)).symm
  have ci : param R d c!"coupled_model.json" ≠ param R d c!"iterative_model.json" :=
    param_ne _ _ _ _ 12 (by decide) (by decide) (by decide)
  have n34 : rhoFile R d 3 ≠ rhoFile R d 4 := rhoFile_ne R d (by decide)
  have hent : ∀ key idx, entry m'.toDict key idx = entry (turned v M).toDict key idx := by
    intro key idx; rw [entry_eq_get, entry_eq_get, hget]
  have hpot : ∀ q, potentialMatrix m'.toDict v.A v.N q = potentialMatrix (turned v M).toDict v.A v.N q := by
    intro q; funext b c; simp only [potentialMatrix, hent]
  rcases tail_run e R d ⟨k.write (param R d c!"iterative_model.json") g, mats⟩ (write_same _ _ _) with
    ⟨er, -, h⟩ | ⟨h3, h⟩
  · rw [h] at hok; cases hok
  · rw [h] at hok ⊢
    simp only at hok ⊢
    generalize hk3 : ((k.write (param R d c!"iterative_model.json") g).write (rhoFile R d 2) g).write
      (rhoFile R d 3) g = k3 at *
    have e1 : k3 (param R d c!"iterative_model.json") = some g := by
      rw [← hk3, write_other _ _ (c 3), write_other _ _ (c 2), write_same]
    have e2 : k3 (param R d c!"coupled_model.json") = some (toFile (turned v M).toDict) := by
      rw [← hk3, write_other _ _ (c0 3), write_other _ _ (c0 2), write_other _ _ ci, hc]
    have e3 : k3 (rhoFile R d 3) = some g := by rw [← hk3, write_same]
    generalize hr3 : replaceEnergies e (param R d c!"coupled_model.json") (param R d c!"iterative_model.json")
      (rhoFile R d 3) k3 = r3 at *
    have h4c : (r3.2.write (rhoFile R d 4) g) (param R d c!"coupled_model.json") =
        some (toFile (turned v M).toDict) := by
      rw [write_other _ _ (c0 4), ← hr3, replaceEnergies_other _ _ _ _ _ _ (c0 3), e2]
    obtain ⟨hN, hq1, hq2, d4, f4, wf4, -, -, hoth, hent4, hosc⟩ := C11_reweighted_energies e.minEig
      (param R d c!"coupled_model.json") (rhoFile R d 4) (r3.2.write (rhoFile R d 4) g) i ⟨v.A, v.N, m'⟩
      (hload _ _ (write_same _ _ _)) (hm'.load h4c) hw hok
    have hE3 := third_energies e (param R d c!"coupled_model.json") (param R d c!"iterative_model.json")
      (rhoFile R d 3) k3 i ⟨v.A, v.N, m'⟩ (hload _ _ e1) (hload _ _ e3) (hm'.load e2) hw (by rw [hr3]; exact h3)
    rw [hr3] at hE3
    obtain ⟨d3, f3, wf3, hent3, hE⟩ := hE3
    refine ⟨d3, d4, ?_, f4, wf3, wf4, fun key idx hkey => ⟨hent3 key idx hkey, hent4 key idx hkey⟩, fun a => ?_⟩
    · rw [hoth _ n34, write_other _ _ n34, f3]
    · obtain ⟨q, o1, o2, o3⟩ := hosc a
      refine ⟨q, o1, o2, fun qv hqv => ⟨?_, ?_⟩⟩
      · rw [o3 qv hqv]
        simp only [hpot]
      · rw [hE a q o1 qv hqv]
        simp only [hpot]

/-- C126: the preparation succeeds when the iterative method makes a model `g` with as many modes as the input, both
have frequencies, and neither `g` nor the new coupled model has quadratic terms above `1e-8`. -/
theorem C126_succeeds_partial (g : File β)
    (hi : e.iterate (some (toFile (turned v M).toDict)) = .ok (some g))
    {i : Verified β .diagonal} (hgi : ReadsSampling g i) (hN : i.N = v.N)
    (hw : ∃ j, entry i.model.toDict .w [j] ≠ 0) (hw' : ∃ j, entry v.model.toDict .w [j] ≠ 0)
    (hq : ∀ idx, |entry i.model.toDict .G2 idx| ≤ 1 / 10 ^ 8)
    (hq' : ∀ idx, |entry (turned v M).toDict .G2 idx| ≤ 1 / 10 ^ 8) :
    (prepareModel e none name d w).1 = .ok () := by
  obtain ⟨k, mats, hk, hc, -, hn⟩ := server_run e name d hv hdef hh hsd w hf hl hs hm hM
  rw [hn g hi]
  generalize e.absolute artificial.serverRoot = R at *
  have hload : ∀ (k : ModelIO.Disk β) (p : Str), k p = some g → load .diagonal p k = .ok i := fun k p h => by
    rw [← hgi]; exact load_congr h
  obtain ⟨m', hm', hget⟩ := reads_saved (turned v M)
  have c : ∀ r, param R d c!"iterative_model.json" ≠ rhoFile R d r := fun r =>
    (rhoFile_ne_param _ _ _ _ _ 12 (by decide) (by decide) (by decide)).symm
  have c0 : ∀ r, param R d c!"coupled_model.json" ≠ rhoFile R d r := fun r =>
    (rhoFile_ne_param _ _ _ _ _ 12 (by decide) (by decide) (by decide)).symm
  have ci : param R d c!"coupled_model.json" ≠ param R d c!"iterative_model.json" :=
    param_ne _ _ _ _ 12 (by decide) (by decide) (by decide)
  have hent : ∀ key idx, entry m'.toDict key idx = entry (turned v M).toDict key idx := by
    intro key idx; rw [entry_eq_get, entry_eq_get, hget]
  obtain ⟨j, hj⟩ := hw'
  have hwm : ∃ j, entry m'.toDict .w [j] ≠ 0 :=
    ⟨j, by rw [hent, show entry (turned v M).toDict .w [j] = entry v.model.toDict .w [j] from
      entry_mapSurf_w _ _ [j]]; exact hj⟩
  have hqm : ∀ idx, |entry m'.toDict .G2 idx| ≤ 1 / 10 ^ 8 := fun idx => by rw [hent]; exact hq' idx
  rcases tail_run e R d ⟨k.write (param R d c!"iterative_model.json") g, mats⟩ (write_same _ _ _) with
    ⟨er, her, h⟩ | ⟨h3, h⟩
  · exfalso
    simp only at her
    generalize hk3 : ((k.write (param R d c!"iterative_model.json") g).write (rhoFile R d 2) g).write
      (rhoFile R d 3) g = k3 at her
    have e1 : k3 (param R d c!"iterative_model.json") = some g := by
      rw [← hk3, write_other _ _ (c 3), write_other _ _ (c 2), write_same]
    have e2 : k3 (param R d c!"coupled_model.json") = some (toFile (turned v M).toDict) := by
      rw [← hk3, write_other _ _ (c0 3), write_other _ _ (c0 2), write_other _ _ ci, hc]
    have e3 : k3 (rhoFile R d 3) = some g := by rw [← hk3, write_same]
    have hrec := C11_succeeds e.minEig (param R d c!"coupled_model.json") (rhoFile R d 3) k3 i ⟨v.A, v.N, m'⟩
      (hload _ _ e3) (hm'.load e2) hN hw hwm hq hqm
    unfold recalculate at hrec
    unfold replaceEnergies at her
    rw [hload _ _ e1, hload _ _ e3, hm'.load e2] at her
    rw [hload _ _ e3, hm'.load e2] at hrec
    simp only [bind, Except.bind] at her hrec
    cases hs : singlePoint e.minEig i ⟨v.A, v.N, m'⟩ with
    | error er => rw [hs] at hrec; cases hrec
    | ok new =>
      rw [hs] at her
      simp only at her
      rw [withEnergies_dict] at her
      simp only [save, verify_toDict] at her
      cases her
  · rw [h]
    simp only
    refine C11_succeeds e.minEig _ _ _ i ⟨v.A, v.N, m'⟩ (hload _ _ (write_same _ _ _)) (hm'.load ?_) hN hw hwm hq hqm
    rw [write_other _ _ (c0 4), replaceEnergies_other _ _ _ _ _ _ (c0 3), write_other _ _ (c0 3),
      write_other _ _ (c0 2), write_other _ _ ci, hc]

end energies

/-! ### The hypotheses are met -/

/-- Two surfaces with the energies 1 and 2, one mode. -/
def input : Model ℚ .coupled 2 1 := ⟨fun k => match k with
  | .E => some (fun a b => if a = b then (a.1 : ℚ) + 1 else 0)
  | .w => some (fun _ => (1 : ℚ))
  | _ => none⟩

/-- What the iterative method makes of it. -/
def sampling : Model ℚ .diagonal 2 1 := ⟨fun k => match k with
  | .E => some (fun a => (a.1 : ℚ) + 3)
  | .w => some (fun _ => (1 : ℚ))
  | .G1 => some (fun _ a => (a.1 : ℚ) + 1)
  | _ => none⟩

theorem input_E (a b : Nat) : entry input.toDict .E [a, b] = if a = b ∧ a < 2 then (a : ℚ) + 1 else 0 := by
  rw [entry_toDict]
  show at_ [2, 2] (fun a b : Fin 2 => if a = b then (a.1 : ℚ) + 1 else 0) [a, b] = _
  simp only [at_]
  by_cases ha : a < 2
  · by_cases hb : b < 2
    · simp [ha, hb]
    · have : ¬ (a = b) := by omega
      simp [hb, this]
  · simp [ha]

theorem input_other {k : Key} (h : k ≠ .E ∧ k ≠ .w) (idx : List Nat) : entry input.toDict k idx = 0 := by
  rw [entry_toDict]
  have : input.arr k = none := by cases k <;> simp_all [input]
  rw [this]
  exact at_zeros _ _

/-- The machine: every path is a directory, every input is the two-surface model, the matrix exchanges the surfaces. -/
def machine (g : Option (File ℚ)) (scriptDir : Str) (listing : List Str) : Env ℚ where
  host := c!"nlogn"
  absolute := fun p => p.dropLast
  isDir := fun _ => true
  scriptDir := scriptDir
  inputs := fun _ => some (toFile input.toDict)
  listing := listing
  orthonormal := fun _ _ => .ok ⟨[2, 2], fun a b => FakeCoupling.swap a b⟩
  iterate := fun _ => .ok g
  minEig := fun _ _ => 0

theorem input_reads : ∃ v : Verified ℚ .coupled, Reads (toFile input.toDict) v ∧ v.A = 2 ∧ v.N = 1 ∧
    SurfaceNear v.model.toDict ∧ ModeNear v.model.toDict ∧ (∀ k idx, entry v.model.toDict k idx = entry input.toDict k idx) ∧
    ∃ M : Matrix (Fin v.A) (Fin v.A) ℚ, (∀ g s l d, artificial.assertId d = .ok () → d % 10 ∈ [1, 2, 3, 4, 5] →
      Uses (machine g s l) d none v.A M) ∧ ∀ idx, entry (turned v M).toDict .G2 idx = 0 := by
  obtain ⟨m', hl, hg⟩ := reads_saved input
  have hsame := (sameModel_of_get hg).2.2
  have hs : SurfaceSymmetric m'.toDict := by
    intro k idx a b hk hlen
    by_cases hkE : k = .E
    · subst hkE
      obtain rfl := List.length_eq_zero_iff.mp hlen
      simp only [List.nil_append, hsame, input_E]
      by_cases hab : a = b
      · subst hab; rfl
      · rw [if_neg (fun h => hab h.1), if_neg (fun h => hab h.1.symm)]
    · rw [hsame, hsame, input_other ⟨hkE, hk⟩, input_other ⟨hkE, hk⟩]
  have hm : ModeSymmetric m'.toDict :=
    ⟨fun i j a b => by rw [hsame, hsame, input_other (by decide), input_other (by decide)],
      fun i j k l a b => by rw [hsame, hsame, input_other (by decide), input_other (by decide)]⟩
  refine ⟨⟨2, 1, m'⟩, hl, rfl, rfl, hs.near, hm.near, hsame, FakeCoupling.swap, fun g s l d hv hd => .inr ⟨rfl, ?_⟩,
    fun idx => ?_⟩
  · have : ∃ t, tuningParameter d = .ok t := by
      unfold tuningParameter
      rw [hv]
      simp only [bind, Except.bind]
      simp only [List.mem_cons, List.not_mem_nil, or_false] at hd
      rcases hd with h | h | h | h | h <;> exact ⟨_, by rw [h]; rfl⟩
    obtain ⟨t, ht⟩ := this
    exact ⟨t, ht, rfl⟩
  · rcases entry_cases_coupled (turned ⟨2, 1, m'⟩ FakeCoupling.swap) .G2 (by decide) idx with
      ⟨i, a, b, rfl, hlen⟩ | h
    · have := entry_mapSurf (kind := .coupled) (kind' := .coupled) (einsumSurf fun a b => FakeCoupling.swap a b) [a, b]
        (fun x => if h : a < 2 ∧ b < 2 then ∑ j : Fin 2, ∑ k : Fin 2, toMat (fun a b => FakeCoupling.swap a b) ⟨a, h.1⟩ j *
          x [j.1, k.1] * toMat (fun a b => FakeCoupling.swap a b) ⟨b, h.2⟩ k else 0)
        (fun x => by
          by_cases ha : a < 2 <;> by_cases hb : b < 2 <;> simp [at_, surf, einsumSurf, toMat, ha, hb])
        (by simp) m' .G2 (by decide) i hlen
      refine Eq.trans this ?_
      simp [hsame, input_other (show Key.G2 ≠ .E ∧ Key.G2 ≠ .w by decide)]
    · exact h

theorem sampling_reads : ∃ i : Verified ℚ .diagonal, ReadsSampling (toFile sampling.toDict) i ∧ i.A = 2 ∧ i.N = 1 ∧
    ∀ k idx, entry i.model.toDict k idx = entry sampling.toDict k idx := by
  have hE : (kept sampling).arr .E ≠ none := (nonzero_iff_entry sampling .E).mpr ⟨[0], by
    rw [entry_toDict]; show at_ [2] (fun a : Fin 2 => (a.1 : ℚ) + 3) [0] ≠ 0; simp [at_]⟩
  refine ⟨⟨2, 1, kept sampling⟩, ?_, rfl, rfl, fun k idx => by rw [entry_eq_get, kept_get, entry_eq_get]⟩
  unfold ReadsSampling
  rw [load_diagonal sampling [] _ rfl, if_neg hE]

theorem w_one {kind : Kind} {A : Nat} (m : Model ℚ kind A 1) (h : m.arr .w = some (fun _ => (1 : ℚ))) :
    entry m.toDict .w [0] = 1 := by
  rw [entry_toDict, h]
  show at_ [1] (fun _ => (1 : ℚ)) [0] = 1
  simp [at_]

theorem server_ok (g : Option (File ℚ)) (s : Str) (l : List Str) :
    RootOk artificial.serverRoot ((machine g s l).absolute artificial.serverRoot) ∧
    RootOk paper.serverRoot ((machine g s l).absolute paper.serverRoot) := by
  change RootOk artificial.serverRoot artificial.serverRoot.dropLast ∧ RootOk paper.serverRoot paper.serverRoot.dropLast
  exact ⟨⟨by decide, by decide, .inr (by decide)⟩, ⟨by decide, by decide, .inr (by decide)⟩⟩

/-- C125 and C126 apply: the two-surface model is prepared with the given root and with that of the server, and with
the latter the preparation succeeds. -/
example : ∃ (e : Env ℚ) (w : World ℚ),
    (∃ f v M, e.inputs (inputPath e c!"input_json" (c!"model_" ++ c!"2x2" ++ c!".json")) = some f ∧ Reads f v ∧
      SurfaceNear v.model.toDict ∧ ModeNear v.model.toDict ∧
      Uses e 11 (w.mats (param c!"/tmp/run" 11 c!"orthogonal_matrix.npy")) v.A M ∧
      entry v.model.toDict .E [0, 0] ≠ entry v.model.toDict .E [1, 1]) ∧
    (prepareModel e none c!"2x2" 11 w).1 = .ok () ∧
    (∃ g, (prepareModel e none c!"2x2" 11 w).2.files
      (rhoFile (e.absolute artificial.serverRoot) 11 2) = some g ∧ ∃ i, ReadsSampling g i ∧ i.A = 2) ∧
    (prepareModel e (some (c!"/tmp/run", c!"/tmp/run")) c!"2x2" 11 w).1 = .error .os := by
  obtain ⟨v, hl, hA, hN, hs, hm, hent, M, hM, hG2⟩ := input_reads
  obtain ⟨i, hgi, hiA, hiN, hi⟩ := sampling_reads
  let e := machine (some (toFile sampling.toDict)) c!"/code" []
  have hv : artificial.assertId 11 = .ok () := rfl
  have hu := hM (some (toFile sampling.toDict)) c!"/code" [] 11 hv (by decide)
  have hdef := (server_ok (some (toFile sampling.toDict)) c!"/code" []).1
  have hE : entry v.model.toDict .E [0, 0] ≠ entry v.model.toDict .E [1, 1] := by
    rw [hent, hent, input_E, input_E]; norm_num
  have hroot : RootOk c!"/tmp/run" c!"/tmp/run" := ⟨by decide, by decide, .inl rfl⟩
  have h0 : ∀ idx, entry sampling.toDict .G2 idx = 0 := fun idx => by rw [entry_toDict]; exact at_zeros _ _
  refine ⟨e, ⟨fun _ => none, fun _ => none⟩, ⟨_, v, M, rfl, hl, hs, hm, hu, hE⟩, ?_, ⟨toFile sampling.toDict, ?_, i, hgi, hiA⟩,
    ?_⟩
  · refine C126_succeeds_partial e c!"2x2" 11 hv hdef (.inl rfl) rfl _ rfl hl hs hm hu _ rfl hgi (hiN.trans hN.symm)
      ⟨0, ?_⟩ ⟨0, ?_⟩ (fun idx => ?_) (fun idx => ?_)
    · rw [hi, w_one sampling rfl]; norm_num
    · rw [hent, w_one input rfl]; norm_num
    · rw [hi, h0]; norm_num
    · rw [hG2]; norm_num
  · exact (C126_iterative_partial e c!"2x2" 11 hv hdef (.inl rfl) rfl _ rfl hl hs hm hu _ rfl).2
  · exact ((C126_other_root_refuted e hroot c!"2x2" 11 hv rfl hdef (.inl rfl) rfl ⟨fun _ => none, fun _ => none⟩ rfl hl hs hm hu
      (by decide) _ (fun _ => rfl)).2.2 rfl).1

/-- A failed run of the iterative method: the hypotheses of `C126_stale_refuted` are met by any old file. -/
example (g : File ℚ) : ∃ (e : Env ℚ) (w : World ℚ),
    w.files (param (e.absolute artificial.serverRoot) 11 c!"iterative_model.json") = some g ∧
    (prepareModel e none c!"2x2" 11 w).2.files (rhoFile (e.absolute artificial.serverRoot) 11 2) = some g := by
  obtain ⟨v, hl, hA, hN, hs, hm, hent, M, hM, hG2⟩ := input_reads
  exact ⟨machine none c!"/code" [], ⟨fun _ => some g, fun _ => none⟩, rfl,
    (C126_stale_refuted (machine none c!"/code" []) c!"2x2" 11 rfl (server_ok none c!"/code" []).1 (.inl rfl) rfl _ rfl hl hs
      hm (hM none c!"/code" [] 11 rfl (by decide)) rfl g rfl).1⟩

end Pibronic.Props.Setup
