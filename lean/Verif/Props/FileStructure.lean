import Verif.Lemmas.FileStructure

set_option autoImplicit false

/-! Properties C18-C21: directory layout, `change_rho`, `directories_exist`, model hashes. -/
namespace Pibronic.Props.FileStructure
open Py FileName Pibronic.FileStructure Spec.FileStructure

/-- Locations of the coupled model: directories, files and file name templates. -/
def vibLocations (s : FS) : List Str :=
  [s.pathVibParams, s.pathVibResults, s.pathVibOutput, s.pathVibPlots, s.pathVibModel,
   s.pathHarModel, s.pathIterModel, s.pathIterMat, s.pathAnalyticVib, s.pathAnalyticOrig,
   s.pathOrigModel, s.pathOrthoMat, s.templateSosVib, s.templateTrotterVib]

/-- Locations of the sampling distribution: directories, files and file name templates. -/
def rhoLocations (s : FS) : List Str :=
  [s.pathRhoParams, s.pathRhoResults, s.pathRhoOutput, s.pathRhoPlots, s.pathRhoModel,
   s.pathAnalyticRho, s.templatePimc, s.templateJackknife, s.templateSosRho]

/-! ### C18 -/

/-- Every location lies inside `root/data_set_D/`, sampling ones inside `root/data_set_D/rho_R/`. -/
theorem C18_locations_inside {root absRoot : Str} (h : RootOk root absRoot) (d r : Nat) :
    (∀ p ∈ vibLocations (initFS root absRoot d r), Inside (dataDir absRoot d) p)
    ∧ (∀ p ∈ rhoLocations (initFS root absRoot d r), Inside (rhoDir absRoot d r) p)
    ∧ Inside (dataDir absRoot d) (rhoDir absRoot d r)
    ∧ (initFS root absRoot d r).pathData = dataDir absRoot d
    ∧ (initFS root absRoot d r).pathRho = rhoDir absRoot d r
    ∧ Inside (dataDir absRoot d) (initFS root absRoot d r).pathEs := by
  rw [initFS_eq h]
  refine ⟨?_, ?_, ?_, rfl, rfl, ?_⟩
  · simp [vibLocations, Inside]
  · simp [rhoLocations, Inside]
  · simp [Inside, rhoDir]
  · simp [Inside]

theorem slash_notMem_natStr (n : Nat) : '/' ∉ natStr n := notMem_natStr (by decide) n

/-- Two data sets never overlap: nothing lies inside two different ones. -/
theorem C18_data_sets_disjoint (root : Str) (d d' : Nat) (hd : d ≠ d') (p : Str)
    (h : Inside (dataDir root d) p) : ¬ Inside (dataDir root d') p := by
  rintro ⟨x, hx⟩
  obtain ⟨y, rfl⟩ := h
  simp only [dataDir, List.append_assoc, List.append_cancel_left_eq] at hx
  have := append_cons_inj (c := '/') (a := natStr d') (b := natStr d) (x := x) (y := y)
    (slash_notMem_natStr _) (slash_notMem_natStr _) (by simpa using hx)
  exact hd (natStr_injective this.1.symm)

/-- Two sampling distributions of a data set never overlap. -/
theorem C18_rho_disjoint (root : Str) (d r r' : Nat) (hr : r ≠ r') (p : Str)
    (h : Inside (rhoDir root d r) p) : ¬ Inside (rhoDir root d r') p := by
  rintro ⟨x, hx⟩
  obtain ⟨y, rfl⟩ := h
  simp only [rhoDir, List.append_assoc, List.append_cancel_left_eq] at hx
  have := append_cons_inj (c := '/') (a := natStr r') (b := natStr r) (x := x) (y := y)
    (slash_notMem_natStr _) (slash_notMem_natStr _) (by simpa using hx)
  exact hr (natStr_injective this.1.symm)

/-- Consequence for objects: different data ids share no location, different rho ids share no
sampling location. -/
theorem C18_no_shared_location {root absRoot : Str} (h : RootOk root absRoot) (d d' r r' : Nat) :
    (d ≠ d' → ∀ p ∈ vibLocations (initFS root absRoot d r) ++ rhoLocations (initFS root absRoot d r),
      p ∉ vibLocations (initFS root absRoot d' r') ++ rhoLocations (initFS root absRoot d' r'))
    ∧ (r ≠ r' → ∀ p ∈ rhoLocations (initFS root absRoot d r),
      p ∉ rhoLocations (initFS root absRoot d r')) := by
  have hin : ∀ d r, ∀ p ∈ vibLocations (initFS root absRoot d r) ++ rhoLocations (initFS root absRoot d r),
      Inside (dataDir absRoot d) p := by
    intro d r p hp
    obtain ⟨h1, h2, h3, -⟩ := C18_locations_inside h d r
    rcases List.mem_append.mp hp with hp | hp
    · exact h1 p hp
    · exact h3.trans (h2 p hp)
  constructor
  · intro hd p hp hp'
    exact C18_data_sets_disjoint absRoot d d' hd p (hin d r p hp) (hin d' r' p hp')
  · intro hr p hp hp'
    exact C18_rho_disjoint absRoot d r r' hr p ((C18_locations_inside h d r).2.1 p hp)
      ((C18_locations_inside h d r').2.1 p hp')

/-- Within one structure no two files (or templates) coincide, and a coupled location is never a
sampling location. -/
theorem C18_files_distinct {root absRoot : Str} (h : RootOk root absRoot) (d r : Nat) :
    (vibLocations (initFS root absRoot d r) ++ rhoLocations (initFS root absRoot d r)).Nodup := by
  rw [initFS_eq h]
  simp [vibLocations, rhoLocations, rhoDir, pimc, jackknife, sos, trotter, fieldP, fieldT, fieldX,
    fieldB]

example : RootOk c!"/work/pimc/" c!"/work/pimc" := by unfold RootOk; decide
/-- ids whose digits are prefixes of each other -/
example : (1 : Nat) ≠ 11 ∧ Inside (dataDir c!"/w" 1) c!"/w/data_set_1/parameters/" :=
  ⟨by decide, c!"parameters/", by simp [dataDir, natStr, digit]⟩

/-! ### C19 -/

/-- a sequence of `change_rho` calls -/
def changes (sk : FS × Disk) (rs : List Nat) : FS × Disk :=
  rs.foldl (fun sk r => sk.1.changeRho r sk.2) sk

/-- what never changes under `change_rho` -/
def Fixed (s t : FS) : Prop :=
  t.pathRoot = s.pathRoot ∧ t.idData = s.idData ∧ vibLocations t = vibLocations s
    ∧ t.pathData = s.pathData ∧ t.pathEs = s.pathEs

theorem changeRho_fixed (s : FS) (r : Nat) (k : Disk) : Fixed s (s.changeRho r k).1 := by
  simp [Fixed, FS.changeRho, vibLocations]

theorem changes_fixed (rs : List Nat) (s : FS) (k : Disk) : Fixed s (changes (s, k) rs).1 := by
  induction rs generalizing s k with
  | nil => simp [Fixed, changes]
  | cons r rs ih =>
    have h1 := changeRho_fixed s r k
    have h2 := ih (s.changeRho r k).1 (s.changeRho r k).2
    simp only [Fixed, changes, List.foldl_cons] at *
    simp only [h2, h1, and_self]

theorem changeRho_rho {root absRoot : Str} (h : RootOk root absRoot) (s : FS) (r : Nat) (k : Disk)
    (hr : s.pathRoot = absRoot) :
    rhoLocations (s.changeRho r k).1 = rhoLocations (initFS root absRoot s.idData r) := by
  simp only [FS.changeRho, rhoLocations, hr]
  simp only [initFS, join_rho h, join_rho (rootOk_abs h)]

/-- After any history of switches ending in `r`, every sampling directory, file and template is the
one a fresh object for `r` has; the coupled locations never change; so previous switches have no
influence.
Partial: the attributes `id_rho` and `path_rho` are not covered, see `C19_stale_path_rho_refuted`. -/
theorem C19_change_rho_redirects_partial {root absRoot : Str} (h : RootOk root absRoot)
    (d r₀ : Nat) (k : Disk) (rs : List Nat) (r : Nat) :
    rhoLocations (changes (initFS root absRoot d r₀, k) (rs ++ [r])).1
      = rhoLocations (initFS root absRoot d r)
    ∧ vibLocations (changes (initFS root absRoot d r₀, k) (rs ++ [r])).1
      = vibLocations (initFS root absRoot d r) := by
  have hf := changes_fixed rs (initFS root absRoot d r₀) k
  have hf' := changes_fixed (rs ++ [r]) (initFS root absRoot d r₀) k
  have hv : vibLocations (initFS root absRoot d r₀) = vibLocations (initFS root absRoot d r) := rfl
  refine ⟨?_, hf'.2.2.1.trans hv⟩
  have hroot : (changes (initFS root absRoot d r₀, k) rs).1.pathRoot = absRoot := hf.1
  have hid : (changes (initFS root absRoot d r₀, k) rs).1.idData = d := hf.2.1
  have := changeRho_rho h (changes (initFS root absRoot d r₀, k) rs).1 r
    (changes (initFS root absRoot d r₀, k) rs).2 hroot
  rw [hid] at this
  rw [← this]
  simp [changes, List.foldl_append]

/-- `path_rho` and `id_rho` keep pointing at the first sampling distribution: for every switch to
another id the attribute `path_rho` is not the one of a fresh object. -/
theorem C19_stale_path_rho_refuted {root absRoot : Str} (h : RootOk root absRoot)
    (d r₀ r : Nat) (hr : r ≠ r₀) (k : Disk) :
    ((initFS root absRoot d r₀).changeRho r k).1.pathRho ≠ (initFS root absRoot d r).pathRho
    ∧ ((initFS root absRoot d r₀).changeRho r k).1.idRho ≠ r := by
  constructor
  · have e : ((initFS root absRoot d r₀).changeRho r k).1.pathRho = rhoDir absRoot d r₀ :=
      (C18_locations_inside h d r₀).2.2.2.2.1
    rw [e, (C18_locations_inside h d r).2.2.2.2.1]
    intro he
    exact C18_rho_disjoint absRoot d r r₀ hr (rhoDir absRoot d r) (List.prefix_refl _)
      (by rw [← he]; exact List.prefix_refl _)
  · simp [FS.changeRho, initFS, Ne.symm hr]

/-- the four sampling sub-directories -/
def rhoSubDirs (root : Str) (d r : Nat) : List Str :=
  [rhoDir root d r ++ c!"parameters/", rhoDir root d r ++ c!"results/",
   rhoDir root d r ++ c!"execution_output/", rhoDir root d r ++ c!"plots/"]

theorem foldl_makedirs_dirs (ps : List Str) (k : Disk) (p : Str) :
    p ∈ (ps.foldl Disk.makedirs k).dirs ↔ p ∈ ps ∨ p ∈ k.dirs := by
  induction ps generalizing k with
  | nil => simp
  | cons q ps ih => simp [ih, Disk.makedirs]; tauto

theorem join_rhoSub {absRoot : Str} (d r : Nat) (c : Char) (x : Str) (hc : c ≠ '/') :
    join (rhoDir absRoot d r) (c :: x) = rhoDir absRoot d r ++ c :: x :=
  join_slash (dataDir absRoot d ++ c!"rho_" ++ natStr r) c x hc

theorem makeRho_dirs {root absRoot : Str} (h : RootOk root absRoot) (s : FS) (hr : s.pathRoot = absRoot)
    (d r : Nat) (hd : s.idData = d) (hne : r ≠ s.idRho) (k : Disk) (p : Str)
    (hp : p ∈ rhoSubDirs absRoot d r) : p ∈ (s.makeRhoDirectories r k).dirs := by
  simp only [FS.makeRhoDirectories, if_neg hne, hr, hd, foldl_makedirs_dirs]
  left
  simp only [listSubDirs, List.map_cons, List.map_nil, join_rho0 (rootOk_abs h),
    join_rhoSub d r _ _ (by decide : ('p' : Char) ≠ '/'),
    join_rhoSub d r _ _ (by decide : ('r' : Char) ≠ '/'),
    join_rhoSub d r _ _ (by decide : ('e' : Char) ≠ '/')]
  exact hp

theorem makeRho_mono (s : FS) (r : Nat) (k : Disk) (p : Str) (hp : p ∈ k.dirs) :
    p ∈ (s.makeRhoDirectories r k).dirs := by
  simp only [FS.makeRhoDirectories]
  split
  · simp only [FS.makeDirectories, foldl_makedirs_dirs]; exact .inr hp
  · simp only [foldl_makedirs_dirs]; exact .inr hp

/-- For an object created with directories, after any history of switches ending in `r` the four
sub-directories of `r` exist. -/
theorem C19_directories_exist_partial {root absRoot : Str} (h : RootOk root absRoot)
    (d r₀ : Nat) (k : Disk) (rs : List Nat) (r : Nat) :
    ∀ p ∈ rhoSubDirs absRoot d r,
      p ∈ (changes (new root absRoot d r₀ false k) (rs ++ [r])).2.dirs := by
  -- invariant: root, ids, and the directories of `r₀` exist
  have hinv : ∀ rs, (changes (new root absRoot d r₀ false k) rs).1.pathRoot = absRoot
      ∧ (changes (new root absRoot d r₀ false k) rs).1.idData = d
      ∧ (changes (new root absRoot d r₀ false k) rs).1.idRho = r₀
      ∧ ∀ p ∈ rhoSubDirs absRoot d r₀, p ∈ (changes (new root absRoot d r₀ false k) rs).2.dirs := by
    intro rs
    induction rs using List.reverseRecOn with
    | nil =>
      refine ⟨rfl, rfl, rfl, ?_⟩
      intro p hp
      simp only [changes, new, List.foldl_nil, Bool.false_eq_true, if_false, FS.makeDirectories,
        foldl_makedirs_dirs]
      left
      rw [initFS_eq h]
      simp only [rhoSubDirs, List.mem_cons, List.not_mem_nil, or_false] at hp
      simp only [FS.dirValues, List.mem_cons]
      tauto
    | append_singleton rs x ih =>
      obtain ⟨h1, h2, h3, h4⟩ := ih
      simp only [changes, List.foldl_append, List.foldl_cons, List.foldl_nil] at *
      refine ⟨h1, h2, h3, fun p hp => ?_⟩
      exact makeRho_mono _ _ _ p (h4 p hp)
  intro p hp
  obtain ⟨h1, h2, h3, h4⟩ := hinv rs
  simp only [changes, List.foldl_append, List.foldl_cons, List.foldl_nil] at *
  by_cases hr : r = r₀
  · subst hr
    exact makeRho_mono _ _ _ p (h4 p hp)
  · exact makeRho_dirs h _ h1 d r h2 (by rw [h3]; exact hr) _ p hp

/-- For an object created with `no_makedir=True`, switching away and back does not create the
directories of the id one switched back to. -/
theorem C19_directories_missing_refuted :
    ∃ p ∈ rhoSubDirs c!"/w" 0 0,
      p ∉ (changes (new c!"/w" c!"/w" 0 0 true ⟨[], fun _ => none⟩) [1, 0]).2.dirs := by
  refine ⟨c!"/w/data_set_0/rho_0/parameters/", ?_, ?_⟩
  · simp [rhoSubDirs, rhoDir, dataDir, natStr, digit]
  · have h : RootOk c!"/w" c!"/w" := by unfold RootOk; decide
    have h0 : natStr 0 = ['0'] := by simp [natStr, digit]
    have h1 : natStr 1 = ['1'] := by simp [natStr, digit]
    simp only [changes, new, if_true, List.foldl_cons, List.foldl_nil]
    rw [initFS_eq h]
    simp only [FS.changeRho, FS.makeRhoDirectories, FS.makeDirectories, foldl_makedirs_dirs,
      FS.dirValues, listSubDirs, Nat.one_ne_zero, if_false, if_true, templateRho, templateVib, h0, h1,
      rhoDir, dataDir]
    decide

/-! ### C20 -/

/-- The answer does not depend on the object at all: two structures with different roots and ids
always get the same answer (the attribute names are tested instead of the paths). -/
theorem C20_directories_exist_refuted (s t : FS) (k : Disk) :
    s.directoriesExist k = t.directoriesExist k := rfl

/-- A structure all of whose directories exist is reported as missing (unless the current directory
happens to contain directories called `path_data`, ...). -/
theorem C20_false_negative {root absRoot : Str} (h : RootOk root absRoot) (d r : Nat) (k : Disk)
    (hk : c!"path_data" ∉ k.dirs) (ha : absRoot ≠ c!"path_data") :
    (∀ p ∈ (initFS root absRoot d r).dirValues,
      p ∈ ((initFS root absRoot d r).makeDirectories k).dirs)
    ∧ (initFS root absRoot d r).directoriesExist ((initFS root absRoot d r).makeDirectories k)
      = false := by
  constructor
  · intro p hp
    simp only [FS.makeDirectories, foldl_makedirs_dirs]; exact .inl hp
  · have hnot : c!"path_data" ∉ ((initFS root absRoot d r).makeDirectories k).dirs := by
      simp only [FS.makeDirectories, foldl_makedirs_dirs, not_or]
      refine ⟨?_, hk⟩
      rw [initFS_eq h]
      have hslash : ∀ y : Str, '/' ∈ y → y ≠ c!"path_data" := by
        intro y hy e; subst e; revert hy; decide
      simp only [FS.dirValues, List.mem_cons, List.not_mem_nil, or_false, not_or]
      refine ⟨?_, ?_, ?_, ?_, ?_, ?_, ?_, fun e => ha e.symm, ?_, ?_, ?_, ?_⟩ <;>
        refine (hslash _ ?_).symm <;> simp [rhoDir, dataDir]
    simp only [FS.directoriesExist, dirList, List.map_cons, Disk.isDir]
    simp only [List.contains_eq_mem, hnot, decide_false, List.mem_cons, true_or, decide_true,
      Bool.not_true]

/-- What does hold: `make_directories` (and hence the constructor without `no_makedir`) makes every
directory of the structure exist and removes none. -/
theorem C20_make_directories_partial (s : FS) (k : Disk) :
    (∀ p ∈ s.dirValues, p ∈ (s.makeDirectories k).dirs)
    ∧ (∀ p ∈ k.dirs, p ∈ (s.makeDirectories k).dirs)
    ∧ (∀ p ∈ (s.makeDirectories k).dirs, p ∈ s.dirValues ∨ p ∈ k.dirs) := by
  simp only [FS.makeDirectories, foldl_makedirs_dirs]
  tauto

/-- The directories of a new structure, by name. -/
theorem C20_which_directories {root absRoot : Str} (h : RootOk root absRoot) (d r : Nat) (k : Disk) (p : Str) :
    p ∈ ((initFS root absRoot d r).makeDirectories k).dirs ↔ p ∈ k.dirs ∨
      p ∈ [absRoot, dataDir absRoot d, dataDir absRoot d ++ c!"electronic_structure", dataDir absRoot d ++ c!"parameters/",
        dataDir absRoot d ++ c!"results/", dataDir absRoot d ++ c!"execution_output/", dataDir absRoot d ++ c!"plots/",
        rhoDir absRoot d r, rhoDir absRoot d r ++ c!"parameters/", rhoDir absRoot d r ++ c!"results/",
        rhoDir absRoot d r ++ c!"execution_output/", rhoDir absRoot d r ++ c!"plots/"] := by
  rw [initFS_eq h]
  simp only [FS.makeDirectories, foldl_makedirs_dirs, FS.dirValues, List.mem_cons, List.not_mem_nil, or_false]
  tauto

/-- What the question is really about: twelve directories of the current directory that bear the names
of the attributes. -/
theorem C20_answer (s : FS) (k : Disk) : s.directoriesExist k = true ↔
    ∀ name ∈ [c!"path_root", c!"path_data", c!"path_es", c!"path_rho", c!"path_vib_params",
      c!"path_vib_results", c!"path_vib_output", c!"path_vib_plots", c!"path_rho_params",
      c!"path_rho_results", c!"path_rho_output", c!"path_rho_plots"], name ∈ k.dirs := by
  have h : s.directoriesExist k = true ↔ ∀ name ∈ dirList, name ∈ k.dirs := by
    simp [FS.directoriesExist, Disk.isDir]
  rw [h]
  have hsub : ∀ a b : List Str, (∀ x ∈ a, x ∈ b) → (∀ x ∈ b, x ∈ k.dirs) → ∀ x ∈ a, x ∈ k.dirs :=
    fun a b h1 h2 x hx => h2 x (h1 x hx)
  exact ⟨hsub _ _ (by decide), hsub _ _ (by decide)⟩

/-- C20: `verify_directories_exists` refuses a missing root and a root that is not a directory, and
otherwise makes every directory of the data set (with sampling model 0) exist; nothing is removed
and no file changes. -/
theorem C20_verify_directories (root : Option (Str × Str)) (d : Nat) (k : Disk) :
    (∀ k', verifyDirectoriesExists root d k = .ok k' → ∃ r a, root = some (r, a) ∧ r ∈ k.dirs ∧
      (∀ p ∈ (initFS r a d 0).dirValues, p ∈ k'.dirs) ∧ (∀ p ∈ k.dirs, p ∈ k'.dirs) ∧
      k'.files = k.files) ∧
    ((∃ k', verifyDirectoriesExists root d k = .ok k') ↔ ∃ r a, root = some (r, a) ∧ r ∈ k.dirs) := by
  have hf : ∀ (l : List Str) (k : Disk), (l.foldl Disk.makedirs k).files = k.files := by
    intro l
    induction l with
    | nil => intro k; rfl
    | cons p l ih => intro k; rw [List.foldl_cons, ih]; rfl
  have key : ∀ r a k1, (∃ e, verifyDirectoriesExists (some (r, a)) d k = .error e) ∧ r ∉ k.dirs ∨
      r ∈ k.dirs ∧ ∃ k', verifyDirectoriesExists (some (r, a)) d k = .ok k' ∧ (k' = k1 →
        (∀ p ∈ (initFS r a d 0).dirValues, p ∈ k'.dirs) ∧ (∀ p ∈ k.dirs, p ∈ k'.dirs) ∧
        k'.files = k.files) := by
    intro r a k1
    by_cases hr : r ∈ k.dirs
    · refine .inr ⟨hr, ?_⟩
      have hi : k.isDir r = true := by simpa [Disk.isDir] using hr
      obtain ⟨m1, m2, -⟩ := C20_make_directories_partial (initFS r a d 0) k
      obtain ⟨n1, n2, -⟩ := C20_make_directories_partial (initFS r a d 0)
        ((initFS r a d 0).makeDirectories k)
      simp only [verifyDirectoriesExists, construct, hi, Bool.true_or, Bool.true_eq_false, if_false,
        new, Bool.false_eq_true]
      refine ⟨_, rfl, fun _ => ?_⟩
      split
      · exact ⟨m1, m2, hf _ _⟩
      · exact ⟨n1, fun p hp => n2 p (m2 p hp), (hf _ _).trans (hf _ _)⟩
    · refine .inl ⟨⟨.assertion, ?_⟩, hr⟩
      have hi : k.isDir r = false := by simpa [Disk.isDir] using hr
      simp [verifyDirectoriesExists, construct, hi]
  cases root with
  | none => simp [verifyDirectoriesExists]
  | some q =>
    obtain ⟨r, a⟩ := q
    constructor
    · intro k' h
      rcases key r a k' with ⟨⟨e, he⟩, -⟩ | ⟨hr, k2, h2, h3⟩
      · rw [h] at he; cases he
      · rw [h2] at h; cases h
        exact ⟨r, a, rfl, hr, h3 rfl⟩
    · constructor
      · rintro ⟨k', h⟩
        rcases key r a k' with ⟨⟨e, he⟩, -⟩ | ⟨hr, -⟩
        · rw [h] at he; cases he
        · exact ⟨r, a, rfl, hr⟩
      · rintro ⟨r', a', h, hr⟩
        cases h
        rcases key r a k with ⟨-, hn⟩ | ⟨-, k2, h2, -⟩
        · exact absurd hr hn
        · exact ⟨k2, h2⟩

/-- C20: the reasons for a refusal: no root was given, or the root is not a directory; a file in the
place of the root is no better than nothing. -/
theorem C20_verify_refused (root absRoot : Str) (d : Nat) (k : Disk) (h : root ∉ k.dirs) :
    verifyDirectoriesExists none d k = .error .exception ∧
    verifyDirectoriesExists (some (root, absRoot)) d k = .error .assertion := by
  have hi : k.isDir root = false := by simpa [Disk.isDir] using h
  exact ⟨rfl, by simp [verifyDirectoriesExists, construct, hi]⟩

/-- Its hypotheses are met, and the directories are new. -/
example : ∃ k', verifyDirectoriesExists (some (c!"/w", c!"/w")) 3 ⟨[c!"/w"], fun _ => none⟩ = .ok k' :=
  (C20_verify_directories _ _ _).2.2 ⟨_, _, rfl, by decide⟩

example : c!"path_data" ∉ (⟨[c!"/w"], fun _ => none⟩ : Disk).dirs ∧ c!"/w" ≠ c!"path_data" := by decide

/-! ### C21 -/

/-- the stored hashes are those of the files currently at the model paths -/
def HashesCurrent (hash : Str → Str) (k : Disk) (s : FS) : Prop :=
  ∃ tv tr, k.files s.pathVibModel = some tv ∧ k.files s.pathRhoModel = some tr
    ∧ s.hashVib = some (hash tv) ∧ s.hashRho = some (hash tr)

theorem generate_ok {hash : Str → Str} {k : Disk} {s t : FS} {force : Bool}
    (hnew : (s.hashVib.isSome && s.hashRho.isSome && !force) = false)
    (h : s.generateModelHashes hash k force = .ok t) : HashesCurrent hash k t := by
  unfold FS.generateModelHashes at h
  rw [hnew] at h
  simp only [Bool.false_eq_true, if_false] at h
  unfold hashOfFile at h
  cases hv : k.files s.pathVibModel with
  | none => rw [hv] at h; cases h
  | some tv =>
    cases hr : k.files s.pathRhoModel with
    | none => rw [hv, hr] at h; cases h
    | some tr =>
      rw [hv, hr] at h
      simp only [bind, Except.bind, Except.ok.injEq] at h
      subst h
      exact ⟨tv, tr, hv, hr, rfl, rfl⟩

/-- With `force_flag=True`, or when the object has no hashes yet, a successful call stores the
hashes of the current files, whatever happened before.  Partial: see the refutations below for
calls without force on an object that has hashes. -/
theorem C21_generate_partial {hash : Str → Str} {k : Disk} {s t : FS} {force : Bool}
    (hnew : force = true ∨ s.hashVib = none ∨ s.hashRho = none)
    (h : s.generateModelHashes hash k force = .ok t) : HashesCurrent hash k t := by
  apply generate_ok _ h
  rcases hnew with rfl | h0 | h0 <;> simp [*]

/-- The call raises exactly when one of the model files is missing (and hashes are needed). -/
theorem C21_generate_error {hash : Str → Str} {k : Disk} {s : FS} {force : Bool}
    (hnew : force = true ∨ s.hashVib = none ∨ s.hashRho = none) :
    s.generateModelHashes hash k force = .error .assertion
      ↔ (k.files s.pathVibModel = none ∨ k.files s.pathRhoModel = none) := by
  have hc : (s.hashVib.isSome && s.hashRho.isSome && !force) = false := by
    rcases hnew with rfl | h0 | h0 <;> simp [*]
  unfold FS.generateModelHashes
  rw [hc]
  simp only [Bool.false_eq_true, if_false, hashOfFile]
  cases k.files s.pathVibModel <;> cases k.files s.pathRhoModel <;> simp [bind, Except.bind]

/-- The events that matter for hashes: a model file is rewritten, the sampling distribution is
switched, hashes are generated with force. -/
inductive Ev where
  | write (path text : Str)
  | change (r : Nat)
  | generate

/-- one event (a failing generation leaves the object as it was) -/
def step (hash : Str → Str) (sk : FS × Disk) : Ev → FS × Disk
  | .write p t => (sk.1, { sk.2 with files := fun q => if q = p then some t else sk.2.files q })
  | .change r => sk.1.changeRho r sk.2
  | .generate => match sk.1.generateModelHashes hash sk.2 true with
    | .ok s => (s, sk.2)
    | .error _ => sk

/-- After any history that ends in a successful forced generation the hashes are current. -/
theorem C21_history_partial {hash : Str → Str} (evs : List Ev) (sk : FS × Disk) (t : FS)
    (h : (evs.foldl (step hash) sk).1.generateModelHashes hash (evs.foldl (step hash) sk).2 true
      = .ok t) : HashesCurrent hash (evs.foldl (step hash) sk).2 t :=
  C21_generate_partial (.inl rfl) h

/-- Without force the hashes go stale as soon as a model file is rewritten: the call succeeds but
the stored hash is not the one of the current file. -/
theorem C21_stale_after_rewrite_refuted (hash : Str → Str) (k : Disk) (s : FS) (hv hr t : Str)
    (h1 : s.hashVib = some hv) (h2 : s.hashRho = some hr) (ht : hash t ≠ hv) :
    ∃ s', s.generateModelHashes hash (step hash (s, k) (.write s.pathVibModel t)).2 false = .ok s'
      ∧ ¬ HashesCurrent hash (step hash (s, k) (.write s.pathVibModel t)).2 s' := by
  refine ⟨s, by simp [FS.generateModelHashes, h1, h2], ?_⟩
  rintro ⟨tv, tr, e1, -, e3, -⟩
  simp only [step, if_true, Option.some.injEq] at e1
  subst e1
  rw [h1] at e3
  exact ht (Option.some.inj e3).symm

/-- ... and as soon as the sampling distribution is switched to one with a different model. -/
theorem C21_stale_after_change_rho_refuted (hash : Str → Str) (k : Disk) (s : FS) (hv hr t : Str)
    (r : Nat) (h1 : s.hashVib = some hv) (h2 : s.hashRho = some hr)
    (hfile : k.files (s.changeRho r k).1.pathRhoModel = some t) (ht : hash t ≠ hr) :
    ∃ s', (s.changeRho r k).1.generateModelHashes hash (s.changeRho r k).2 false = .ok s'
      ∧ ¬ HashesCurrent hash (s.changeRho r k).2 s' := by
  have hfiles : ∀ (ps : List Str) (k : Disk), (ps.foldl Disk.makedirs k).files = k.files := by
    intro ps
    induction ps with
    | nil => intro k; rfl
    | cons q ps ih => intro k; exact ih _
  have hf : (s.changeRho r k).2.files = k.files := by
    simp only [FS.changeRho, FS.makeRhoDirectories, FS.makeDirectories]
    split <;> exact hfiles _ _
  have e1 : (s.changeRho r k).1.hashVib = some hv := h1
  have e2 : (s.changeRho r k).1.hashRho = some hr := h2
  refine ⟨(s.changeRho r k).1, by simp [FS.generateModelHashes, e1, e2], ?_⟩
  rintro ⟨tv, tr, -, e4, -, e6⟩
  rw [hf, hfile] at e4
  cases e4
  rw [e2] at e6
  exact ht (Option.some.inj e6).symm

/-- The situation of the last theorem arises: root `/w`, sampling models `a` for rho 0 and `b` for
rho 1, hash the identity. -/
example : ∃ (k : Disk) (s : FS) (hv hr t : Str),
    (initFS c!"/w" c!"/w" 0 0).generateModelHashes id k false = .ok s
    ∧ s.hashVib = some hv ∧ s.hashRho = some hr
    ∧ k.files (s.changeRho 1 k).1.pathRhoModel = some t ∧ id t ≠ hr := by
  have h : RootOk c!"/w" c!"/w" := by unfold RootOk; decide
  refine ⟨⟨[], fun p => if p = (initFS c!"/w" c!"/w" 0 0).pathRhoModel then some c!"a" else some c!"b"⟩,
    { (initFS c!"/w" c!"/w" 0 0) with hashVib := some c!"b", hashRho := some c!"a" },
    c!"b", c!"a", c!"b", ?_, rfl, rfl, ?_, by decide⟩
  · rw [initFS_eq h]
    simp [FS.generateModelHashes, hashOfFile, rhoDir, bind, Except.bind]
  · rw [initFS_eq h]
    have h0 : natStr 0 = ['0'] := by simp [natStr, digit]
    have h1 : natStr 1 = ['1'] := by simp [natStr, digit]
    simp [FS.changeRho, templateRho, templateVib, rhoDir, dataDir, join, samplingModel, h0, h1]

/-- C21: with current hashes a dictionary is called valid exactly when its two hashes are those of the
files now at the coupled and the sampling model path. -/
theorem C21_valid_hashes (hash : Str → Str) (k : Disk) (s : FS) (h : HashesCurrent hash k s)
    (hv hr : Str) :
    ∃ tv tr b, k.files s.pathVibModel = some tv ∧ k.files s.pathRhoModel = some tr ∧
      validVibAndRhoHashes s.hashVib s.hashRho (some hv) (some hr) = .ok b ∧
      validHash s.hashVib (some hv) = .ok (decide (hv = hash tv)) ∧
      validHash s.hashRho (some hr) = .ok (decide (hr = hash tr)) ∧
      (b = true ↔ hv = hash tv ∧ hr = hash tr) := by
  obtain ⟨tv, tr, e1, e2, e3, e4⟩ := h
  refine ⟨tv, tr, decide (hv = hash tv ∧ hr = hash tr), e1, e2, ?_, ?_, ?_, by simp⟩
  · simp only [validVibAndRhoHashes, validHash, e3, e4, bind, Except.bind]
    by_cases h1 : hr = hash tr <;> by_cases h2 : hv = hash tv <;> simp [h1, h2]
  · rw [e3, validHash]; by_cases h1 : hv = hash tv <;> simp [h1]
  · rw [e4, validHash]; by_cases h1 : hr = hash tr <;> simp [h1]

/-- C21: asking for validity before the hashes were generated raises, as does a dictionary without the
hash. -/
theorem C21_valid_hash_errors (stored : Option Str) (h : Str) :
    validHash none stored = .error .assertion ∧ validHash (some h) none = .error .key := ⟨rfl, rfl⟩

end Pibronic.Props.FileStructure
