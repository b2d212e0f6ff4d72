import Verif.Lemmas.Plotting
import Verif.Props.FileStructure
import Verif.Props.Analytic
import Mathlib.Tactic.Ring
import Mathlib.Tactic.FieldSimp

set_option autoImplicit false
set_option linter.unusedSectionVars false

/-!
Theorems about the plotting classes: which results they load (C80), which percentages they compute
(C81), the abscissas (C82), the saved figures (C83), and the sum over states and Trotter results (C84).
`CurrentFile`, `Tidy`, `entry`, `Holds`, `percentOff` and `ShowsPoint` are defined in
`Spec/Plotting.lean`.
-/
namespace Pibronic.Props.Plotting
open Py FileName Pibronic.FileStructure Pibronic.Postprocessing Pibronic.Plotting Spec.Plotting
open Pibronic.Props.Postprocessing Pibronic.Props.FileStructure
open Pibronic.Analytic (Contents ADict AVal getKey)

section
variable {K : Type}

/-! ### C80 -/

/-- What the set up of a plotting object reads: the hashes are those of the model files. -/
theorem initOne_ok {hash : Str → Str} {texts : FileStructure.Disk} {k : Disk K} {s s' : FS}
    {paths : List Str} {l : Lists} (hnew : s.hashVib = none ∨ s.hashRho = none)
    (h : initOne hash texts k s = .ok (s', paths, l)) :
    ∃ tv tr, texts.files s.pathVibModel = some tv ∧ texts.files s.pathRhoModel = some tr ∧
      s' = { s with hashVib := some (hash tv), hashRho := some (hash tr) } ∧
      fileList s' k = .ok paths ∧ generateParameterLists paths = .ok l := by
  unfold initOne at h
  obtain ⟨s1, h1, h⟩ := bind_eq_ok.1 h
  obtain ⟨ps, h2, h⟩ := bind_eq_ok.1 h
  obtain ⟨l1, h3, h⟩ := bind_eq_ok.1 h
  cases h
  unfold FS.generateModelHashes at h1
  rw [if_neg (by rcases hnew with e | e <;> simp [e])] at h1
  obtain ⟨hv, e1, h1⟩ := bind_eq_ok.1 h1
  obtain ⟨hr, e2, h1⟩ := bind_eq_ok.1 h1
  cases h1
  unfold hashOfFile at e1 e2
  split at e1
  · cases e1
  · next tv htv =>
    split at e2
    · cases e2
    · next tr htr =>
      cases e1
      cases e2
      exact ⟨tv, tr, htv, htr, rfl, h2, h3⟩

/-- The files kept are the current files. -/
theorem mem_paths {hv hr : Str} {s : FS} {k : Disk K} {paths : List Str} (ht : Tidy s k)
    (h : fileList { s with hashVib := some hv, hashRho := some hr } k = .ok paths) (path : Str) :
    path ∈ paths ↔ ∃ P T X d, path = thermoFile s P T X ∧ CurrentFile s k hv hr P T X d :=
  mem_fileList (s := { s with hashVib := some hv, hashRho := some hr }) (hv := hv) (hr := hr) rfl rfl
    ⟨ht.noStar, ht.noP, ht.noT, ht.noX, ht.names, ht.keys⟩ h path

theorem mem_lists {hv hr : Str} {s : FS} {k : Disk K} {paths : List Str} {l : Lists} (ht : Tidy s k)
    (h : fileList { s with hashVib := some hv, hashRho := some hr } k = .ok paths)
    (hl : generateParameterLists paths = .ok l) :
    (∀ n, n ∈ l.P ↔ ∃ T X d, CurrentFile s k hv hr n T X d) ∧
    (∀ n, n ∈ l.T ↔ ∃ P X d, CurrentFile s k hv hr P n X d) ∧
    (∀ n, n ∈ l.X ↔ ∃ P T d, CurrentFile s k hv hr P T n d) := by
  obtain ⟨-, hP, hT, hX⟩ := generateParameterLists_ok hl
  refine ⟨fun n => ?_, fun n => ?_, fun n => ?_⟩
  · rw [hP]
    constructor
    · rintro ⟨p, hp, e⟩
      obtain ⟨P, T, X, d, rfl, hc⟩ := (mem_paths ht h p).1 hp
      rw [(extract_thermo ht P T X).1] at e
      cases e
      exact ⟨T, X, d, hc⟩
    · rintro ⟨T, X, d, hc⟩
      exact ⟨_, (mem_paths ht h _).2 ⟨n, T, X, d, rfl, hc⟩, (extract_thermo ht n T X).1⟩
  · rw [hT]
    constructor
    · rintro ⟨p, hp, e⟩
      obtain ⟨P, T, X, d, rfl, hc⟩ := (mem_paths ht h p).1 hp
      rw [(extract_thermo ht P T X).2.1] at e
      cases e
      exact ⟨P, X, d, hc⟩
    · rintro ⟨P, X, d, hc⟩
      exact ⟨_, (mem_paths ht h _).2 ⟨P, n, X, d, rfl, hc⟩, (extract_thermo ht P n X).2.1⟩
  · rw [hX]
    constructor
    · rintro ⟨p, hp, e⟩
      obtain ⟨P, T, X, d, rfl, hc⟩ := (mem_paths ht h p).1 hp
      rw [(extract_thermo ht P T X).2.2] at e
      cases e
      exact ⟨P, T, d, hc⟩
    · rintro ⟨P, T, d, hc⟩
      exact ⟨_, (mem_paths ht h _).2 ⟨P, T, n, d, rfl, hc⟩, (extract_thermo ht P T n).2.2⟩

/-- C80: the lists of bead numbers, temperatures and sample numbers of a plotting object are strictly
increasing and have exactly the values for which there is a result file calculated from the models now
in the model files. -/
theorem C80_lists {hash : Str → Str} {texts : FileStructure.Disk} {k : Disk K} {s s' : FS}
    {paths : List Str} {l : Lists} (hnew : s.hashVib = none ∨ s.hashRho = none) (ht : Tidy s k)
    (h : initOne hash texts k s = .ok (s', paths, l)) :
    ∃ tv tr, texts.files s.pathVibModel = some tv ∧ texts.files s.pathRhoModel = some tr ∧
      (l.P.Pairwise (· < ·) ∧ l.T.Pairwise (· < ·) ∧ l.X.Pairwise (· < ·)) ∧
      (∀ n, n ∈ l.P ↔ ∃ T X d, CurrentFile s k (hash tv) (hash tr) n T X d) ∧
      (∀ n, n ∈ l.T ↔ ∃ P X d, CurrentFile s k (hash tv) (hash tr) P n X d) ∧
      (∀ n, n ∈ l.X ↔ ∃ P T d, CurrentFile s k (hash tv) (hash tr) P T n d) := by
  obtain ⟨tv, tr, h1, h2, rfl, h3, h4⟩ := initOne_ok hnew h
  exact ⟨tv, tr, h1, h2, (generateParameterLists_ok h4).1, mem_lists ht h3 h4⟩

/-- C80: in the loaded table the entry of every bead number, temperature and sample number in the lists
is the number stored under that name in the current file with these parameters, and NaN if the file
does not have the name or there is no such file. -/
theorem C80_table {hash : Str → Str} {texts : FileStructure.Disk} {k : Disk K} {s s' : FS}
    {paths : List Str} {l : Lists} (hnew : s.hashVib = none ∨ s.hashRho = none) (ht : Tidy s k)
    (h : initOne hash texts k s = .ok (s', paths, l)) {skip : Bool} {t : Table K}
    (hload : loadPimcData skip k l paths = .ok t) :
    t.lists = l ∧ ∃ tv tr, texts.files s.pathVibModel = some tv ∧ texts.files s.pathRhoModel = some tr ∧
      ∀ P ∈ l.P, ∀ T ∈ l.T, ∀ X ∈ l.X, ∀ f ∈ fields,
        (∀ d, CurrentFile s k (hash tv) (hash tr) P T X d →
          (∀ x, (f, Val.num x) ∈ d → entry t P T X f = x) ∧
          ((∀ v, (f, v) ∉ d) → entry t P T X f = none)) ∧
        ((∀ d, ¬ CurrentFile s k (hash tv) (hash tr) P T X d) → entry t P T X f = none) := by
  obtain ⟨tv, tr, h1, h2, rfl, h3, h4⟩ := initOne_ok hnew h
  have hmem := mem_lists ht h3 h4
  have hf : Filled s k l ([] ++ paths) t := foldlM_filled ht paths (by
    intro p hp
    obtain ⟨P, T, X, d, rfl, hc⟩ := (mem_paths ht h3 p).1 hp
    exact ⟨P, T, X, rfl, (hmem.1 P).2 ⟨T, X, d, hc⟩, (hmem.2.1 T).2 ⟨P, X, d, hc⟩,
      (hmem.2.2 X).2 ⟨P, T, d, hc⟩⟩) ⟨rfl, by simp [entry, emptyTable]⟩ hload
  refine ⟨hf.1, tv, tr, h1, h2, fun P hP T hT X hX f hff => ⟨fun d hc => ?_, fun hno => ?_⟩⟩
  · have hin : thermoFile s P T X ∈ [] ++ paths :=
      (mem_paths ht h3 _).2 ⟨P, T, X, d, rfl, hc⟩
    have := (hf.2 P hP T hT X hX f).1 hin d hc.2.1
    exact ⟨fun x => this.1 x hff, this.2⟩
  · refine (hf.2 P hP T hT X hX f).2 fun hin => ?_
    obtain ⟨P', T', X', d, e, hc⟩ := (mem_paths ht h3 _).1 hin
    rw [thermoFile_eq, thermoFile_eq] at e
    obtain ⟨rfl, rfl, rfl⟩ := C13_thermo_injective _ e
    exact hno d hc

/-- C80: setting up and loading succeed when both model files exist, every thermo file in the results
directory can be read, and those that are current have the contents the statistics write. -/
theorem C80_succeeds {hash : Str → Str} {texts : FileStructure.Disk} {k : Disk K} {s : FS} {tv tr : Str}
    (hnew : s.hashVib = none ∨ s.hashRho = none) (ht : Tidy s k)
    (hv : texts.files s.pathVibModel = some tv) (hr : texts.files s.pathRhoModel = some tr)
    (hread : ∀ path ∈ k.listing, s.pathRhoResults <+: path → c!"_thermo" <:+ path →
      ∃ d, k.thermo path = some d)
    (hwell : ∀ P T X d, CurrentFile s k (hash tv) (hash tr) P T X d → WellFormed d) (skip : Bool) :
    ∃ paths l t, initOne hash texts k s =
        .ok ({ s with hashVib := some (hash tv), hashRho := some (hash tr) }, paths, l) ∧
      loadPimcData skip k l paths = .ok t := by
  obtain ⟨paths, hp⟩ : ∃ paths, fileList
      { s with hashVib := some (hash tv), hashRho := some (hash tr) } k = .ok paths := by
    refine (C16_prune_succeeds _ _ _ _).2 fun p hp => ?_
    obtain ⟨e1, a, b, c, -, e2⟩ := (C14_listed_thermo_files
      { s with hashVib := some (hash tv), hashRho := some (hash tr) } ht.noStar _ _).1 hp
    have e3 : c!"_thermo" <:+ p := by
      rw [e2]
      exact ⟨_, List.append_assoc ..⟩
    obtain ⟨d, hd⟩ := hread p e1 (by rw [e2]; exact List.prefix_append _ _) e3
    refine ⟨.inr (List.IsSuffix.trans ⟨c!"_", rfl⟩ e3), storedHashes d, ?_⟩
    simp [Disk.read, hd, Except.map]
  have hnames : ∀ p ∈ paths, ∃ P T X, p = thermoFile s P T X := fun p h => by
    obtain ⟨P, T, X, d, e, -⟩ := (mem_paths ht hp p).1 h
    exact ⟨P, T, X, e⟩
  obtain ⟨l, hl⟩ := generateParameterLists_isOk ht hnames
  have hmem := mem_lists ht hp hl
  have hload : ∀ (ps : List Str) (t : Table K), t.lists = l → (∀ p ∈ ps, p ∈ paths) →
      ∃ t', ps.foldlM (place skip k) t = .ok t' := by
    intro ps
    induction ps with
    | nil => intro t _ _; exact ⟨t, rfl⟩
    | cons p ps ih =>
      intro t hlt hsub
      obtain ⟨P, T, X, d, rfl, hc⟩ := (mem_paths ht hp p).1 (hsub p (by simp))
      obtain ⟨t1, h1, h2⟩ := place_isOk ht skip t P T X
        (by rw [hlt]; exact (hmem.1 P).2 ⟨T, X, d, hc⟩)
        (by rw [hlt]; exact (hmem.2.1 T).2 ⟨P, X, d, hc⟩)
        (by rw [hlt]; exact (hmem.2.2 X).2 ⟨P, T, d, hc⟩) hc.2.1 (hwell P T X d hc)
      obtain ⟨t', h'⟩ := ih t1 (h2.trans hlt) fun q hq => hsub q (by simp [hq])
      exact ⟨t', by rw [List.foldlM_cons]; exact bind_eq_ok.2 ⟨t1, h1, h'⟩⟩
  obtain ⟨t, hpl⟩ := hload paths (emptyTable l) rfl fun _ h => h
  refine ⟨paths, l, t, ?_, hpl⟩
  unfold initOne FS.generateModelHashes
  rw [if_neg (by rcases hnew with e | e <;> simp [e])]
  simp only [hashOfFile, hv, hr]
  exact bind_eq_ok.2 ⟨_, rfl, bind_eq_ok.2 ⟨paths, hp, bind_eq_ok.2 ⟨l, hl, rfl⟩⟩⟩

/-- C80: without one of the model files nothing is loaded. -/
theorem C80_no_model {hash : Str → Str} {texts : FileStructure.Disk} {k : Disk K} {s : FS}
    (hnew : s.hashVib = none ∨ s.hashRho = none)
    (hno : texts.files s.pathVibModel = none ∨ texts.files s.pathRhoModel = none) :
    initOne hash texts k s = .error .assertion := by
  unfold initOne FS.generateModelHashes
  rw [if_neg (by rcases hnew with e | e <;> simp [e])]
  simp only [hashOfFile]
  rcases hno with e | e
  · rw [e]; rfl
  · rw [e]
    cases texts.files s.pathVibModel <;> rfl

/-- C80: while the results are loaded, a result of a number of beads, a temperature or a number of samples
that is not on the lists is a `ValueError` (only the classes for several objects skip an unknown number
of beads), and a result file that has vanished since the lists were made is an `OSError`. -/
theorem C80_load_errors {k : Disk K} {l : Lists} {skip : Bool} {pre post : List Str} {path : Str}
    {t : Table K} (hpre : loadPimcData skip k l pre = .ok t) {P T X : Nat}
    (hP : extractBead path = .ok P) (hT : extractTemperatureThermo path = .ok T)
    (hX : extractSamples path = .ok X) :
    (skip = false → P ∉ l.P → loadPimcData skip k l (pre ++ path :: post) = .error .value) ∧
    (P ∈ l.P → T ∉ l.T → loadPimcData skip k l (pre ++ path :: post) = .error .value) ∧
    (P ∈ l.P → T ∈ l.T → X ∉ l.X → loadPimcData skip k l (pre ++ path :: post) = .error .value) ∧
    (P ∈ l.P → T ∈ l.T → X ∈ l.X → k.thermo path = none →
      loadPimcData skip k l (pre ++ path :: post) = .error .os) ∧
    (skip = true → P ∉ l.P →
      loadPimcData skip k l (pre ++ path :: post) = loadPimcData skip k l (pre ++ post)) := by
  have hl := loadPimcData_lists hpre
  have hsplit : ∀ rest, loadPimcData skip k l (pre ++ rest) = rest.foldlM (place skip k) t := by
    intro rest
    unfold loadPimcData at hpre ⊢
    rw [List.foldlM_append, hpre]
    rfl
  have hplace : ∀ e, place skip k t path = .error e →
      loadPimcData skip k l (pre ++ path :: post) = .error e := by
    intro e he
    rw [hsplit, List.foldlM_cons, he]
    rfl
  refine ⟨fun hs h => hplace _ ?_, fun h1 h => hplace _ ?_, fun h1 h2 h => hplace _ ?_,
    fun h1 h2 h3 h => hplace _ ?_, fun hs h => ?_⟩
  · unfold place
    simp [hP, hT, hX, hs, hl, index, h, bind, Except.bind]
  · unfold place
    simp [hP, hT, hX, hl, index, h1, h, bind, Except.bind]
  · unfold place
    simp [hP, hT, hX, hl, index, h1, h2, h, bind, Except.bind]
  · unfold place
    simp [hP, hT, hX, hl, index, h1, h2, h3, Disk.read, h, bind, Except.bind]
  · rw [hsplit, hsplit, List.foldlM_cons]
    have : place skip k t path = .ok t := by
      unfold place
      simp [hP, hT, hX, hl, hs, h, bind, Except.bind]
    rw [this]
    rfl

/-- C80: an entry of a result file whose name is not a field of the table, or which holds a text, is a `ValueError`;
the hashes are skipped. -/
theorem C80_bad_entry {k : Disk K} {l : Lists} {skip : Bool} {pre post : List Str} {path : Str}
    {t : Table K} (hpre : loadPimcData skip k l pre = .ok t) {P T X : Nat}
    (hP : extractBead path = .ok P) (hT : extractTemperatureThermo path = .ok T)
    (hX : extractSamples path = .ok X) (h1 : P ∈ l.P) (h2 : T ∈ l.T) (h3 : X ∈ l.X)
    {before after : ThermoDict K} {key : Str} {v : Val K} (hd : k.thermo path = some (before ++ (key, v) :: after))
    (hbefore : ∀ m ∈ before, (m.1 = c!"hash_vib" ∨ m.1 = c!"hash_rho") ∨ m.1 ∈ fields ∧ ∃ x, m.2 = .num x)
    (hk : key ≠ c!"hash_vib" ∧ key ≠ c!"hash_rho") (hv : key ∉ fields ∨ ∃ s, v = .text s) :
    loadPimcData skip k l (pre ++ path :: post) = .error .value := by
  have hl := loadPimcData_lists hpre
  have hset : ∀ c : Cell K, setFields c (before ++ (key, v) :: after) = .error .value := by
    clear hd
    induction before with
    | nil =>
      intro c
      rw [List.nil_append]
      unfold setFields
      rw [if_neg (by tauto)]
      rcases hv with h | ⟨s, rfl⟩
      · rw [if_pos h]
      · split <;> rfl
    | cons m before ih =>
      intro c
      obtain ⟨mk, mv⟩ := m
      have ih := ih fun x hx => hbefore x (List.mem_cons_of_mem _ hx)
      rw [List.cons_append]
      unfold setFields
      rcases hbefore _ List.mem_cons_self with h | ⟨hf, x, hx⟩
      · rw [if_pos h]; exact ih _
      · split
        · exact ih _
        · simp only at hx
          subst hx
          exact ih _
  have hplace : place skip k t path = .error .value := by
    unfold place
    simp [hP, hT, hX, hl, index, h1, h2, h3, Disk.read, hd, bind, Except.bind, hset]
  unfold loadPimcData at hpre ⊢
  rw [List.foldlM_append, hpre]
  simp only [bind, Except.bind, List.foldlM_cons, hplace]

/-- C80: a class that compares several objects refuses to start when none of them has a current
result. -/
theorem C80_nothing_to_plot {hash : Str → Str} {texts : FileStructure.Disk} {k : Disk K} {ss : List FS}
    (h : ∀ s ∈ ss, ∃ s' l, initOne hash texts k s = .ok (s', [], l)) :
    initMany hash texts k ss = .error .exception := by
  obtain ⟨all, hall⟩ := (mapM_isOk (f := initOne hash texts k) (xs := ss)).2 (fun s hs => by
    obtain ⟨s', l, e⟩ := h s hs; exact ⟨_, e⟩)
  unfold initMany
  rw [hall]
  simp only [bind, Except.bind]
  rw [if_pos]
  rw [List.all_eq_true]
  intro a ha
  obtain ⟨s, hs, e⟩ := (mapM_mem hall a).1 ha
  obtain ⟨s', l, e'⟩ := h s hs
  rw [e] at e'
  cases e'
  rfl

/-- C80: the class that compares two sampling models takes exactly two objects. -/
theorem C80_two_objects {hash : Str → Str} {texts : FileStructure.Disk} {k : Disk K} {ss : List FS}
    {all : List (FS × List Str × Lists)} (h : initTwo hash texts k ss = .ok all) :
    ss.length = 2 ∧ all.length = 2 ∧ (∀ (i : Nat) (s : FS), ss[i]? = some s → ∃ a, all[i]? = some a ∧
      initOne hash texts k s = .ok a) ∧ ∃ a ∈ all, a.2.1 ≠ [] := by
  unfold initTwo at h
  split at h
  · next h2 =>
    unfold initMany at h
    obtain ⟨all', h1, h⟩ := bind_eq_ok.1 h
    split at h
    · cases h
    · next hne =>
      cases h
      match ss, h2 with
      | [s0, s1], _ =>
        simp only [List.mapM_cons, List.mapM_nil] at h1
        obtain ⟨a0, e0, h1⟩ := bind_eq_ok.1 h1
        obtain ⟨r, e1, h1⟩ := bind_eq_ok.1 h1
        obtain ⟨a1, e1', e1⟩ := bind_eq_ok.1 e1
        cases e1
        cases h1
        refine ⟨rfl, rfl, ?_, ?_⟩
        · intro i s hs
          match i, hs with
          | 0, hs => cases hs; exact ⟨a0, rfl, e0⟩
          | 1, hs => cases hs; exact ⟨a1, rfl, e1'⟩
        · rw [List.all_eq_true] at hne
          push Not at hne
          obtain ⟨a, ha, hn⟩ := hne
          exact ⟨a, ha, by simpa using hn⟩
  · cases h

/-! ### C81 -/

section
variable [Field K]

/-- What the two classes that show percentages compute, entry by entry. -/
theorem percent_entry {t t0 t1 : Table K} {rho orig : ADict K} {l : Lists} {cr co : Contents K}
    (hl : t0.lists = l) (hT : l.T.Nodup) (hr : loadAnalytical cr l = .ok rho)
    (ho : loadAnalytical co l = .ok orig) (h1 : scaleAll rho t0 = .ok t1)
    (h2 : t.lists = t1.lists ∧ ∀ T ∈ t1.lists.T, ∀ X ∈ t1.lists.X, ∃ e,
      getEntry orig T c!"Z_coupled" = .ok e ∧
      ∀ P f, entry t P T X f = percented e f (entry t1 P T X f)) :
    t.lists = l ∧ ∀ T ∈ l.T, ∀ X ∈ l.X, ∃ zr zc, Holds cr T c!"Z_sampling" zr ∧
      Holds co T c!"Z_coupled" zc ∧ ∀ P,
        entry t P T X c!"Z" = (entry t0 P T X c!"Z").map (fun z => percentOff (z * zr) zc) ∧
        entry t P T X c!"Z error" = (entry t0 P T X c!"Z error").map (fun z => 100 * (z * zr / zc)) ∧
        ∀ f, f ≠ c!"Z" → f ≠ c!"Z error" → entry t P T X f = entry t0 P T X f := by
  subst hl
  obtain ⟨e1, e2⟩ := scaleAll_ok hT h1
  obtain ⟨e3, e4⟩ := h2
  rw [e1] at e4
  refine ⟨e3.trans e1, fun T hT' X hX => ?_⟩
  obtain ⟨zr, hzr, e2⟩ := e2 T hT'
  obtain ⟨zc, hzc, e4⟩ := e4 T hT' X hX
  refine ⟨zr, zc, (getEntry_loaded hr hT' _ _).1 hzr, (getEntry_loaded ho hT' _ _).1 hzc,
    fun P => ⟨?_, ?_, fun f hf hf' => ?_⟩⟩
  · rw [e4, e2]
    cases entry t0 P T X c!"Z" with
    | none => simp [percented, scaled]
    | some z => simp only [percented, scaled, percentOff, if_true, true_or, Option.map_some]; congr 1; ring
  · rw [e4, e2]
    cases entry t0 P T X c!"Z error" with
    | none => simp [percented, scaled]
    | some z =>
      have h : (c!"Z error" : Str) ≠ c!"Z" := by decide
      simp only [percented, scaled, h, if_true, if_false, or_true, Option.map_some]; congr 1; ring
  · rw [e4, e2]
    simp [percented, scaled, hf, hf']

/-- C81: the figure for one object compares with the exact results of the two analytic files: every
partition function is multiplied by the exact one of the sampling model and turned into the percent
deviation from the exact one of the original model, its error bar accordingly; other fields are as
loaded. -/
theorem C81_original_percent {k : Disk K} {s : FS} {paths : List Str} {l : Lists} {r : Loaded K}
    (hT : l.T.Nodup) (h : loadOriginal k s paths l = .ok r) :
    ∃ t0, loadPimcData false k l paths = .ok t0 ∧
      r.table.lists = l ∧ ∀ T ∈ l.T, ∀ X ∈ l.X, ∃ zr zc,
        Holds (k.results s.pathAnalyticRho) T c!"Z_sampling" zr ∧
        Holds (k.results s.pathAnalyticOrig) T c!"Z_coupled" zc ∧ ∀ P,
          entry r.table P T X c!"Z" = (entry t0 P T X c!"Z").map (fun z => percentOff (z * zr) zc) ∧
          entry r.table P T X c!"Z error" =
            (entry t0 P T X c!"Z error").map (fun z => 100 * (z * zr / zc)) ∧
          ∀ f, f ≠ c!"Z" → f ≠ c!"Z error" → entry r.table P T X f = entry t0 P T X f := by
  unfold loadOriginal at h
  obtain ⟨t0, h0, h⟩ := bind_eq_ok.1 h
  obtain ⟨orig, ho, h⟩ := bind_eq_ok.1 h
  obtain ⟨rho, hr, h⟩ := bind_eq_ok.1 h
  obtain ⟨t1, h1, h⟩ := bind_eq_ok.1 h
  obtain ⟨t2, h2, h⟩ := bind_eq_ok.1 h
  cases h
  have hl := loadPimcData_lists h0
  refine ⟨t0, h0, ?_⟩
  have hl1 := (scaleAll_ok (by rw [hl]; exact hT) h1).1
  have h2' := percentAll_ok (by rw [hl1, hl]; exact hT) h2
  refine percent_entry hl hT hr ho h1 ⟨h2'.1, fun T hT' X _ => ?_⟩
  obtain ⟨e, he, h3⟩ := h2'.2 T hT'
  exact ⟨e, he, fun P f => h3 P X f⟩

/-- C81: the same for the class that compares two sampling models. -/
theorem C81_versus_percent {k : Disk K} {s : FS} {paths : List Str} {l : Lists} {r : Loaded K}
    (hT : l.T.Nodup) (hX : l.X.Nodup) (h : loadVersus k s paths l = .ok r) :
    ∃ t0, loadPimcData true k l paths = .ok t0 ∧
      r.table.lists = l ∧ ∀ T ∈ l.T, ∀ X ∈ l.X, ∃ zr zc,
        Holds (k.results s.pathAnalyticRho) T c!"Z_sampling" zr ∧
        Holds (k.results s.pathAnalyticOrig) T c!"Z_coupled" zc ∧ ∀ P,
          entry r.table P T X c!"Z" = (entry t0 P T X c!"Z").map (fun z => percentOff (z * zr) zc) ∧
          entry r.table P T X c!"Z error" =
            (entry t0 P T X c!"Z error").map (fun z => 100 * (z * zr / zc)) ∧
          ∀ f, f ≠ c!"Z" → f ≠ c!"Z error" → entry r.table P T X f = entry t0 P T X f := by
  unfold loadVersus at h
  obtain ⟨t0, h0, h⟩ := bind_eq_ok.1 h
  obtain ⟨orig, ho, h⟩ := bind_eq_ok.1 h
  obtain ⟨rho, hr, h⟩ := bind_eq_ok.1 h
  obtain ⟨t1, h1, h⟩ := bind_eq_ok.1 h
  obtain ⟨t2, h2, h⟩ := bind_eq_ok.1 h
  cases h
  have hl := loadPimcData_lists h0
  refine ⟨t0, h0, ?_⟩
  have hl1 := (scaleAll_ok (by rw [hl]; exact hT) h1).1
  exact percent_entry hl hT hr ho h1
    (percentEach_ok (by rw [hl1, hl]; exact hT) (by rw [hl1, hl]; exact hX) h2)

theorem loadAnalytical_isOk {c : Contents K} {l : Lists} {key : Str}
    (h : ∀ T ∈ l.T, ∃ z, Holds c T key z) (hne : ∃ d, c = .dict d) :
    ∃ d, loadAnalytical c l = .ok d := by
  obtain ⟨d, rfl⟩ := hne
  obtain ⟨o, ho⟩ := pick_isOk (data := d) (Ts := l.T) (fun T hT => by
    obtain ⟨z, d', e, h1, h2, -⟩ := h T hT
    cases h1
    rw [h2]
    simp) (fun _ => none)
  exact ⟨o, by unfold loadAnalytical; exact bind_eq_ok.2 ⟨d, rfl, ho⟩⟩

/-- C81: the percentages are computed whenever both analytic files hold the two numbers for every
temperature in the list. -/
theorem C81_succeeds {k : Disk K} {s : FS} {paths : List Str} {l : Lists} {t0 : Table K}
    (h0 : loadPimcData false k l paths = .ok t0)
    (hr : ∃ d, k.results s.pathAnalyticRho = .dict d) (ho : ∃ d, k.results s.pathAnalyticOrig = .dict d)
    (hzr : ∀ T ∈ l.T, ∃ z, Holds (k.results s.pathAnalyticRho) T c!"Z_sampling" z)
    (hzc : ∀ T ∈ l.T, ∃ z, Holds (k.results s.pathAnalyticOrig) T c!"Z_coupled" z) :
    ∃ r, loadOriginal k s paths l = .ok r := by
  have hl := loadPimcData_lists h0
  obtain ⟨rho, hrho⟩ := loadAnalytical_isOk hzr hr
  obtain ⟨orig, horig⟩ := loadAnalytical_isOk hzc ho
  obtain ⟨t1, h1, l1⟩ := scaleAll_isOk (rho := rho) (t := t0) (fun T hT' => by
    rw [hl] at hT'
    obtain ⟨z, hz⟩ := hzr T hT'
    exact ⟨z, (getEntry_loaded hrho hT' _ _).2 hz⟩)
  obtain ⟨t2, h2, -⟩ := percentAll_isOk (orig := orig) (t := t1) (fun T hT' => by
    rw [l1, hl] at hT'
    obtain ⟨z, hz⟩ := hzc T hT'
    exact ⟨z, (getEntry_loaded horig hT' _ _).2 hz⟩)
  refine ⟨⟨t2, orig⟩, ?_⟩
  unfold loadOriginal
  exact bind_eq_ok.2 ⟨t0, h0, bind_eq_ok.2 ⟨orig, horig, bind_eq_ok.2 ⟨rho, hrho,
    bind_eq_ok.2 ⟨t1, h1, bind_eq_ok.2 ⟨t2, h2, rfl⟩⟩⟩⟩⟩

/-- C81: the same for the comparison of two sampling models. -/
theorem C81_versus_succeeds {k : Disk K} {s : FS} {paths : List Str} {l : Lists} {t0 : Table K}
    (h0 : loadPimcData true k l paths = .ok t0)
    (hr : ∃ d, k.results s.pathAnalyticRho = .dict d) (ho : ∃ d, k.results s.pathAnalyticOrig = .dict d)
    (hzr : ∀ T ∈ l.T, ∃ z, Holds (k.results s.pathAnalyticRho) T c!"Z_sampling" z)
    (hzc : ∀ T ∈ l.T, ∃ z, Holds (k.results s.pathAnalyticOrig) T c!"Z_coupled" z) :
    ∃ r, loadVersus k s paths l = .ok r := by
  have hl := loadPimcData_lists h0
  obtain ⟨rho, hrho⟩ := loadAnalytical_isOk hzr hr
  obtain ⟨orig, horig⟩ := loadAnalytical_isOk hzc ho
  obtain ⟨t1, h1, l1⟩ := scaleAll_isOk (rho := rho) (t := t0) (fun T hT' => by
    rw [hl] at hT'
    obtain ⟨z, hz⟩ := hzr T hT'
    exact ⟨z, (getEntry_loaded hrho hT' _ _).2 hz⟩)
  obtain ⟨t2, h2, -⟩ := percentEach_isOk (orig := orig) (t := t1) (fun T hT' => by
    rw [l1, hl] at hT'
    obtain ⟨z, hz⟩ := hzc T hT'
    exact ⟨z, (getEntry_loaded horig hT' _ _).2 hz⟩)
  refine ⟨⟨t2, orig⟩, ?_⟩
  unfold loadVersus
  exact bind_eq_ok.2 ⟨t0, h0, bind_eq_ok.2 ⟨orig, horig, bind_eq_ok.2 ⟨rho, hrho,
    bind_eq_ok.2 ⟨t1, h1, bind_eq_ok.2 ⟨t2, h2, rfl⟩⟩⟩⟩⟩

/-- C81: the reasons why the exact results are not loaded: no file, a file that is not JSON, no entry for
one of the temperatures; and an entry without the number, or that is no dictionary. -/
theorem C81_errors (l : Lists) (T : Nat) (hT : T ∈ l.T) (d : ADict K) (key : Str) :
    loadAnalytical (.absent : Contents K) l = .error .os ∧
    loadAnalytical (.short : Contents K) l = .error .value ∧
    loadAnalytical (.broken : Contents K) l = .error .value ∧
    (d (tempStr T) = none → loadAnalytical (.dict d) l = .error .key) ∧
    (d (tempStr T) = none → getEntry d T key = .error .key) ∧
    (∀ h, d (tempStr T) = some (.hash h) → getEntry d T key = .error .type) ∧
    (∀ e, d (tempStr T) = some (.entry e) → e key = none → getEntry d T key = .error .key) := by
  refine ⟨rfl, rfl, rfl, fun h => ?_, fun h => ?_, fun x h => ?_, fun e h h2 => ?_⟩
  · show pick d (fun _ => none) l.T = .error .key
    generalize (fun _ => none : ADict K) = out
    revert hT
    induction l.T generalizing out with
    | nil => intro hT; cases hT
    | cons T' Ts ih =>
      intro hT
      unfold pick
      cases h' : d (tempStr T') with
      | none => rfl
      | some v =>
        rcases List.mem_cons.1 hT with rfl | hT
        · rw [h] at h'; cases h'
        · exact ih _ hT
  · simp [getEntry, h]
  · simp [getEntry, h]
  · simp [getEntry, h, Analytic.getKey, h2]

/-- C81, refuted: the stored hashes of the analytic files are not looked at.  Replacing both hashes in
both files changes nothing, so exact results of other models are used as if they were current. -/
theorem C81_stale_exact_refuted (c : Contents K) (l : Lists) (v r : Str) (d : ADict K)
    (hc : c = .dict d) :
    loadAnalytical (.dict ((d.set c!"hash_vib" (.hash v)).set c!"hash_rho" (.hash r))) l =
      loadAnalytical c l := by
  subst hc
  have hne : ∀ T : Nat, ((d.set c!"hash_vib" (.hash v)).set c!"hash_rho" (.hash r)) (tempStr T)
      = d (tempStr T) := by
    intro T
    have h1 : tempStr T ≠ c!"hash_rho" := fun e => notMem_tempStr (c := 'h') (by decide) (by decide) T
      (by rw [e]; decide)
    have h2 : tempStr T ≠ c!"hash_vib" := fun e => notMem_tempStr (c := 'h') (by decide) (by decide) T
      (by rw [e]; decide)
    simp [ADict.set, h1, h2]
  suffices H : ∀ (Ts : List Nat) (out : ADict K),
      pick ((d.set c!"hash_vib" (.hash v)).set c!"hash_rho" (.hash r)) out Ts = pick d out Ts from H _ _
  intro Ts
  induction Ts with
  | nil => intro out; rfl
  | cons T Ts ih =>
    intro out
    unfold pick
    rw [hne]
    cases d (tempStr T) with
    | none => rfl
    | some v => exact ih _

/-- C81, refuted: the program that fills the analytic files never stores the two numbers under the
names the plotting classes look for. -/
theorem C81_names_never_written_refuted {V : Type} (float : Str → Except Err V) (killed : Bool)
    (out : Str) (e : Str → Option V) (h : Analytic.compute float killed out = .ok (some e)) :
    e c!"Z_sampling" = none ∧ e c!"Z_coupled" = none := by
  unfold Analytic.compute at h
  split at h
  · cases h
  · obtain ⟨pairs, hp, h⟩ := bind_eq_ok.1 h
    split at h
    · cases h
    · obtain ⟨e', he, h⟩ := bind_eq_ok.1 h
      cases h
      have H : ∀ (l : List (Str × Str)) (e : Str → Option V) (key : Str), (∀ p ∈ l, p.1 ≠ key) →
          Analytic.convertEntry float (Analytic.dictOf pairs) l = .ok e → e key = none := by
        intro l
        induction l with
        | nil => intro e key _ h; cases h; rfl
        | cons p l ih =>
          obtain ⟨new, old⟩ := p
          intro e key hk h
          unfold Analytic.convertEntry at h
          split at h
          · exact ih e key (fun q hq => hk q (by simp [hq])) h
          · obtain ⟨v, -, h⟩ := bind_eq_ok.1 h
            obtain ⟨e1, h1, h⟩ := bind_eq_ok.1 h
            cases h
            have : key ≠ new := fun hh => hk (new, old) (by simp) hh.symm
            simp only [this, if_false]
            exact ih e1 key (fun q hq => hk q (by simp [hq])) h1
      exact ⟨H _ _ _ (by decide) he, H _ _ _ (by decide) he⟩

/-- C81, refuted: so no percentages are computed from analytic files whose entries that program
wrote. -/
theorem C81_no_percentages_refuted {V : Type} [Field V] (float : Str → Except Err V) {k : Disk V} {s : FS}
    {paths : List Str} {l : Lists} {T : Nat} (hT : T ∈ l.T) (hnd : l.T.Nodup)
    (hw : ∀ d e, k.results s.pathAnalyticRho = .dict d → d (tempStr T) = some (.entry e) →
      ∃ killed out, Analytic.compute float killed out = .ok (some e)) :
    ∃ err, loadOriginal k s paths l = .error err := by
  cases h : loadOriginal k s paths l with
  | error e => exact ⟨e, rfl⟩
  | ok r =>
    exfalso
    unfold loadOriginal at h
    obtain ⟨t0, h0, h⟩ := bind_eq_ok.1 h
    obtain ⟨orig, ho, h⟩ := bind_eq_ok.1 h
    obtain ⟨rho, hr, h⟩ := bind_eq_ok.1 h
    obtain ⟨t1, h1, h⟩ := bind_eq_ok.1 h
    have hl := loadPimcData_lists h0
    obtain ⟨z, hz, -⟩ := (scaleAll_ok (by rw [hl]; exact hnd) h1).2 T (by rw [hl]; exact hT)
    obtain ⟨d, e, e1, e2, e3⟩ := (getEntry_loaded hr hT _ _).1 hz
    obtain ⟨killed, out, hc⟩ := hw d e e1 e2
    rw [(C81_names_never_written_refuted float killed out e hc).1] at e3
    cases e3

end
end

/-! ### C82 -/

/-- C82: the abscissas of a curve are the imaginary time steps: one for each bead number in the list,
in its order, and the time step times the bead number is the inverse temperature. -/
theorem C82_tau (l : Lists) (T : Nat) : (tauValues l T).length = l.P.length ∧
    ∀ (i P : Nat), l.P[i]? = some P → 0 < P → ∃ tau, (tauValues l T)[i]? = some tau ∧
      tau * P = 1 / ((T : ℝ) / 100 * Constants.boltzman) := by
  refine ⟨by simp [tauValues], fun i P hi hP => ⟨Constants.beta ((T : ℝ) / 100) / P, ?_, ?_⟩⟩
  · simp [tauValues, hi]
  · have : (P : ℝ) ≠ 0 := Nat.cast_ne_zero.2 hP.ne'
    rw [div_mul_cancel₀ _ this]
    rfl

/-- C82: more beads, smaller time step. -/
theorem C82_tau_decreases (l : Lists) (hP : l.P.Pairwise (· < ·)) (h0 : ∀ P ∈ l.P, 0 < P) (T : Nat)
    (hT : 0 < T) : (tauValues l T).Pairwise (· > ·) := by
  have hb : 0 < Constants.beta ((T : ℝ) / 100) := by
    have hk : 0 < Constants.boltzman := by
      norm_num [Constants.boltzman, Constants.nistJPerEv]
    have : (0 : ℝ) < T := Nat.cast_pos.2 hT
    unfold Constants.beta
    positivity
  unfold tauValues
  rw [List.pairwise_map]
  refine hP.imp_of_mem fun {a b} ha hb' hab => ?_
  have h1 : (0 : ℝ) < a := Nat.cast_pos.2 (h0 a ha)
  have h2 : (a : ℝ) < b := Nat.cast_lt.2 hab
  exact div_lt_div_of_pos_left hb h1 h2

example : (tauValues ⟨[12, 24], [30000], [100]⟩ 30000).length = 2 := by simp [tauValues]

/-! ### C83 -/

/-- The points of a curve are the entries of the table. -/
theorem showsPoint_curve {t : Table ℝ} (hP : t.lists.P.Nodup) (T X : Nat) (f : Str) (x : ℝ)
    (y e : Option ℝ) :
    ShowsPoint (curve t T X (t.lists.T.idxOf T) (t.lists.X.idxOf X) f) x y e ↔
      ∃ P ∈ t.lists.P, x = Constants.beta ((T : ℝ) / 100) / P ∧ y = entry t P T X f ∧
        e = entry t P T X (f ++ c!" error") := by
  unfold ShowsPoint curve
  constructor
  · rintro ⟨i, h1, h2, h3⟩
    simp only [tauValues, Table.column, List.getElem?_map, Option.map_eq_some_iff] at h1 h2 h3
    obtain ⟨P, hi, rfl⟩ := h1
    obtain ⟨j, hj, rfl⟩ := h2
    obtain ⟨j', hj', rfl⟩ := h3
    obtain ⟨hlt, rfl⟩ := List.getElem?_eq_some_iff.1 hi
    rw [List.getElem?_range hlt] at hj hj'
    cases hj
    cases hj'
    refine ⟨t.lists.P[i], List.getElem_mem hlt, rfl, ?_, ?_⟩ <;>
      simp [entry, hP.idxOf_getElem]
  · rintro ⟨P, hP', rfl, rfl, rfl⟩
    have hlt := List.idxOf_lt_length_iff.2 hP'
    refine ⟨t.lists.P.idxOf P, ?_, ?_, ?_⟩
    · simp [tauValues, List.getElem?_eq_getElem hlt]
    · simp [Table.column, List.getElem?_range hlt, entry]
    · simp [Table.column, List.getElem?_range hlt, entry]

theorem curvesAt_ok {t : Table ℝ} {T iT : Nat} {f : Str} {cs : List Curve}
    (h : curvesAt t T iT f = .ok cs) : (t.lists.X ≠ [] → t.lists.T.length = 1) ∧
      ∀ c, c ∈ cs ↔ ∃ X ∈ t.lists.X, c = curve t T X iT (t.lists.X.idxOf X) f := by
  unfold curvesAt at h
  have hone : ∀ X ∈ t.lists.X, t.lists.T.length = 1 := by
    intro X hX
    obtain ⟨c, hc⟩ := (mapM_isOk.1 ⟨cs, h⟩) X hX
    rw [index_mem hX] at hc
    simp only [bind, Except.bind] at hc
    split at hc
    · assumption
    · cases hc
  refine ⟨fun hne => ?_, fun c => ?_⟩
  · obtain ⟨X, hX⟩ := List.exists_mem_of_ne_nil _ hne
    exact hone X hX
  · rw [mapM_mem h]
    constructor
    · rintro ⟨X, hX, e⟩
      rw [index_mem hX] at e
      simp only [bind, Except.bind, if_pos (hone X hX)] at e
      cases e
      exact ⟨X, hX, rfl⟩
    · rintro ⟨X, hX, rfl⟩
      refine ⟨X, hX, ?_⟩
      rw [index_mem hX]
      simp only [bind, Except.bind, if_pos (hone X hX)]

theorem curvesAt_isOk {t : Table ℝ} (h1 : t.lists.T.length = 1) (T iT : Nat) (f : Str) :
    ∃ cs, curvesAt t T iT f = .ok cs := by
  refine mapM_isOk.2 fun X hX => ?_
  rw [index_mem hX]
  exact ⟨_, by simp only [bind, Except.bind, if_pos h1]; rfl⟩

/-- The curves of a figure of one quantity. -/
theorem mem_curves {t : Table ℝ} {g : Nat → Except Err (List Curve)} {css : List (List Curve)} {f : Str}
    (h : t.lists.T.mapM g = .ok css)
    (hg : ∀ T cs, T ∈ t.lists.T → g T = .ok cs → curvesAt t T (t.lists.T.idxOf T) f = .ok cs) (c : Curve) :
    c ∈ css.flatten ↔ ∃ T ∈ t.lists.T, ∃ X ∈ t.lists.X,
      c = curve t T X (t.lists.T.idxOf T) (t.lists.X.idxOf X) f := by
  rw [List.mem_flatten]
  constructor
  · rintro ⟨cs, hcs, hc⟩
    obtain ⟨T, hT, e⟩ := (mapM_mem h cs).1 hcs
    obtain ⟨X, hX, rfl⟩ := ((curvesAt_ok (hg T cs hT e)).2 c).1 hc
    exact ⟨T, hT, X, hX, rfl⟩
  · rintro ⟨T, hT, X, hX, rfl⟩
    obtain ⟨cs, hcs⟩ := (mapM_isOk.1 ⟨css, h⟩) T hT
    exact ⟨cs, (mapM_mem h cs).2 ⟨T, hT, hcs⟩, ((curvesAt_ok (hg T cs hT hcs)).2 _).2 ⟨X, hX, rfl⟩⟩

theorem drawTest_ok {s : FS} {t : Table ℝ} {f : Str} {fig : Figure} (h : drawTest s t f true = .ok fig) :
    fig.path = join s.pathRhoPlots (f ++ c!"_D" ++ natStr s.idData ++ c!"_R" ++ natStr s.idRho ++ c!".pdf")
      ∧ ∀ c, c ∈ fig.curves ↔ ∃ T ∈ t.lists.T, ∃ X ∈ t.lists.X,
        c = curve t T X (t.lists.T.idxOf T) (t.lists.X.idxOf X) f := by
  unfold drawTest at h
  obtain ⟨css, h1, h⟩ := bind_eq_ok.1 h
  cases h
  refine ⟨rfl, mem_curves h1 fun T cs hT e => ?_⟩
  rw [index_mem hT] at e
  simpa [bind, Except.bind] using e

theorem drawOriginal_ok {dims : Except Err (Nat × Nat)} {s : FS} {d : Loaded ℝ} {fig : Figure}
    (h : drawOriginal dims s d = .ok fig) :
    fig.path = join s.pathRhoPlots (c!"Z_orig_D" ++ natStr s.idData ++ c!"_R" ++ natStr s.idRho ++ c!".pdf")
      ∧ fig.line = some 0 ∧ d.table.lists.T.length = 1 ∧
      ∀ c, c ∈ fig.curves ↔ ∃ T ∈ d.table.lists.T, ∃ X ∈ d.table.lists.X,
        c = curve d.table T X (d.table.lists.T.idxOf T) (d.table.lists.X.idxOf X) c!"Z" := by
  unfold drawOriginal at h
  obtain ⟨css, h1, h⟩ := bind_eq_ok.1 h
  split at h
  · next h2 =>
    obtain ⟨_, -, h⟩ := bind_eq_ok.1 h
    cases h
    refine ⟨rfl, rfl, h2, mem_curves h1 fun T cs hT e => ?_⟩
    rw [index_mem hT] at e
    obtain ⟨i, hi, e⟩ := bind_eq_ok.1 e
    cases hi
    obtain ⟨cs', e1, e⟩ := bind_eq_ok.1 e
    obtain ⟨_, -, e⟩ := bind_eq_ok.1 e
    cases e
    exact e1
  · cases h

/-- C83: the saved figure with the percentages of one object shows, for every current result file, the
point with the imaginary time step as abscissa, the percent deviation from the exact result of the
original model as ordinate, and its error bar, on the curve of its temperature and sample number. -/
theorem C83_original_shows_every_result {hash : Str → Str} {texts : FileStructure.Disk} {k : Disk ℝ}
    {s s' : FS} {paths : List Str} {l : Lists} (hnew : s.hashVib = none ∨ s.hashRho = none)
    (ht : Tidy s k) (h : initOne hash texts k s = .ok (s', paths, l)) {r : Loaded ℝ}
    (hr : loadOriginal k s' paths l = .ok r) {dims : Except Err (Nat × Nat)} {fig : Figure}
    (hf : drawOriginal dims s' r = .ok fig) :
    fig.path = join s.pathRhoPlots (c!"Z_orig_D" ++ natStr s.idData ++ c!"_R" ++ natStr s.idRho ++ c!".pdf")
    ∧ ∃ tv tr, texts.files s.pathVibModel = some tv ∧ texts.files s.pathRhoModel = some tr ∧
      ∀ P T X d z e, CurrentFile s k (hash tv) (hash tr) P T X d → (c!"Z", Val.num (some z)) ∈ d →
        (c!"Z error", Val.num (some e)) ∈ d →
        ∃ zr zc, Holds (k.results s.pathAnalyticRho) T c!"Z_sampling" zr ∧
          Holds (k.results s.pathAnalyticOrig) T c!"Z_coupled" zc ∧
          ∃ c ∈ fig.curves, c.T = T ∧ c.X = X ∧
            ShowsPoint c (Constants.beta ((T : ℝ) / 100) / P) (some (percentOff (z * zr) zc))
              (some (100 * (e * zr / zc))) := by
  obtain ⟨tv, tr, h1, h2, h3, -⟩ := initOne_ok hnew h
  obtain ⟨tv', tr', h1', h2', ⟨sP, sT, sX⟩, mP, mT, mX⟩ := C80_lists hnew ht h
  rw [h1] at h1'; cases h1'
  rw [h2] at h2'; cases h2'
  obtain ⟨t0, ht0, hl, hperc⟩ := C81_original_percent (sT.imp fun h => h.ne) hr
  obtain ⟨-, tv', tr', h1', h2', htab⟩ := C80_table hnew ht h ht0
  rw [h1] at h1'; cases h1'
  rw [h2] at h2'; cases h2'
  obtain ⟨f1, -, -, f2⟩ := drawOriginal_ok hf
  subst h3
  refine ⟨f1, tv, tr, h1, h2, fun P T X d z e hc hz he => ?_⟩
  have hP := (mP P).2 ⟨T, X, d, hc⟩
  have hT := (mT T).2 ⟨P, X, d, hc⟩
  have hX := (mX X).2 ⟨P, T, d, hc⟩
  obtain ⟨zr, zc, hzr, hzc, hval⟩ := hperc T hT X hX
  refine ⟨zr, zc, hzr, hzc, _, (f2 _).2 ⟨T, by rw [hl]; exact hT, X, by rw [hl]; exact hX, rfl⟩, rfl, rfl, ?_⟩
  rw [showsPoint_curve (by rw [hl]; exact sP.imp fun h => h.ne)]
  refine ⟨P, by rw [hl]; exact hP, rfl, ?_, ?_⟩
  · rw [(hval P).1, ((htab P hP T hT X hX c!"Z" (by decide)).1 d hc).1 _ hz]
    rfl
  · have : (c!"Z" ++ c!" error" : Str) = c!"Z error" := rfl
    rw [this, (hval P).2.1, ((htab P hP T hT X hX c!"Z error" (by decide)).1 d hc).1 _ he]
    rfl

/-- C83: and it shows nothing else: a point that is drawn belongs to a current result file. -/
theorem C83_original_shows_only_results {hash : Str → Str} {texts : FileStructure.Disk} {k : Disk ℝ}
    {s s' : FS} {paths : List Str} {l : Lists} (hnew : s.hashVib = none ∨ s.hashRho = none)
    (ht : Tidy s k) (h : initOne hash texts k s = .ok (s', paths, l)) {r : Loaded ℝ}
    (hr : loadOriginal k s' paths l = .ok r) {dims : Except Err (Nat × Nat)} {fig : Figure}
    (hf : drawOriginal dims s' r = .ok fig) {c : Curve} (hc : c ∈ fig.curves) {x y : ℝ} {e : Option ℝ}
    (hpt : ShowsPoint c x (some y) e) :
    ∃ tv tr, texts.files s.pathVibModel = some tv ∧ texts.files s.pathRhoModel = some tr ∧
      ∃ P d zr zc, CurrentFile s k (hash tv) (hash tr) P c.T c.X d ∧
        x = Constants.beta ((c.T : ℝ) / 100) / P ∧
        Holds (k.results s.pathAnalyticRho) c.T c!"Z_sampling" zr ∧
        Holds (k.results s.pathAnalyticOrig) c.T c!"Z_coupled" zc ∧
        ∀ z, (c!"Z", Val.num z) ∈ d → ∃ z', z = some z' ∧ y = percentOff (z' * zr) zc := by
  obtain ⟨tv, tr, h1, h2, h3, -⟩ := initOne_ok hnew h
  obtain ⟨tv', tr', h1', h2', ⟨sP, sT, sX⟩, mP, mT, mX⟩ := C80_lists hnew ht h
  rw [h1] at h1'; cases h1'
  rw [h2] at h2'; cases h2'
  obtain ⟨t0, ht0, hl, hperc⟩ := C81_original_percent (sT.imp fun h => h.ne) hr
  obtain ⟨-, tv', tr', h1', h2', htab⟩ := C80_table hnew ht h ht0
  rw [h1] at h1'; cases h1'
  rw [h2] at h2'; cases h2'
  obtain ⟨-, -, -, f2⟩ := drawOriginal_ok hf
  subst h3
  obtain ⟨T, hT, X, hX, rfl⟩ := (f2 c).1 hc
  rw [showsPoint_curve (by rw [hl]; exact sP.imp fun h => h.ne)] at hpt
  obtain ⟨P, hP, rfl, hy, -⟩ := hpt
  rw [hl] at hP hT hX
  obtain ⟨zr, zc, hzr, hzc, hval⟩ := hperc T hT X hX
  rw [(hval P).1] at hy
  obtain ⟨z0, hz0, rfl⟩ := Option.map_eq_some_iff.1 hy.symm
  have hex : ∃ d, CurrentFile s k (hash tv) (hash tr) P T X d := by
    by_contra hno
    rw [(htab P hP T hT X hX c!"Z" (by decide)).2 fun d hd => hno ⟨d, hd⟩] at hz0
    cases hz0
  obtain ⟨d, hd⟩ := hex
  refine ⟨tv, tr, h1, h2, P, d, zr, zc, hd, rfl, hzr, hzc, fun z hz => ⟨z0, ?_, rfl⟩⟩
  rw [← ((htab P hP T hT X hX c!"Z" (by decide)).1 d hd).1 z hz, hz0]

/-- C83: the figure is saved when the results have one temperature and the sampling model can be
read. -/
theorem C83_original_succeeds {k : Disk ℝ} {s : FS} {paths : List Str} {l : Lists} {r : Loaded ℝ}
    (hr : loadOriginal k s paths l = .ok r) (hT : l.T.length = 1) (dims : Nat × Nat) :
    ∃ fig, drawOriginal (.ok dims) s r = .ok fig := by
  have hnd : l.T.Nodup := by
    match l.T, hT with
    | [T], _ => simp
  unfold loadOriginal at hr
  obtain ⟨t0, h0, h⟩ := bind_eq_ok.1 hr
  obtain ⟨orig, ho, h⟩ := bind_eq_ok.1 h
  obtain ⟨rho, hr', h⟩ := bind_eq_ok.1 h
  obtain ⟨t1, h1, h⟩ := bind_eq_ok.1 h
  obtain ⟨t2, h2, h⟩ := bind_eq_ok.1 h
  cases h
  have l0 := loadPimcData_lists h0
  have l1 := (scaleAll_ok (by rw [l0]; exact hnd) h1).1
  have l2 := percentAll_ok (by rw [l1, l0]; exact hnd) h2
  have hlen : t2.lists.T.length = 1 := by rw [l2.1, l1, l0]; exact hT
  obtain ⟨css, hcss⟩ : ∃ css, t2.lists.T.mapM (fun T => do
      let iT ← index t2.lists.T T
      let cs ← curvesAt t2 T iT c!"Z"
      let _ ← getEntry orig T c!"Z_coupled"
      (.ok cs : Except Err (List Curve))) = .ok css := by
    refine mapM_isOk.2 fun T hT' => ?_
    obtain ⟨cs, hcs⟩ := curvesAt_isOk hlen T (t2.lists.T.idxOf T) c!"Z"
    obtain ⟨e, he, -⟩ := l2.2 T (by rw [← l2.1]; exact hT')
    exact ⟨cs, bind_eq_ok.2 ⟨_, index_mem hT', bind_eq_ok.2 ⟨cs, hcs, bind_eq_ok.2 ⟨e, he, rfl⟩⟩⟩⟩
  refine ⟨⟨join s.pathRhoPlots (c!"Z_orig_D" ++ natStr s.idData ++ c!"_R" ++ natStr s.idRho ++ c!".pdf"),
    css.flatten, some 0⟩, ?_⟩
  unfold drawOriginal
  refine bind_eq_ok.2 ⟨css, hcss, ?_⟩
  simp only [if_pos hlen, bind, Except.bind]

/-- At another number of temperatures than one the curves cannot be drawn. -/
theorem curvesAt_type {t : Table ℝ} (hT : t.lists.T.length ≠ 1) (hX : t.lists.X ≠ []) (T iT : Nat) (f : Str) :
    curvesAt t T iT f = .error .type := by
  unfold curvesAt
  cases hl : t.lists.X with
  | nil => exact absurd hl hX
  | cons X Xs =>
    simp [List.mapM_cons, bind, Except.bind, index_mem (l := X :: Xs) (n := X) (by simp), if_neg hT]

/-- C83, refuted: with results at two temperatures, or at none, no figure is saved: drawing raises a
`TypeError`. -/
theorem C83_original_one_temperature_refuted (dims : Except Err (Nat × Nat)) (s : FS) (d : Loaded ℝ)
    (hT : d.table.lists.T.length ≠ 1) (hX : d.table.lists.X ≠ []) :
    drawOriginal dims s d = .error .type := by
  unfold drawOriginal
  cases hl : d.table.lists.T with
  | nil => simp [hl, bind, Except.bind, pure, Except.pure]
  | cons T Ts =>
    have hi : index (T :: Ts) T = .ok ((T :: Ts).idxOf T) := index_mem (by simp)
    simp [hl, List.mapM_cons, bind, Except.bind, hi, curvesAt_type hT hX]

/-- C83, refuted: with results at one temperature the raw results are drawn for the partition function
and for the energy; then the program stops with an `AttributeError`, before the heat capacity. -/
theorem C83_plot_test_refuted (s : FS) (t : Table ℝ) (hT : t.lists.T.length = 1) :
    ∃ z en, plotTest s t = ([z, en], some .attribute) ∧ drawTest s t c!"Z" true = .ok z ∧
      drawTest s t c!"E" true = .ok en := by
  have hd : ∀ f, ∃ fig, drawTest s t f true = .ok fig := by
    intro f
    obtain ⟨css, hcss⟩ : ∃ css, t.lists.T.mapM (fun T => do
        let iT ← index t.lists.T T
        if true = false then (.error .attribute : Except Err (List Curve)) else curvesAt t T iT f)
          = .ok css := by
      refine mapM_isOk.2 fun T hT' => ?_
      obtain ⟨cs, hcs⟩ := curvesAt_isOk hT T (t.lists.T.idxOf T) f
      exact ⟨cs, bind_eq_ok.2 ⟨_, index_mem hT', by simpa using hcs⟩⟩
    exact ⟨_, by unfold drawTest; exact bind_eq_ok.2 ⟨css, hcss, rfl⟩⟩
  obtain ⟨z, hz⟩ := hd c!"Z"
  obtain ⟨en, hen⟩ := hd c!"E"
  have hcv : drawTest s t c!"Cv" false = .error .attribute := by
    unfold drawTest
    match hl : t.lists.T, hT with
    | [T], _ =>
      simp only [List.mapM_cons]
      rw [index_mem (by simp)]
      rfl
  refine ⟨z, en, ?_, hz, hen⟩
  unfold plotTest
  rw [hz, hen, hcv]

/-- C83: a figure that was saved stays saved when the next one fails, and the failure is reported. -/
theorem C83_plot_test_keeps (s : FS) (t : Table ℝ) (z : Figure)
    (hz : drawTest s t c!"Z" true = .ok z) :
    z ∈ (plotTest s t).1 ∧ ((plotTest s t).2 = none → ∃ en cv, drawTest s t c!"E" true = .ok en ∧
      drawTest s t c!"Cv" false = .ok cv ∧ (plotTest s t).1 = [z, en, cv]) := by
  unfold plotTest
  rw [hz]
  cases drawTest s t c!"E" true with
  | error e => simp
  | ok en =>
    cases drawTest s t c!"Cv" false with
    | error e => simp
    | ok cv => simp

/-- C83: the raw partition functions and energies that are saved are the points of the current
results. -/
theorem C83_test_shows_every_result_partial {hash : Str → Str} {texts : FileStructure.Disk} {k : Disk ℝ}
    {s s' : FS} {paths : List Str} {l : Lists} (hnew : s.hashVib = none ∨ s.hashRho = none)
    (ht : Tidy s k) (h : initOne hash texts k s = .ok (s', paths, l)) {t : Table ℝ}
    (hr : loadPimcData false k l paths = .ok t) {f : Str} (hff : f ∈ [c!"Z", c!"E", c!"Cv"])
    {fig : Figure} (hf : drawTest s' t f true = .ok fig) :
    fig.path = join s.pathRhoPlots (f ++ c!"_D" ++ natStr s.idData ++ c!"_R" ++ natStr s.idRho ++ c!".pdf")
    ∧ ∃ tv tr, texts.files s.pathVibModel = some tv ∧ texts.files s.pathRhoModel = some tr ∧
      (∀ P T X d z e, CurrentFile s k (hash tv) (hash tr) P T X d → (f, Val.num z) ∈ d →
        (f ++ c!" error", Val.num e) ∈ d → ∃ c ∈ fig.curves, c.T = T ∧ c.X = X ∧
          ShowsPoint c (Constants.beta ((T : ℝ) / 100) / P) z e) ∧
      (∀ c ∈ fig.curves, ∀ x y e, ShowsPoint c x (some y) e →
        ∃ P d, CurrentFile s k (hash tv) (hash tr) P c.T c.X d ∧
          x = Constants.beta ((c.T : ℝ) / 100) / P ∧ ∀ z, (f, Val.num z) ∈ d → z = some y) := by
  obtain ⟨tv, tr, h1, h2, h3, -⟩ := initOne_ok hnew h
  obtain ⟨tv', tr', h1', h2', ⟨sP, sT, sX⟩, mP, mT, mX⟩ := C80_lists hnew ht h
  rw [h1] at h1'; cases h1'
  rw [h2] at h2'; cases h2'
  obtain ⟨hl, tv', tr', h1', h2', htab⟩ := C80_table hnew ht h hr
  rw [h1] at h1'; cases h1'
  rw [h2] at h2'; cases h2'
  obtain ⟨f1, f2⟩ := drawTest_ok hf
  have hfs : f ∈ fields ∧ f ++ c!" error" ∈ fields := by
    simp only [List.mem_cons, List.not_mem_nil, or_false] at hff
    rcases hff with rfl | rfl | rfl <;> decide
  subst h3
  refine ⟨f1, tv, tr, h1, h2, fun P T X d z e hc hz he => ?_, fun c hc x y e hpt => ?_⟩
  · have hP := (mP P).2 ⟨T, X, d, hc⟩
    have hT := (mT T).2 ⟨P, X, d, hc⟩
    have hX := (mX X).2 ⟨P, T, d, hc⟩
    refine ⟨_, (f2 _).2 ⟨T, by rw [hl]; exact hT, X, by rw [hl]; exact hX, rfl⟩, rfl, rfl, ?_⟩
    rw [showsPoint_curve (by rw [hl]; exact sP.imp fun h => h.ne)]
    exact ⟨P, by rw [hl]; exact hP, rfl, (((htab P hP T hT X hX f hfs.1).1 d hc).1 _ hz).symm,
      (((htab P hP T hT X hX _ hfs.2).1 d hc).1 _ he).symm⟩
  · obtain ⟨T, hT, X, hX, rfl⟩ := (f2 c).1 hc
    rw [showsPoint_curve (by rw [hl]; exact sP.imp fun h => h.ne)] at hpt
    obtain ⟨P, hP, rfl, hy, -⟩ := hpt
    rw [hl] at hP hT hX
    have hex : ∃ d, CurrentFile s k (hash tv) (hash tr) P T X d := by
      by_contra hno
      rw [(htab P hP T hT X hX f hfs.1).2 fun d hd => hno ⟨d, hd⟩] at hy
      cases hy
    obtain ⟨d, hd⟩ := hex
    exact ⟨P, d, hd, rfl, fun z hz => by rw [hy, ((htab P hP T hT X hX f hfs.1).1 d hd).1 z hz]⟩

/-- C83, refuted: with results at two or more temperatures nothing is saved at all. -/
theorem C83_plot_test_two_temperatures_refuted (s : FS) (t : Table ℝ) (hT : 2 ≤ t.lists.T.length)
    (hX : t.lists.X ≠ []) : plotTest s t = ([], some .type) := by
  have h : drawTest s t c!"Z" true = .error .type := by
    unfold drawTest
    cases hl : t.lists.T with
    | nil => rw [hl] at hT; simp at hT
    | cons T Ts =>
      have hi : index (T :: Ts) T = .ok ((T :: Ts).idxOf T) := index_mem (by simp)
      simp [List.mapM_cons, bind, Except.bind, hi, curvesAt_type (by omega) hX]
  unfold plotTest
  rw [h]

/-- The largest element of an increasing list is its last one. -/
theorem getLast_max {l : List Nat} (hl : l.Pairwise (· < ·)) {X : Nat} :
    l.getLast? = some X ↔ X ∈ l ∧ ∀ Y ∈ l, Y ≤ X := by
  rcases List.eq_nil_or_concat l with rfl | ⟨l', a, rfl⟩
  · simp
  · rw [List.concat_eq_append] at hl ⊢
    rw [List.getLast?_concat]
    rw [List.pairwise_append] at hl
    have hlt : ∀ Y ∈ l', Y < a := fun Y hY => hl.2.2 Y hY a (by simp)
    constructor
    · rintro h
      cases h
      refine ⟨by simp, fun Y hY => ?_⟩
      rcases List.mem_append.1 hY with hY | hY
      · exact (hlt Y hY).le
      · simp at hY; exact hY.le
    · rintro ⟨h1, h2⟩
      rcases List.mem_append.1 h1 with h | h
      · have h3 := hlt X h
        have h4 := h2 a (by simp)
        omega
      · simp at h; rw [h]

theorem versusCurve_ok {s : FS} {d : Loaded ℝ} {T : Nat} {c : Curve} (h : versusCurve s d T = .ok c) :
    ∃ X, d.table.lists.X.getLast? = some X ∧ s.idRho ≤ 4 ∧ T ∈ d.table.lists.T ∧
      d.table.lists.T.idxOf T = 0 ∧
      c = curve d.table T X (d.table.lists.T.idxOf T) (d.table.lists.X.idxOf X) c!"Z" := by
  unfold versusCurve at h
  obtain ⟨iT, h1, h⟩ := bind_eq_ok.1 h
  obtain ⟨hT, rfl⟩ := index_ok.1 h1
  split at h
  · cases h
  · next X hX =>
    obtain ⟨iX, h2, h⟩ := bind_eq_ok.1 h
    obtain ⟨-, rfl⟩ := index_ok.1 h2
    split at h
    · next h4 =>
      split at h
      · next h5 =>
        obtain ⟨_, -, h⟩ := bind_eq_ok.1 h
        cases h
        exact ⟨X, hX, h4, hT, h5, rfl⟩
      · cases h
    · cases h

/-- C83: the figure that compares two sampling models shows, for each of the two objects and every
current result with the largest number of samples, the percent deviation from the exact result. -/
theorem C83_versus_shows_results_partial {hash : Str → Str} {texts : FileStructure.Disk} {k : Disk ℝ}
    {ss ss' : Fin 2 → FS} {paths : Fin 2 → List Str} {l : Fin 2 → Lists}
    (hnew : ∀ i, (ss i).hashVib = none ∨ (ss i).hashRho = none)
    (ht : ∀ i, Tidy (ss i) k) (h : ∀ i, initOne hash texts k (ss i) = .ok (ss' i, paths i, l i))
    {r : Fin 2 → Loaded ℝ} (hr : ∀ i, loadVersus k (ss' i) (paths i) (l i) = .ok (r i))
    {dims : Except Err (Nat × Nat)} {fig : InsetFigure}
    (hf : drawVersus dims (ss' 0) (ss' 1) (r 0) (r 1) = .ok fig) (i : Fin 2) :
    ∃ tv tr, texts.files (ss i).pathVibModel = some tv ∧ texts.files (ss i).pathRhoModel = some tr ∧
      ∀ P T X d z e, CurrentFile (ss i) k (hash tv) (hash tr) P T X d →
        (∀ P' T' X' d', CurrentFile (ss i) k (hash tv) (hash tr) P' T' X' d' → X' ≤ X) →
        (c!"Z", Val.num (some z)) ∈ d → (c!"Z error", Val.num (some e)) ∈ d →
        ∃ zr zc, Holds (k.results (ss i).pathAnalyticRho) T c!"Z_sampling" zr ∧
          Holds (k.results (ss i).pathAnalyticOrig) T c!"Z_coupled" zc ∧
          ∃ c ∈ fig.curves, c.T = T ∧ c.X = X ∧
            ShowsPoint c (Constants.beta ((T : ℝ) / 100) / P) (some (percentOff (z * zr) zc))
              (some (100 * (e * zr / zc))) := by
  obtain ⟨tv, tr, h1, h2, h3, -⟩ := initOne_ok (hnew i) (h i)
  obtain ⟨tv', tr', h1', h2', ⟨sP, sT, sX⟩, mP, mT, mX⟩ := C80_lists (hnew i) (ht i) (h i)
  rw [h1] at h1'; cases h1'
  rw [h2] at h2'; cases h2'
  have ndT := sT.imp fun {a b} (h : a < b) => h.ne
  have ndX := sX.imp fun {a b} (h : a < b) => h.ne
  obtain ⟨t0, ht0, hl, hperc⟩ := C81_versus_percent ndT ndX (hr i)
  obtain ⟨-, tv', tr', h1', h2', htab⟩ := C80_table (hnew i) (ht i) (h i) ht0
  rw [h1] at h1'; cases h1'
  rw [h2] at h2'; cases h2'
  have hcur : ∀ T ∈ (l i).T, ∃ c ∈ fig.curves, versusCurve (ss' i) (r i) T = .ok c := by
    intro T hT
    unfold drawVersus at hf
    obtain ⟨cs, g1, hf⟩ := bind_eq_ok.1 hf
    obtain ⟨cs', g2, hf⟩ := bind_eq_ok.1 hf
    obtain ⟨_, -, hf⟩ := bind_eq_ok.1 hf
    obtain ⟨_, -, hf⟩ := bind_eq_ok.1 hf
    cases hf
    have hT' : T ∈ (r i).table.lists.T := by rw [hl]; exact hT
    match i, hT' with
    | 0, hT' =>
      obtain ⟨c, hc⟩ := (mapM_isOk.1 ⟨cs, g1⟩) T hT'
      exact ⟨c, List.mem_append_left _ ((mapM_mem g1 c).2 ⟨T, hT', hc⟩), hc⟩
    | 1, hT' =>
      obtain ⟨c, hc⟩ := (mapM_isOk.1 ⟨cs', g2⟩) T hT'
      exact ⟨c, List.mem_append_right _ ((mapM_mem g2 c).2 ⟨T, hT', hc⟩), hc⟩
  refine ⟨tv, tr, h1, h2, fun P T X d z e hc hmax hz he => ?_⟩
  have hP := (mP P).2 ⟨T, X, d, hc⟩
  have hT := (mT T).2 ⟨P, X, d, hc⟩
  have hX := (mX X).2 ⟨P, T, d, hc⟩
  have hlast : (l i).X.getLast? = some X := (getLast_max sX).2 ⟨hX, fun Y hY => by
    obtain ⟨P', T', d', hc'⟩ := (mX Y).1 hY
    exact hmax P' T' Y d' hc'⟩
  obtain ⟨zr, zc, hzr, hzc, hval⟩ := hperc T hT X hX
  obtain ⟨c, hcm, hcv⟩ := hcur T hT
  obtain ⟨X', e1, -, -, -, rfl⟩ := versusCurve_ok hcv
  rw [hl, hlast] at e1
  cases e1
  rw [h3] at hzr hzc
  refine ⟨zr, zc, hzr, hzc, _, hcm, rfl, rfl, ?_⟩
  rw [showsPoint_curve (by rw [hl]; exact sP.imp fun h => h.ne)]
  refine ⟨P, by rw [hl]; exact hP, rfl, ?_, ?_⟩
  · rw [(hval P).1, ((htab P hP T hT X hX c!"Z" (by decide)).1 d hc).1 _ hz]
    rfl
  · have : (c!"Z" ++ c!" error" : Str) = c!"Z error" := rfl
    rw [this, (hval P).2.1, ((htab P hP T hT X hX c!"Z error" (by decide)).1 d hc).1 _ he]
    rfl

/-- C83: the name of the figure that compares two sampling models has the ids of both, and from data
set 10 on its inset shows one point for each of the two: the deviation at the largest number of beads,
the first temperature and the largest number of samples. -/
theorem C83_versus_name_and_inset {dims : Except Err (Nat × Nat)} {s s' : FS} {d d' : Loaded ℝ}
    {fig : InsetFigure} (hf : drawVersus dims s s' d d' = .ok fig) :
    fig.path = join s.pathVibPlots (c!"Z_orig_D" ++ natStr s.idData ++ c!"_R" ++ natStr s.idRho ++
      c!"_R" ++ natStr s'.idRho ++ c!".pdf") ∧
    fig.line = some 0 ∧
    (s.idData < 10 → fig.inset = none) ∧
    (10 ≤ s.idData → ∃ c c', fig.inset = some [c, c'] ∧ ∀ e ∈ [(d, c), (d', c')], ∃ P X,
      e.1.table.lists.P.getLast? = some P ∧ e.1.table.lists.X.getLast? = some X ∧
      e.1.table.lists.T ≠ [] ∧ e.2.X = X ∧ e.2.x = [Constants.beta 300 / P] ∧
      e.2.y = [e.1.table.cell (e.1.table.lists.P.length - 1) 0 (e.1.table.lists.X.length - 1) c!"Z"] ∧
      e.2.yerr = [e.1.table.cell (e.1.table.lists.P.length - 1) 0 (e.1.table.lists.X.length - 1)
        c!"Z error"]) := by
  unfold drawVersus at hf
  obtain ⟨cs, -, hf⟩ := bind_eq_ok.1 hf
  obtain ⟨cs', -, hf⟩ := bind_eq_ok.1 hf
  obtain ⟨inset, g3, hf⟩ := bind_eq_ok.1 hf
  obtain ⟨_, -, hf⟩ := bind_eq_ok.1 hf
  cases hf
  refine ⟨rfl, rfl, fun h => ?_, fun h => ?_⟩
  · unfold drawInset at g3
    rw [if_neg (by omega)] at g3
    cases g3
    rfl
  · unfold drawInset at g3
    rw [if_pos h] at g3
    obtain ⟨a, h1, g3⟩ := bind_eq_ok.1 g3
    obtain ⟨b, h2, g3⟩ := bind_eq_ok.1 g3
    obtain ⟨_, -, g3⟩ := bind_eq_ok.1 g3
    cases g3
    have key : ∀ (d : Loaded ℝ) (c : Curve), insetCurve d = .ok c → ∃ P X,
        d.table.lists.P.getLast? = some P ∧ d.table.lists.X.getLast? = some X ∧
        d.table.lists.T ≠ [] ∧ c.X = X ∧ c.x = [Constants.beta 300 / P] ∧
        c.y = [d.table.cell (d.table.lists.P.length - 1) 0 (d.table.lists.X.length - 1) c!"Z"] ∧
        c.yerr = [d.table.cell (d.table.lists.P.length - 1) 0 (d.table.lists.X.length - 1)
          c!"Z error"] := by
      intro d c hc
      unfold insetCurve at hc
      simp only at hc
      split at hc
      · next P T Ts X hP hT hX =>
        cases hc
        have : ((30000 : ℕ) : ℝ) / 100 = 300 := by norm_num
        exact ⟨P, X, hP, hX, by rw [hT]; simp, rfl, by rw [this], rfl, rfl⟩
      · cases hc
    refine ⟨a, b, rfl, fun e he => ?_⟩
    rcases List.mem_cons.1 he with rfl | he
    · exact key _ _ h1
    · rw [List.mem_singleton.1 he]
      exact key _ _ h2

/-- C83, refuted: the comparison is drawn only when each object has results at one temperature at most,
its sampling model is one of the first five if it has any, and, from data set 10 on, only for 300 K. -/
theorem C83_versus_limits_refuted {dims : Except Err (Nat × Nat)} {s s' : FS} {d d' : Loaded ℝ}
    {fig : InsetFigure} (hnd : d.table.lists.T.Nodup) (hnd' : d'.table.lists.T.Nodup)
    (hf : drawVersus dims s s' d d' = .ok fig) :
    d.table.lists.T.length ≤ 1 ∧ d'.table.lists.T.length ≤ 1 ∧
    (d.table.lists.T ≠ [] → s.idRho ≤ 4) ∧ (d'.table.lists.T ≠ [] → s'.idRho ≤ 4) ∧
    (10 ≤ s.idData → ∃ z, getEntry d.orig 30000 c!"Z_coupled" = .ok z) := by
  unfold drawVersus at hf
  obtain ⟨cs, g1, hf⟩ := bind_eq_ok.1 hf
  obtain ⟨cs', g2, hf⟩ := bind_eq_ok.1 hf
  obtain ⟨inset, g3, hf⟩ := bind_eq_ok.1 hf
  have key : ∀ (s : FS) (d : Loaded ℝ) (cs : List Curve), d.table.lists.T.Nodup →
      d.table.lists.T.mapM (versusCurve s d) = .ok cs →
      d.table.lists.T.length ≤ 1 ∧ (d.table.lists.T ≠ [] → s.idRho ≤ 4) := by
    intro s d cs hnd g
    have hall := mapM_isOk.1 ⟨cs, g⟩
    constructor
    · by_contra hlen
      match hT : d.table.lists.T, hnd with
      | [], _ => simp [hT] at hlen
      | [T], _ => simp [hT] at hlen
      | T :: T' :: Ts, hnd =>
        obtain ⟨c, hc⟩ := hall T' (by rw [hT]; simp)
        obtain ⟨X, -, -, hm, h0, -⟩ := versusCurve_ok hc
        have h1 : d.table.lists.T.idxOf T = 0 := by rw [hT]; simp
        have : T = T' := idxOf_inj' (by rw [hT]; simp) (h1.trans h0.symm)
        subst this
        simp at hnd
    · intro hne
      obtain ⟨T, hT⟩ := List.exists_mem_of_ne_nil _ hne
      obtain ⟨c, hc⟩ := hall T hT
      exact (versusCurve_ok hc).choose_spec.2.1
  refine ⟨(key s d cs hnd g1).1, (key s' d' cs' hnd' g2).1, (key s d cs hnd g1).2,
    (key s' d' cs' hnd' g2).2, fun h10 => ?_⟩
  unfold drawInset at g3
  rw [if_pos h10] at g3
  obtain ⟨_, -, g3⟩ := bind_eq_ok.1 g3
  obtain ⟨_, -, g3⟩ := bind_eq_ok.1 g3
  obtain ⟨z, hz, -⟩ := bind_eq_ok.1 g3
  exact ⟨z, hz⟩

/-- C83, refuted: how the comparison fails for the first object: a `KeyError` for a sampling model
without a label, an `IndexError` for a second temperature or without samples, and, from data set 10 on, an
`IndexError` when neither object has results. -/
theorem C83_versus_errors_refuted (dims : Except Err (Nat × Nat)) (s s' : FS) (d d' : Loaded ℝ) :
    (∀ T Ts, d.table.lists.T = T :: Ts → d.table.lists.X ≠ [] → 5 ≤ s.idRho →
      drawVersus dims s s' d d' = .error .key) ∧
    (∀ T Ts, d.table.lists.T = T :: Ts → d.table.lists.X = [] →
      drawVersus dims s s' d d' = .error .index) ∧
    (∀ T T' Ts z, d.table.lists.T = T :: T' :: Ts → T ≠ T' → d.table.lists.X ≠ [] → s.idRho ≤ 4 →
      getEntry d.orig T c!"Z_coupled" = .ok z → drawVersus dims s s' d d' = .error .index) ∧
    (d.table.lists.T = [] → d'.table.lists.T = [] → 10 ≤ s.idData →
      drawVersus dims s s' d d' = .error .index) := by
  have hlast : d.table.lists.X ≠ [] → ∃ X, d.table.lists.X.getLast? = some X ∧
      index d.table.lists.X X = .ok (d.table.lists.X.idxOf X) := fun h =>
    ⟨_, List.getLast?_eq_some_getLast h, index_mem (List.getLast_mem h)⟩
  refine ⟨fun T Ts hT hX h5 => ?_, fun T Ts hT hX => ?_, fun T T' Ts z hT hne hX h4 hz => ?_,
    fun hT hT' h10 => ?_⟩
  · obtain ⟨X, e1, e2⟩ := hlast hX
    have hi : index (T :: Ts) T = .ok ((T :: Ts).idxOf T) := index_mem (by simp)
    have h : versusCurve s d T = .error .key := by
      unfold versusCurve
      simp only [e1, hT, hi, e2]
      simp [bind, Except.bind, show ¬ s.idRho ≤ 4 by omega]
    unfold drawVersus
    rw [hT, List.mapM_cons, h]
    rfl
  · have hi : index (T :: Ts) T = .ok ((T :: Ts).idxOf T) := index_mem (by simp)
    have h : versusCurve s d T = .error .index := by
      unfold versusCurve
      simp only [hX, hT, hi]
      simp [bind, Except.bind]
    unfold drawVersus
    rw [hT, List.mapM_cons, h]
    rfl
  · obtain ⟨X, e1, e2⟩ := hlast hX
    have hi : index (T :: T' :: Ts) T = .ok 0 := by
      rw [index_mem (by simp)]; simp
    have hi' : index (T :: T' :: Ts) T' = .ok 1 := by
      rw [index_mem (by simp)]
      simp [hne]
    obtain ⟨c, hc⟩ : ∃ c, versusCurve s d T = .ok c := by
      unfold versusCurve
      simp only [e1, hT, hi, e2]
      simp [bind, Except.bind, h4, hz]
    have h : versusCurve s d T' = .error .index := by
      unfold versusCurve
      simp only [e1, hT, hi', e2]
      simp [bind, Except.bind, h4]
    unfold drawVersus
    rw [hT, List.mapM_cons, List.mapM_cons, hc, h]
    rfl
  · have h : insetCurve d = .error .index := by
      unfold insetCurve
      simp only [hT]
      split
      · next h _ => cases h
      · rfl
    unfold drawVersus
    rw [hT, hT']
    simp [drawInset, h10, h, bind, Except.bind, pure, Except.pure]

/-- C83: the comparison is saved when each of the two objects has results at one temperature, both are
one of the five sampling models with a label, and, for the data sets with an inset, that temperature is
300 K and there are results. -/
theorem C83_versus_succeeds {k : Disk ℝ} {s s' : FS} {paths paths' : List Str} {l l' : Lists}
    {r r' : Loaded ℝ} (hr : loadVersus k s paths l = .ok r) (hr' : loadVersus k s' paths' l' = .ok r')
    {T T' : Nat} (hT : l.T = [T]) (hT' : l'.T = [T']) (hX : l.X ≠ []) (hX' : l'.X ≠ [])
    (hn : l.X.Nodup) (hn' : l'.X.Nodup) (h4 : s.idRho ≤ 4) (h4' : s'.idRho ≤ 4)
    (h10 : s.idData < 10 ∨ (T = 30000 ∧ l.P ≠ [] ∧ l'.P ≠ [])) (dims : Nat × Nat) :
    ∃ fig, drawVersus (.ok dims) s s' r r' = .ok fig := by
  have key : ∀ (s : FS) (paths : List Str) (l : Lists) (r : Loaded ℝ) (T : Nat),
      loadVersus k s paths l = .ok r → l.T = [T] → l.X ≠ [] → l.X.Nodup → s.idRho ≤ 4 →
      r.table.lists = l ∧ (∃ z, getEntry r.orig T c!"Z_coupled" = .ok z) ∧
        ∃ cs, r.table.lists.T.mapM (versusCurve s r) = .ok cs := by
    intro s paths l r T hr hT hX hn h4
    have hnd : l.T.Nodup := by rw [hT]; simp
    unfold loadVersus at hr
    obtain ⟨t0, h0, h⟩ := bind_eq_ok.1 hr
    obtain ⟨orig, ho, h⟩ := bind_eq_ok.1 h
    obtain ⟨rho, hr', h⟩ := bind_eq_ok.1 h
    obtain ⟨t1, h1, h⟩ := bind_eq_ok.1 h
    obtain ⟨t2, h2, h⟩ := bind_eq_ok.1 h
    cases h
    have l0 := loadPimcData_lists h0
    have l1 := (scaleAll_ok (by rw [l0]; exact hnd) h1).1
    have l2 := percentEach_ok (by rw [l1, l0]; exact hnd) (by rw [l1, l0]; exact hn) h2
    have hl : t2.lists = l := by rw [l2.1, l1, l0]
    obtain ⟨X, hXm⟩ := List.exists_mem_of_ne_nil _ hX
    obtain ⟨z, hz, -⟩ := l2.2 T (by rw [l1, l0, hT]; simp) X (by rw [l1, l0]; exact hXm)
    refine ⟨hl, ⟨z, hz⟩, mapM_isOk.2 fun T₁ hT₁ => ?_⟩
    rw [hl, hT, List.mem_singleton] at hT₁
    subst hT₁
    have hlast : l.X.getLast? = some (l.X.getLast hX) := List.getLast?_eq_some_getLast hX
    refine ⟨curve t2 T₁ (l.X.getLast hX) 0 (l.X.idxOf (l.X.getLast hX)) c!"Z", ?_⟩
    unfold versusCurve
    simp only [hl, hT, hlast]
    refine bind_eq_ok.2 ⟨0, ?_, bind_eq_ok.2 ⟨_, index_mem (List.getLast_mem hX), ?_⟩⟩
    · simpa using index_mem (l := [T₁]) (n := T₁) (by simp)
    · rw [if_pos h4]
      simp [hz, bind, Except.bind]
  obtain ⟨e1, ⟨z, hz⟩, cs, hcs⟩ := key s paths l r T hr hT hX hn h4
  obtain ⟨e1', -, cs', hcs'⟩ := key s' paths' l' r' T' hr' hT' hX' hn' h4'
  have hins : ∃ i, drawInset s r r' = .ok i := by
    unfold drawInset
    rcases h10 with h | ⟨rfl, hP, hP'⟩
    · exact ⟨none, if_neg (by omega)⟩
    · by_cases h : s.idData ≥ 10
      · have hc : ∀ (r : Loaded ℝ) (l : Lists) (T : Nat), r.table.lists = l → l.T = [T] → l.X ≠ [] →
            l.P ≠ [] → ∃ c, insetCurve r = .ok c := by
          intro r l T e hT hX hP
          unfold insetCurve
          simp only [e, hT, List.getLast?_eq_some_getLast hX, List.getLast?_eq_some_getLast hP]
          exact ⟨_, rfl⟩
        obtain ⟨a, ha⟩ := hc r l _ e1 hT hX hP
        obtain ⟨b, hb⟩ := hc r' l' _ e1' hT' hX' hP'
        exact ⟨some [a, b], (if_pos h).trans (bind_eq_ok.2 ⟨a, ha, bind_eq_ok.2 ⟨b, hb,
          bind_eq_ok.2 ⟨z, hz, rfl⟩⟩⟩)⟩
      · exact ⟨none, if_neg h⟩
  obtain ⟨i, hi⟩ := hins
  exact ⟨_, bind_eq_ok.2 ⟨cs, hcs, bind_eq_ok.2 ⟨cs', hcs', bind_eq_ok.2 ⟨i, hi, rfl⟩⟩⟩⟩

/-- C83, refuted: the two remaining comparison classes never show anything: with one current result for
one of the objects, loading fails. -/
theorem C83_sos_versus_refuted {K : Type} [Field K] (B : Nat) (k : Disk K)
    (all : List (FS × List Str × Lists))
    (hne : ∃ a ∈ all, a.2.2.X ≠ [] ∧ a.2.2.T ≠ []) (hnd : ∀ a ∈ all, a.2.2.T.Nodup) :
    (∃ e, loadSosVersus B k all = .error e) ∧ ∃ e, loadRectangle B k all = .error e := by
  have get : ∀ {α β : Type} {f : α → Except Err β} {xs : List α} {ys : List β}, xs.mapM f = .ok ys →
      ∀ a ∈ xs, ∃ (i : Nat) (b : β), xs[i]? = some a ∧ ys[i]? = some b ∧ f a = .ok b := by
    intro α β f xs
    induction xs with
    | nil => intro ys _ a ha; cases ha
    | cons x xs ih =>
      intro ys h a ha
      rw [List.mapM_cons] at h
      obtain ⟨y, hy, h⟩ := bind_eq_ok.1 h
      obtain ⟨ys', hys, h⟩ := bind_eq_ok.1 h
      cases h
      rcases List.mem_cons.1 ha with rfl | ha
      · exact ⟨0, y, rfl, rfl, hy⟩
      · obtain ⟨i, b, h1, h2, h3⟩ := ih hys a ha
        exact ⟨i + 1, b, h1, h2, h3⟩
  have at_ : ∀ {α β : Type} {f : α → Except Err β} {xs : List α} {ys : List β}, xs.mapM f = .ok ys →
      ∀ (i : Nat) (a : α), xs[i]? = some a → ∃ b, ys[i]? = some b ∧ f a = .ok b := by
    intro α β f xs
    induction xs with
    | nil => intro ys _ i a ha; simp at ha
    | cons x xs ih =>
      intro ys h i a ha
      rw [List.mapM_cons] at h
      obtain ⟨y, hy, h⟩ := bind_eq_ok.1 h
      obtain ⟨ys', hys, h⟩ := bind_eq_ok.1 h
      cases h
      cases i with
      | zero => cases ha; exact ⟨y, rfl, hy⟩
      | succ i => exact ih hys i a ha
  obtain ⟨a, ha, hX, hT⟩ := hne
  constructor
  · cases h : loadSosVersus B k all with
    | error e => exact ⟨e, rfl⟩
    | ok out =>
      exfalso
      unfold loadSosVersus at h
      obtain ⟨ts, h1, h⟩ := bind_eq_ok.1 h
      obtain ⟨cs, -, h⟩ := bind_eq_ok.1 h
      obtain ⟨_, -, h⟩ := bind_eq_ok.1 h
      obtain ⟨rhos, h2, h⟩ := bind_eq_ok.1 h
      obtain ⟨ts', h3, h⟩ := bind_eq_ok.1 h
      split at h
      · cases h
      · next hany =>
        obtain ⟨i, t, e1, e2, e3⟩ := get h1 a ha
        obtain ⟨rho, e4, -⟩ := at_ h2 i a e1
        obtain ⟨t', e5, e6⟩ := at_ h3 i (t, rho) (by simp [List.getElem?_zip_eq_some, e2, e4])
        have hl := loadPimcData_lists e3
        have hl' := (scaleAll_ok (by rw [hl]; exact hnd a ha) e6).1
        refine hany (List.any_eq_true.2 ⟨t', List.mem_of_getElem? e5, ?_⟩)
        rw [hl', hl]
        simp [hX, hT]
  · cases h : loadRectangle B k all with
    | error e => exact ⟨e, rfl⟩
    | ok out =>
      exfalso
      unfold loadRectangle at h
      obtain ⟨ts, h1, h⟩ := bind_eq_ok.1 h
      obtain ⟨cs, -, h⟩ := bind_eq_ok.1 h
      obtain ⟨_, -, h⟩ := bind_eq_ok.1 h
      obtain ⟨_, -, h⟩ := bind_eq_ok.1 h
      obtain ⟨rhos, h2, h⟩ := bind_eq_ok.1 h
      obtain ⟨i, t, e1, e2, e3⟩ := get h1 a ha
      obtain ⟨rho, e4, -⟩ := at_ h2 i a e1
      obtain ⟨t', e5, e6⟩ := at_ h i (t, rho) (by simp [List.getElem?_zip_eq_some, e2, e4])
      have hl := loadPimcData_lists e3
      match hTs : t.lists.T with
      | [] => rw [hl] at hTs; exact hT hTs
      | T :: Ts =>
        simp only [hTs] at e6
        obtain ⟨_, -, e6⟩ := bind_eq_ok.1 e6
        cases e6

/-! ### a concrete case -/

/-- Results in the directory `r/`. -/
def demoFS : FS := { initFS c!"r/" c!"/r/" 0 0 with pathRhoResults := c!"r/results/" }

/-- A file as the statistics write it. -/
def demoThermo (hv hr : Str) (z : ℝ) : ThermoDict ℝ :=
  [(c!"Z", .num (some z)), (c!"Z error", .num (some 1)), (c!"E", .num none), (c!"hash_vib", .text hv),
   (c!"hash_rho", .text hr)]

open Classical in
/-- Two current results with 12 and 24 beads at 300 K, and a stale one with 48 beads. -/
noncomputable def demoDisk : Disk ℝ where
  listing := [thermoFile demoFS 24 30000 100, thermoFile demoFS 12 30000 100,
    thermoFile demoFS 48 30000 100]
  thermo p :=
    if p = thermoFile demoFS 12 30000 100 then some (demoThermo c!"h" c!"h" 2)
    else if p = thermoFile demoFS 24 30000 100 then some (demoThermo c!"h" c!"h" 3)
    else if p = thermoFile demoFS 48 30000 100 then some (demoThermo c!"old" c!"h" 4) else none
  results _ := .dict fun _ => some (.entry fun _ => some 5)

theorem demo_tidy : Tidy demoFS demoDisk where
  noStar := by decide
  noP := by decide
  noT := by decide
  noX := by decide
  names := by
    intro p hp _ _
    simp only [demoDisk, List.mem_cons, List.not_mem_nil, or_false] at hp
    rcases hp with rfl | rfl | rfl <;> exact ⟨_, _, _, rfl⟩
  keys := by
    intro p d h
    simp only [demoDisk] at h
    split at h
    · cases h; decide
    · split at h
      · cases h; decide
      · split at h
        · cases h; decide
        · cases h

theorem demo_current (P T X : Nat) (d : ThermoDict ℝ) :
    CurrentFile demoFS demoDisk c!"h" c!"h" P T X d ↔
      (P = 12 ∧ T = 30000 ∧ X = 100 ∧ d = demoThermo c!"h" c!"h" 2) ∨
      (P = 24 ∧ T = 30000 ∧ X = 100 ∧ d = demoThermo c!"h" c!"h" 3) := by
  have hinj : ∀ P T X P' T' X', thermoFile demoFS P T X = thermoFile demoFS P' T' X' ↔
      P = P' ∧ T = T' ∧ X = X' := fun P T X P' T' X' =>
    ⟨fun h => C13_thermo_injective _ h, by rintro ⟨rfl, rfl, rfl⟩; rfl⟩
  simp only [CurrentFile, demoDisk, List.mem_cons, List.not_mem_nil, or_false, hinj]
  constructor
  · rintro ⟨h | h | h, hd, hh⟩
    · obtain ⟨rfl, rfl, rfl⟩ := h
      simp at hd
      exact .inr ⟨rfl, rfl, rfl, hd.symm⟩
    · obtain ⟨rfl, rfl, rfl⟩ := h
      simp at hd
      exact .inl ⟨rfl, rfl, rfl, hd.symm⟩
    · obtain ⟨rfl, rfl, rfl⟩ := h
      simp at hd
      subst hd
      simp [HasHashes, demoThermo] at hh
  · rintro (⟨rfl, rfl, rfl, rfl⟩ | ⟨rfl, rfl, rfl, rfl⟩) <;> simp [HasHashes, demoThermo]

/-- The demonstration directory is loaded: two numbers of beads, one temperature, one number of
samples. -/
theorem demo_loaded (skip : Bool) : ∃ paths l t,
    initOne (fun _ => c!"h") ⟨[], fun _ => some c!"{}"⟩ demoDisk demoFS =
      .ok ({ demoFS with hashVib := some c!"h", hashRho := some c!"h" }, paths, l) ∧
    loadPimcData skip demoDisk l paths = .ok t ∧ l.P = [12, 24] ∧ l.T = [30000] ∧ l.X = [100] := by
  obtain ⟨paths, l, t, h1, h2⟩ := C80_succeeds (hash := fun _ => c!"h")
    (texts := ⟨[], fun _ => some c!"{}"⟩) (tv := c!"{}") (tr := c!"{}") (.inl rfl) demo_tidy rfl rfl (by
      intro p hp _ _
      simp only [demoDisk, List.mem_cons, List.not_mem_nil, or_false] at hp ⊢
      rcases hp with rfl | rfl | rfl
      · split
        · exact ⟨_, rfl⟩
        · simp
      · simp
      · split
        · exact ⟨_, rfl⟩
        · split
          · exact ⟨_, rfl⟩
          · simp) (by
      intro P T X d hc
      rcases (demo_current P T X d).1 hc with ⟨-, -, -, rfl⟩ | ⟨-, -, -, rfl⟩ <;>
        simp [WellFormed, demoThermo]) skip
  obtain ⟨tv, tr, -, -, ⟨sP, sT, sX⟩, mP, mT, mX⟩ := C80_lists (.inl rfl) demo_tidy h1
  refine ⟨paths, l, t, h1, h2, strict_ext sP (by simp) fun n => ?_, strict_ext sT (by simp) fun n => ?_,
    strict_ext sX (by simp) fun n => ?_⟩
  · rw [mP]
    constructor
    · rintro ⟨T, X, d, hc⟩
      rcases (demo_current n T X d).1 hc with ⟨rfl, -⟩ | ⟨rfl, -⟩ <;> simp
    · intro h
      simp only [List.mem_cons, List.not_mem_nil, or_false] at h
      rcases h with rfl | rfl
      · exact ⟨30000, 100, _, (demo_current _ _ _ _).2 (.inl ⟨rfl, rfl, rfl, rfl⟩)⟩
      · exact ⟨30000, 100, _, (demo_current _ _ _ _).2 (.inr ⟨rfl, rfl, rfl, rfl⟩)⟩
  · rw [mT]
    constructor
    · rintro ⟨P, X, d, hc⟩
      rcases (demo_current P n X d).1 hc with ⟨-, rfl, -⟩ | ⟨-, rfl, -⟩ <;> simp
    · intro h
      simp only [List.mem_cons, List.not_mem_nil, or_false] at h
      subst h
      exact ⟨12, 100, _, (demo_current _ _ _ _).2 (.inl ⟨rfl, rfl, rfl, rfl⟩)⟩
  · rw [mX]
    constructor
    · rintro ⟨P, T, d, hc⟩
      rcases (demo_current P T n d).1 hc with ⟨-, -, rfl, -⟩ | ⟨-, -, rfl, -⟩ <;> simp
    · intro h
      simp only [List.mem_cons, List.not_mem_nil, or_false] at h
      subst h
      exact ⟨12, 30000, _, (demo_current _ _ _ _).2 (.inl ⟨rfl, rfl, rfl, rfl⟩)⟩

theorem demo_holds (p : Str) (T : Nat) (key : Str) : Holds (demoDisk.results p) T key 5 :=
  ⟨_, fun _ => some 5, rfl, rfl, rfl⟩

/-- The hypotheses of C80, C81 and C83 can be met: two results are plotted, and the figure shows that
with 24 beads the deviation is 200 percent. -/
example : ∃ s' paths l r fig, initOne (fun _ => c!"h") ⟨[], fun _ => some c!"{}"⟩ demoDisk demoFS =
      .ok (s', paths, l) ∧ loadOriginal demoDisk s' paths l = .ok r ∧
    drawOriginal (.ok (3, 2)) s' r = .ok fig ∧ l.P = [12, 24] ∧ l.T = [30000] ∧
    ∃ c ∈ fig.curves, c.T = 30000 ∧ ShowsPoint c (Constants.beta ((30000 : ℕ) / 100) / (24 : ℕ))
      (some 200) (some 100) := by
  obtain ⟨paths, l, t, h1, h2, hP, hT, hX⟩ := demo_loaded false
  obtain ⟨r, hr⟩ := C81_succeeds (s := { demoFS with hashVib := some c!"h", hashRho := some c!"h" }) h2
    ⟨_, rfl⟩ ⟨_, rfl⟩ (fun T _ => ⟨5, demo_holds _ _ _⟩) (fun T _ => ⟨5, demo_holds _ _ _⟩)
  obtain ⟨fig, hfig⟩ := C83_original_succeeds hr (by rw [hT]; rfl) (3, 2)
  obtain ⟨-, tv', tr', -, -, hpts⟩ := C83_original_shows_every_result (.inl rfl) demo_tidy h1 hr hfig
  obtain ⟨zr, zc, h3, h4, c, hc, e1, -, e3⟩ := hpts 24 30000 100 _ 3 1
    ((demo_current _ _ _ _).2 (.inr ⟨rfl, rfl, rfl, rfl⟩)) (by simp [demoThermo]) (by simp [demoThermo])
  obtain ⟨_, _, a1, a2, a3⟩ := h3
  obtain ⟨_, _, b1, b2, b3⟩ := h4
  cases a1; cases a2; cases a3
  cases b1; cases b2; cases b3
  refine ⟨_, paths, l, r, fig, h1, hr, hfig, hP, hT, c, hc, e1, ?_⟩
  convert e3 using 2
  · norm_num [percentOff]
  · norm_num

/-- The comparison of the demonstration directory with itself is drawn, and shows the same point. -/
example : ∃ s' paths l r fig, initOne (fun _ => c!"h") ⟨[], fun _ => some c!"{}"⟩ demoDisk demoFS =
      .ok (s', paths, l) ∧ loadVersus demoDisk s' paths l = .ok r ∧
    drawVersus (.ok (3, 2)) s' s' r r = .ok fig ∧ fig.inset = none ∧
    ∃ c ∈ fig.curves, c.T = 30000 ∧ ShowsPoint c (Constants.beta ((30000 : ℕ) / 100) / (24 : ℕ))
      (some 200) (some 100) := by
  obtain ⟨paths, l, t, h1, h2, hP, hT, hX⟩ := demo_loaded true
  obtain ⟨r, hr⟩ := C81_versus_succeeds (s := { demoFS with hashVib := some c!"h", hashRho := some c!"h" })
    h2 ⟨_, rfl⟩ ⟨_, rfl⟩ (fun T _ => ⟨5, demo_holds _ _ _⟩) (fun T _ => ⟨5, demo_holds _ _ _⟩)
  obtain ⟨fig, hfig⟩ := C83_versus_succeeds hr hr hT hT (by simp [hX]) (by simp [hX]) (by simp [hX])
    (by simp [hX]) (by decide) (by decide) (.inl (by decide)) (3, 2)
  have hi := (C83_versus_name_and_inset hfig).2.2.1 (by decide)
  obtain ⟨tv', tr', -, -, hpts⟩ := C83_versus_shows_results_partial (ss := fun _ => demoFS)
    (ss' := fun _ => { demoFS with hashVib := some c!"h", hashRho := some c!"h" }) (paths := fun _ => paths)
    (l := fun _ => l) (r := fun _ => r) (fun _ => .inl rfl) (fun _ => demo_tidy) (fun _ => h1)
    (fun _ => hr) hfig 0
  obtain ⟨zr, zc, h3, h4, c, hc, e1, -, e3⟩ := hpts 24 30000 100 _ 3 1
    ((demo_current _ _ _ _).2 (.inr ⟨rfl, rfl, rfl, rfl⟩)) (by
      intro P' T' X' d' hc
      rcases (demo_current _ _ _ _).1 hc with ⟨-, -, rfl, -⟩ | ⟨-, -, rfl, -⟩ <;> exact le_refl _)
    (by simp [demoThermo]) (by simp [demoThermo])
  obtain ⟨_, _, a1, a2, a3⟩ := h3
  obtain ⟨_, _, b1, b2, b3⟩ := h4
  cases a1; cases a2; cases a3
  cases b1; cases b2; cases b3
  refine ⟨_, paths, l, r, fig, h1, hr, hfig, hi, c, hc, e1, ?_⟩
  convert e3 using 2
  · norm_num [percentOff]
  · norm_num

/-- The raw results of the demonstration directory are drawn for the partition function. -/
example : ∃ s' paths l t fig, initOne (fun _ => c!"h") ⟨[], fun _ => some c!"{}"⟩ demoDisk demoFS =
      .ok (s', paths, l) ∧ loadPimcData false demoDisk l paths = .ok t ∧
    drawTest s' t c!"Z" true = .ok fig ∧ fig ∈ (plotTest s' t).1 ∧
    ∃ c ∈ fig.curves, c.T = 30000 ∧ ShowsPoint c (Constants.beta ((30000 : ℕ) / 100) / (12 : ℕ))
      (some 2) (some 1) := by
  obtain ⟨paths, l, t, h1, h2, hP, hT, hX⟩ := demo_loaded false
  obtain ⟨z, en, -, hz, -⟩ := C83_plot_test_refuted
    { demoFS with hashVib := some c!"h", hashRho := some c!"h" } t
    (by rw [loadPimcData_lists h2, hT]; rfl)
  obtain ⟨-, tv', tr', -, -, hpts, -⟩ := C83_test_shows_every_result_partial (.inl rfl) demo_tidy h1 h2
    (f := c!"Z") (by simp) hz
  obtain ⟨c, hc, e1, -, e3⟩ := hpts 12 30000 100 _ (some 2) (some 1)
    ((demo_current _ _ _ _).2 (.inl ⟨rfl, rfl, rfl, rfl⟩)) (by simp [demoThermo]) (by simp [demoThermo])
  exact ⟨_, paths, l, t, z, h1, h2, hz, (C83_plot_test_keeps _ _ _ hz).1, c, hc, e1, e3⟩

/-! ### C84 -/

section
variable {K : Type}

/-- C84: when every file with sum over states results exists, each object gets the results of its own
file at its own temperatures. -/
theorem C84_sos_partial {data : Option (ADict K)} {cs : List (Contents K × Lists)} {out : List (ADict K)}
    (hex : ∀ c ∈ cs, c.1 ≠ .absent) (h : loadSos data cs = .ok out) (i : Nat) (c : Contents K) (l : Lists)
    (hi : cs[i]? = some (c, l)) : ∃ o, out[i]? = some o ∧ ∀ T ∈ l.T, ∀ key z,
      getEntry o T key = .ok z ↔ Holds c T key z := by
  induction cs generalizing data out i with
  | nil => simp at hi
  | cons p cs ih =>
    obtain ⟨c0, l0⟩ := p
    unfold loadSos at h
    obtain ⟨data', h1, h⟩ := bind_eq_ok.1 h
    obtain ⟨o, h2, h⟩ := bind_eq_ok.1 h
    obtain ⟨os, h3, h⟩ := bind_eq_ok.1 h
    cases h
    cases i with
    | zero =>
      cases hi
      refine ⟨o, rfl, fun T hT key z => ?_⟩
      have hc := hex (c, l) (by simp)
      refine getEntry_loaded (l := l) ?_ hT key z
      unfold loadAnalytical
      cases c with
      | absent => exact absurd rfl hc
      | short => cases h1
      | broken => cases h1
      | dict d => cases h1; exact bind_eq_ok.2 ⟨d, rfl, h2⟩
    | succ i => exact ih (fun c hc => hex c (by simp [hc])) h3 i hi

/-- C84, refuted: when the file of the second object is missing, it gets the results of the first. -/
theorem C84_sos_missing_refuted (d : ADict K) (l l' : Lists)
    (h1 : ∀ T ∈ l.T, d (tempStr T) ≠ none) (h2 : ∀ T ∈ l'.T, d (tempStr T) ≠ none) :
    ∃ o o', loadSos none [(.dict d, l), (.absent, l')] = .ok [o, o'] ∧
      ∀ T ∈ l'.T, ∀ key z, getEntry o' T key = .ok z ↔ Holds (.dict d) T key z := by
  obtain ⟨o, ho⟩ := pick_isOk h1 (fun _ => none)
  obtain ⟨o', ho'⟩ := pick_isOk h2 (fun _ => none)
  refine ⟨o, o', ?_, fun T hT key z => getEntry_loaded (l := l')
    (bind_eq_ok.2 ⟨d, rfl, ho'⟩) hT key z⟩
  simp only [loadSos, sosData, sosEntry, parse, Except.map, bind, Except.bind, ho, ho']

/-- C84, refuted: when the file of the first object is missing, the program stops. -/
theorem C84_sos_first_missing_refuted (l : Lists) (rest : List (Contents K × Lists)) (h : l.T ≠ []) :
    loadSos none ((.absent, l) :: rest) = .error .unbound := by
  match hT : l.T, h with
  | T :: Ts, _ => simp [loadSos, sosData, sosEntry, bind, Except.bind, hT]

/-- C84: loading the Trotter results never fails (the names of the files can be formatted), and for
every temperature, quantity and bead number it gives the stored number, and NaN exactly when the file
does not hold it. -/
theorem C84_trotter (s : FS) (k : Disk K) (l : Lists) (B : Nat) (path : Nat → Str)
    (hpath : ∀ P ∈ l.P, (Analytic.Method.trotter P B).dst s = .ok (path P)) :
    ∃ out, loadTrotter s k l B = .ok out ∧ out.length = l.T.length ∧
      ∀ (i T : Nat), l.T[i]? = some T → ∃ row, out[i]? = some (tempStr T, row) ∧
        row.map Prod.fst = [c!"Z_trotter", c!"E_trotter", c!"SvN_trotter", c!"S2_trotter"] ∧ ∀ key vals, (key, vals) ∈ row → vals.length = l.P.length ∧
          ∀ (j P : Nat), l.P[j]? = some P → ∃ v, vals[j]? = some v ∧
            ∀ z, v = some z ↔ Holds (k.results (path P)) T key z := by
  have hps : l.P.mapM (fun P => (Analytic.Method.trotter P B).dst s) = .ok (l.P.map path) := by
    have : ∀ (Ps : List Nat), (∀ P ∈ Ps, (Analytic.Method.trotter P B).dst s = .ok (path P)) →
        Ps.mapM (fun P => (Analytic.Method.trotter P B).dst s) = .ok (Ps.map path) := by
      intro Ps
      induction Ps with
      | nil => intro _; rfl
      | cons P Ps ih =>
        intro h
        rw [List.mapM_cons, h P (by simp), ih fun Q hQ => h Q (by simp [hQ])]
        rfl
    exact this _ hpath
  have hval : ∀ p T key z, trotterValue k p T key = some z ↔ Holds (k.results p) T key z := by
    intro p T key z
    unfold trotterValue Holds
    cases k.results p with
    | absent => simp [parse]
    | short => simp [parse]
    | broken => simp [parse]
    | dict d =>
      simp only [parse]
      cases hd : d (tempStr T) with
      | none => simp [hd]
      | some v => cases v <;> simp [hd]
  refine ⟨l.T.map fun T => (tempStr T, trotterKeys.map fun key =>
    (key, (l.P.map path).map fun p => trotterValue k p T key)), ?_, by simp, ?_⟩
  · unfold loadTrotter
    rw [hps]
    have : ∀ (Ts : List Nat) (g : Nat → Str × List (Str × List (Option K))),
        Ts.mapM (fun T => (do
          let paths ← (.ok (l.P.map path) : Except Err (List Str))
          .ok (tempStr T, trotterKeys.map fun key => (key, paths.map fun p => trotterValue k p T key)))
            ) = .ok (Ts.map fun T => (tempStr T, trotterKeys.map fun key =>
              (key, (l.P.map path).map fun p => trotterValue k p T key))) := by
      intro Ts g
      induction Ts with
      | nil => rfl
      | cons T Ts ih => rw [List.mapM_cons, ih]; rfl
    exact this _ fun T => (tempStr T, [])
  · intro i T hi
    refine ⟨_, by rw [List.getElem?_map, hi]; rfl, by rw [List.map_map]; exact List.map_id _,
      fun key vals hm => ?_⟩
    obtain ⟨key', -, e⟩ := List.mem_map.1 hm
    cases e
    refine ⟨by simp, fun j P hj => ⟨_, by rw [List.getElem?_map, List.getElem?_map, hj]; rfl,
      fun z => hval _ _ _ _⟩⟩

end
end Pibronic.Props.Plotting
