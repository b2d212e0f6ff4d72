import Verif.Model.Analysis
import Verif.Props.Results
import Verif.Props.Postprocessing
import Verif.Props.FileStructure
import Mathlib.Data.List.Perm.Subperm

set_option autoImplicit false

/-! Properties C28 and C29: the analysis of all results of a directory. -/
namespace Pibronic.Props.Analysis
open Pibronic.Py Pibronic.FileName Pibronic.Postprocessing
open Pibronic.FileStructure hiding Disk Disk.isDir Disk.makedirs
open Pibronic.Analysis Pibronic.Props.Postprocessing Pibronic.Props.Results
open Pibronic.Props.FileStructure
open Pibronic.Results (Cls ResultFile)
open Pibronic.Spec.Results (Usable WellFormed ListsUsable total numberAt rhoAt gAt gPAt gMAt)

/-! ### Specification -/

/-- The object's templates point into the results directory `dir`, whose path has none of the
characters with a special meaning for `format` and `glob`, and none of the separators of the
file names. -/
structure ResultsDir (s : FS) (dir : Str) : Prop where
  path : s.pathRhoResults = dir
  pimc : s.templatePimc = dir ++ pimc fieldP fieldT c!"{J:s}"
  jackknife : s.templateJackknife = dir ++ jackknife fieldP fieldT fieldX
  brace : '{' ∉ dir
  brace' : '}' ∉ dir
  star : '*' ∉ dir
  noP : 'P' ∉ dir
  noT : ¬ c!"_T" <:+: dir
  analytic : c!".json" <:+ s.pathAnalyticRho

/-- There is a result file for this number of beads and this temperature. -/
def HasData (d : Disk) (dir : Str) (P T : Nat) : Prop := ∃ J, pimcPath dir P T J ∈ d.listing

/-- All files that look like result files were named after beads, temperature and job. -/
def OnlyJobs (d : Disk) (dir : Str) : Prop :=
  ∀ p ∈ d.listing, (∃ P T J : Str, ('/' ∉ P ∧ '/' ∉ T ∧ '/' ∉ J) ∧ p = dir ++ pimc P T J) →
    ∃ P T J : Nat, p = pimcPath dir P T J

/-- The result files can be read, the usable ones are well formed and have no zero denominator, and
each pair that has files has a usable one. -/
structure Readable (d : Disk) (dir : Str) : Prop where
  nodup : d.listing.Nodup
  only : OnlyJobs d dir
  files : ∀ P T J, pimcPath dir P T J ∈ d.listing →
    ∃ f, d.files (pimcPath dir P T J) = some (.npz f) ∧ (Usable .pm f → WellFormed f ∧
      ∀ a, f.rho = some a → some 0 ∉ a)
  usable : ∀ P T, HasData d dir P T → ∃ J f, pimcPath dir P T J ∈ d.listing ∧
    d.files (pimcPath dir P T J) = some (.npz f) ∧ Usable .pm f

/-- Every number of beads that occurs was run at every temperature that occurs. -/
def CompleteGrid (d : Disk) (dir : Str) : Prop :=
  ∀ P T P' T', HasData d dir P T' → HasData d dir P' T → HasData d dir P T

/-- `order` lists the usable result files of the pair, each once. -/
def FilesOfPair (d : Disk) (dir : Str) (P T : Nat) (order : List Str) : Prop :=
  order.Nodup ∧ ∀ p, p ∈ order ↔ p ∈ d.listing ∧ (∃ J, p = pimcPath dir P T J) ∧
    ∃ f, d.files p = some (.npz f) ∧ Usable .pm f

/-- The four analyses of C22 to C27 by the caller's choice. -/
noncomputable def expected (jackknife alpha : Bool) (T : ℝ) {X : ℕ} (d : Stats.Samples X)
    (an : Stats.Analytic) : Stat :=
  match jackknife, alpha with
  | false, false => .plain (Stats.basicStatisticalAnalysis T d an)
  | false, true => .plain (Stats.alphaStatisticalAnalysis T d an)
  | true, false => .jackknife (Stats.basicJackknifeAnalysis T d an)
  | true, true => .jackknife (Stats.alphaJackknifeAnalysis T d an)

/-- The caller's literal for the method. -/
def methodName (alpha : Bool) : PyStr := ⟨if alpha then c!"alpha" else c!"basic", true⟩

/-- `t` is the thermo file of the pair: `X` is the number of all its samples, the hashes are the
given ones, and if no sample is NaN the values are the analysis of all samples of all usable files of
the pair (each file once, all arrays in the same order). -/
def IsThermoOf (d : Disk) (dir : Str) (hv hr : Str) (jackknife alpha : Bool) (an : Stats.Analytic)
    (P T X : Nat) (t : Thermo) : Prop :=
  t.hashVib = hv ∧ t.hashRho = hr ∧
  ∃ order, FilesOfPair d dir P T order ∧ X = (order.map (numberAt d.npz)).sum ∧
    ∀ r g p m : List ℝ,
      order.flatMap (rhoAt d.npz) = r.map some → order.flatMap (gAt d.npz) = g.map some →
      order.flatMap (gPAt d.npz) = p.map some → order.flatMap (gMAt d.npz) = m.map some →
      t.values = some (expected jackknife alpha (T / 100)
        (⟨fun i => r.getD i 0, fun i => g.getD i 0, fun i => p.getD i 0, fun i => m.getD i 0⟩ :
          Stats.Samples X) an)

/-! ### Loading depends only on the files that are loaded -/

section
variable {V : Type} [Zero V] [DecidableEq V]

omit [Zero V] [DecidableEq V] in
theorem scan_congr {d d' : Results.Disk V} (cls : Cls) (paths : List Str)
    (h : ∀ p ∈ paths, d p = d' p) :
    Results.scanLoop d cls paths = Results.scanLoop d' cls paths := by
  induction paths with
  | nil => rfl
  | cons p ps ih =>
    simp only [Results.scanLoop]
    rw [h p (by simp), ih fun q hq => h q (List.mem_cons_of_mem _ hq)]

theorem copy_congr {d d' : Results.Disk V} (desired : Nat) (paths : List Str)
    (h : ∀ p ∈ paths, d p = d' p) (start : Nat) (b : Results.Box V) :
    Results.copyLoop d desired paths start b = Results.copyLoop d' desired paths start b := by
  induction paths generalizing start b with
  | nil => rfl
  | cons p ps ih =>
    have ih := ih fun q hq => h q (List.mem_cons_of_mem _ hq)
    simp only [Results.copyLoop, h p (by simp), ih]

theorem load_congr {d d' : Results.Disk V} (setOrder : List Str → List Str)
    (hperm : ∀ l, (setOrder l).Perm l) (b : Results.Box V) (paths : List Str)
    (desired : Option Nat) (h : ∀ p ∈ paths, d p = d' p) :
    Results.loadMultiple setOrder d b paths desired =
      Results.loadMultiple setOrder d' b paths desired := by
  simp only [Results.loadMultiple, scan_congr b.cls paths h]
  split
  · rfl
  · cases hsc : Results.scanLoop d' b.cls paths with
    | error e => rfl
    | ok r =>
      simp only [bind, Except.bind]
      rw [copy_congr]
      intro p hp
      apply h
      have := ((hperm _).mem_iff).1 hp
      exact List.mem_dedup.1 (List.mem_of_mem_filter this)
end

/-! ### One task -/

theorem numbers_map (l : List ℝ) : numbers (l.map some) = some l := by
  induction l with
  | nil => rfl
  | cons a l ih =>
    have : numbers (some a :: l.map some) = some (a :: l) := by
      simp only [numbers, List.mapM_cons] at ih ⊢
      rw [ih]; rfl
    simpa using this

theorem expected_eq (jackknife alpha : Bool) :
    ∃ op, chooseOp jackknife (methodName alpha) = some op ∧
      ∀ (T : ℝ) (X : ℕ) (d : Stats.Samples X) (an : Stats.Analytic),
        op.run T d an = expected jackknife alpha T d an := by
  cases jackknife <;> cases alpha
  · exact ⟨.basic, by decide, fun _ _ _ _ => rfl⟩
  · exact ⟨.alpha, by decide, fun _ _ _ _ => rfl⟩
  · exact ⟨.basicJackknife, by decide, fun _ _ _ _ => rfl⟩
  · exact ⟨.alphaJackknife, by decide, fun _ _ _ _ => rfl⟩

/-- The path that is written. -/
theorem thermo_path {s : FS} {dir : Str} (h : ResultsDir s dir) (P T X : Nat) :
    format (thermoArgs P T X) s.templateJackknife = .ok (thermoPath dir P T X) := by
  rw [h.jackknife, format_literal _ _ _ h.brace h.brace']
  have e : jackknife fieldP fieldT fieldX = c!"P" ++ ('{' :: (c!"P" ++ ':' :: c!"d" ++ '}' :: (c!"_T"
      ++ ('{' :: (c!"T" ++ ':' :: c!".2f" ++ '}' :: (c!"_X" ++ ('{' :: (c!"X" ++ ':' :: c!"d" ++
      '}' :: c!"_thermo")))))))) := rfl
  rw [e, format_literal _ _ _ (by decide) (by decide),
    format_field _ c!"P" c!"d" _ (.int P) (natStr P) (by decide) (by decide) (by decide) rfl rfl,
    format_literal _ _ _ (by decide) (by decide),
    format_field _ c!"T" c!".2f" _ (.float T) (tempStr T) (by decide) (by decide) (by decide)
      (by simp [thermoArgs]) rfl,
    format_literal _ _ _ (by decide) (by decide),
    format_field _ c!"X" c!"d" _ (.int X) (natStr X) (by decide) (by decide) (by decide)
      (by simp [thermoArgs]) rfl]
  have hl : format (thermoArgs P T X) c!"_thermo" = .ok c!"_thermo" := by
    have := format_literal (thermoArgs P T X) c!"_thermo" [] (by decide) (by decide)
    rw [format_nil] at this
    simpa [Except.map] using this
  rw [hl]
  simp [Except.map, thermoPath, jackknife]

/-- The files loaded for a pair. -/
theorem files_of_pair {s : FS} {dir : Str} (h : ResultsDir s dir) {d : Disk} (hr : Readable d dir)
    (P T : Nat) : ∃ files, pimcFilesFor s d.listing P T = .ok files ∧ files.Nodup ∧
      ∀ p, p ∈ files ↔ p ∈ d.listing ∧ ∃ J, p = pimcPath dir P T J := by
  obtain ⟨files, hf, hm⟩ := C17_selected_files s dir h.pimc h.brace h.brace' h.star d.listing P T
  obtain ⟨files2, hf2, hm2⟩ := C17_selects_exactly s dir h.pimc h.brace h.brace' h.star d.listing P T
  rw [hf] at hf2; cases hf2
  refine ⟨files, hf, ?_, fun p => ⟨fun hp => ?_, ?_⟩⟩
  · simp only [pimcFilesFor, bind, Except.bind, pattern_eq s dir h.pimc h.brace h.brace',
      Except.ok.injEq] at hf
    rw [← hf, glob]
    exact hr.nodup.filter _
  · obtain ⟨hl, J, hJ, rfl⟩ := (hm p).1 hp
    refine ⟨hl, ?_⟩
    obtain ⟨P', T', J', e⟩ := hr.only _ hl ⟨natStr P, tempStr T, J,
      ⟨notMem_natStr (by decide) _, notMem_tempStr (by decide) (by decide) _, hJ⟩, rfl⟩
    rw [e] at hl hp ⊢
    obtain ⟨rfl, rfl⟩ := (hm2 P' T' J' hl).1 hp
    exact ⟨J', rfl⟩
  · rintro ⟨hl, J, rfl⟩
    exact (hm2 P T J hl).2 ⟨rfl, rfl⟩

theorem npz_eq {d : Disk} {p : Str} {f : ResultFile ℝ} :
    d.npz p = some f ↔ d.files p = some (.npz f) := by
  unfold Disk.npz
  split <;> simp_all

/-- What one task computes if its inputs are in order. -/
theorem analyse_ok (setOrder : List Str → List Str) (hperm : ∀ l, (setOrder l).Perm l) {s : FS}
    {dir : Str} (h : ResultsDir s dir) {d : Disk} (hr : Readable d dir) (jackknife alpha : Bool)
    {op : Op} (hop : ∀ (T : ℝ) (X : ℕ) (d : Stats.Samples X) (an : Stats.Analytic),
        op.run T d an = expected jackknife alpha T d an)
    {P T : Nat} (hd : HasData d dir P T) {hv hrho : Str} (h1 : s.hashVib = some hv)
    (h2 : s.hashRho = some hrho) {an : Analytic.AnalyticData ℝ}
    (han : Analytic.loadAnalytic ⟨hv, hrho⟩ T (d.analytic s.pathAnalyticRho) = .ok an) :
    ∃ X t, analyse setOrder s op d P T = .ok (thermoPath dir P T X, t) ∧
      IsThermoOf d dir hv hrho jackknife alpha ⟨an.E, an.Cv, an.alphaPlus, an.alphaMinus⟩
        P T X t := by
  obtain ⟨files, hf, hnd, hm⟩ := files_of_pair h hr P T
  have hfo : FilesOk d.npz .pm files := by
    intro p hp
    obtain ⟨hl, J, rfl⟩ := (hm p).1 hp
    obtain ⟨f, e, h3⟩ := hr.files P T J hl
    exact ⟨f, npz_eq.2 e, fun hu => (h3 hu).1⟩
  have hu : ∃ p ∈ files, ∃ f, d.npz p = some f ∧ Usable .pm f := by
    obtain ⟨J, f, hl, e, h3⟩ := hr.usable P T hd
    exact ⟨_, (hm _).2 ⟨hl, J, rfl⟩, f, npz_eq.2 e, h3⟩
  have hz : NoZeros d.npz .pm files := by
    intro p hp f e hus a ha
    obtain ⟨hl, J, rfl⟩ := (hm p).1 hp
    obtain ⟨f', e', h3⟩ := hr.files P T J hl
    rw [npz_eq] at e
    rw [e] at e'; cases e'
    exact (h3 hus).2 a ha
  obtain ⟨order, hl, b', e, m, hb⟩ := load_all setOrder hperm d.npz
    (Results.init .pm none none) files hnd hfo hu hz
  have hs := sized_all hfo hl
  obtain ⟨q1, q2, q3⟩ := hb
  obtain ⟨q3, q4⟩ := q3 (m.cls.trans rfl)
  have l1 := length_flatMap_of d.npz (rhoAt d.npz) order fun p hp => (hs p hp).rho
  have l2 := length_flatMap_of d.npz (gAt d.npz) order fun p hp => (hs p hp).g
  have l3 := length_flatMap_of d.npz (gPAt d.npz) order fun p hp => (hs p hp).gP rfl
  have l4 := length_flatMap_of d.npz (gMAt d.npz) order fun p hp => (hs p hp).gM rfl
  rw [List.take_of_length_le l1.le] at q1
  rw [List.take_of_length_le l2.le] at q2
  rw [List.take_of_length_le l3.le] at q3
  rw [List.take_of_length_le l4.le] at q4
  have hsam : b'.samples = .np (total d.npz order) := m.samples
  refine ⟨total d.npz order, ⟨hv, hrho, statsOf op (T / 100) (total d.npz order)
    (order.flatMap (rhoAt d.npz)) (order.flatMap (gAt d.npz)) (order.flatMap (gPAt d.npz))
    (order.flatMap (gMAt d.npz)) ⟨an.E, an.Cv, an.alphaPlus, an.alphaMinus⟩⟩, ?_, rfl, rfl, order,
    ⟨hl.1, fun p => ?_⟩, rfl, ?_⟩
  · simp only [analyse, bind, Except.bind, hf, e, h1, h2, han, hsam, Results.Count.isZeroLit,
      Results.Count.val, thermo_path h, q1, q2, q3, q4]
    simp
  · rw [hl.2 p, hm p]
    simp only [npz_eq, and_assoc]
    rfl
  · intro r g p m e1 e2 e3 e4
    rw [e1, List.length_map] at l1
    rw [e2, List.length_map] at l2
    rw [e3, List.length_map] at l3
    rw [e4, List.length_map] at l4
    simp only [statsOf, e1, e2, e3, e4, numbers_map, l1, l2, l3, l4, and_self, if_true, hop]
    rfl

/-- Writing a thermo file changes nothing that a task reads. -/
theorem analyse_write (setOrder : List Str → List Str) (hperm : ∀ l, (setOrder l).Perm l) {s : FS}
    {dir : Str} (h : ResultsDir s dir) (op : Op) (d : Disk) (P T P' T' X : Nat) (c : Content) :
    analyse setOrder s op (d.write (thermoPath dir P' T' X) c) P T =
      analyse setOrder s op d P T := by
  obtain ⟨f1, e1, h1⟩ := C17_other_kinds_never_selected s dir h.pimc h.brace h.brace' h.star
    d.listing P T P' T' X
  obtain ⟨f2, e2, h2⟩ := C17_other_kinds_never_selected s dir h.pimc h.brace h.brace' h.star
    (d.write (thermoPath dir P' T' X) c).listing P T P' T' X
  have hff : f2 = f1 := by
    simp only [pimcFilesFor, bind, Except.bind, pattern_eq s dir h.pimc h.brace h.brace',
      Except.ok.injEq] at e1 e2
    rw [← e1, ← e2]
    simp only [Disk.write]
    split
    · rfl
    · next hn =>
      have h3 := h2.1
      rw [← e2] at h3
      simp only [Disk.write, if_neg hn, glob, List.filter_append, List.mem_append,
        List.mem_filter, not_or] at h3
      simp only [glob, List.filter_append]
      have h4 := h3.2
      simp only [List.mem_singleton, true_and, Bool.not_eq_true] at h4
      simp [h4]
  subst hff
  have hne : ∀ p ∈ f2, p ≠ thermoPath dir P' T' X := fun p hp e => h1.1 (e ▸ hp)
  have hnpz : ∀ p ∈ f2, (d.write (thermoPath dir P' T' X) c).npz p = d.npz p := by
    intro p hp
    simp [Disk.npz, Disk.write, hne p hp]
  have hpa : s.pathAnalyticRho ≠ thermoPath dir P' T' X := by
    intro e
    obtain ⟨t, ht⟩ := h.analytic
    rw [← ht] at e
    have := (List.append_inj' (s₁ := t) (t₁ := c!".json") (s₂ := (dir ++ c!"P" ++ natStr P' ++ c!"_T" ++ tempStr T' ++ c!"_X" ++
      natStr X ++ c!"_t")) (t₂ := c!"hermo") (by simpa [thermoPath, jackknife] using e) rfl).2
    revert this; decide
  have han : (d.write (thermoPath dir P' T' X) c).analytic s.pathAnalyticRho =
      d.analytic s.pathAnalyticRho := by
    simp [Disk.analytic, Disk.write, hpa]
  simp only [analyse, bind, Except.bind, e1, e2, han,
    load_congr setOrder hperm (Results.init .pm none none) f2 none hnpz]

/-! ### All tasks -/

/-- After the tasks the thermo files hold what each task computes from the original disk, and
nothing else changed. -/
theorem run_ok (setOrder : List Str → List Str) (hperm : ∀ l, (setOrder l).Perm l) {s : FS}
    {dir : Str} (h : ResultsDir s dir) (op : Op) (X : Nat → Nat → Nat) (t : Nat → Nat → Thermo)
    (ran : List (Nat × Nat)) (d : Disk)
    (ha : ∀ P T, (P, T) ∈ ran →
      analyse setOrder s op d P T = .ok (thermoPath dir P T (X P T), t P T)) :
    (runTasks setOrder s op ran d).2 = none ∧
    (∀ P T, (P, T) ∈ ran → (runTasks setOrder s op ran d).1.files (thermoPath dir P T (X P T)) =
      some (.thermo (t P T)) ∧
      thermoPath dir P T (X P T) ∈ (runTasks setOrder s op ran d).1.listing) ∧
    (∀ p, (∀ P T, (P, T) ∈ ran → p ≠ thermoPath dir P T (X P T)) →
      (runTasks setOrder s op ran d).1.files p = d.files p ∧
      (p ∈ (runTasks setOrder s op ran d).1.listing ↔ p ∈ d.listing)) := by
  induction ran generalizing d with
  | nil => exact ⟨rfl, by simp, fun p _ => ⟨rfl, Iff.rfl⟩⟩
  | cons q rest ih =>
    obtain ⟨P0, T0⟩ := q
    have h0 := ha P0 T0 (by simp)
    have hrun : runTasks setOrder s op ((P0, T0) :: rest) d =
        runTasks setOrder s op rest (d.write (thermoPath dir P0 T0 (X P0 T0)) (.thermo (t P0 T0))) := by
      simp only [runTasks, starmapWrapper, bind, Except.bind, h0]
    obtain ⟨i1, i2, i3⟩ := ih (d.write (thermoPath dir P0 T0 (X P0 T0)) (.thermo (t P0 T0)))
      (fun P T hm => by
        rw [analyse_write setOrder hperm h]
        exact ha P T (List.mem_cons_of_mem _ hm))
    rw [hrun]
    refine ⟨i1, fun P T hm => ?_, fun p hp => ?_⟩
    · by_cases hr : (P, T) ∈ rest
      · exact i2 P T hr
      · have : (P, T) = (P0, T0) := by
          rcases List.mem_cons.1 hm with h | h
          · exact h
          · exact absurd h hr
        cases this
        have hi := i3 (thermoPath dir P0 T0 (X P0 T0)) fun P' T' hm' e => hr (by
          obtain ⟨rfl, rfl, _⟩ := C13_thermo_injective dir e
          exact hm')
        rw [hi.1, hi.2]
        constructor
        · simp [Disk.write]
        · simp only [Disk.write]
          split <;> simp [*]
    · have hne := hp P0 T0 (by simp)
      obtain ⟨j1, j2⟩ := i3 p fun P T hm => hp P T (List.mem_cons_of_mem _ hm)
      rw [j1, j2]
      constructor
      · simp [Disk.write, hne]
      · simp only [Disk.write]
        split <;> simp [hne]

/-- If a task fails, so does the run (and the writes of the others do not prevent it). -/
theorem run_fails (setOrder : List Str → List Str) (hperm : ∀ l, (setOrder l).Perm l) {s : FS}
    {dir : Str} (h : ResultsDir s dir) (op : Op) (ran : List (Nat × Nat)) (d : Disk) {P T : Nat}
    (hm : (P, T) ∈ ran) {e : Err} (he : analyse setOrder s op d P T = .error e)
    (hpath : ∀ d P T r, analyse setOrder s op d P T = .ok r → ∃ X, r.1 = thermoPath dir P T X) :
    (runTasks setOrder s op ran d).2 ≠ none := by
  induction ran generalizing d with
  | nil => simp at hm
  | cons q rest ih =>
    obtain ⟨P0, T0⟩ := q
    cases h0 : analyse setOrder s op d P0 T0 with
    | error e0 => simp [runTasks, starmapWrapper, bind, Except.bind, h0]
    | ok r =>
      obtain ⟨X, hX⟩ := hpath d P0 T0 r h0
      simp only [runTasks, starmapWrapper, bind, Except.bind, h0]
      apply ih
      · rcases List.mem_cons.1 hm with h | h
        · cases h; rw [he] at h0; cases h0
        · exact h
      · rw [hX, analyse_write setOrder hperm h, he]

theorem analyse_path (setOrder : List Str → List Str) {s : FS}
    {dir : Str} (h : ResultsDir s dir) (op : Op) (d : Disk) (P T : Nat) (r : Str × Thermo)
    (hr : analyse setOrder s op d P T = .ok r) : ∃ X, r.1 = thermoPath dir P T X := by
  simp only [analyse, bind, Except.bind] at hr
  split at hr
  · cases hr
  split at hr
  · cases hr
  split at hr
  · split at hr
    · cases hr
    split at hr
    · cases hr
    rw [thermo_path h] at hr
    simp only [Except.ok.injEq] at hr
    exact ⟨_, by rw [← hr]⟩
  · cases hr

/-! ### The plan -/

theorem listed_iff {s : FS} {dir : Str} (h : ResultsDir s dir) {d : Disk} (ho : OnlyJobs d dir)
    (p : Str) : p ∈ retrivePimcFileList s d.listing ↔
      p ∈ d.listing ∧ ∃ P T J, p = pimcPath dir P T J := by
  rw [C14_listed_pimc_files s (h.path ▸ h.star), h.path]
  constructor
  · rintro ⟨hl, P, T, J, hs, rfl⟩
    exact ⟨hl, ho _ hl ⟨P, T, J, hs, by simp [pimc]⟩⟩
  · rintro ⟨hl, P, T, J, rfl⟩
    exact ⟨hl, natStr P, tempStr T, natStr J, ⟨notMem_natStr (by decide) _,
      notMem_tempStr (by decide) (by decide) _, notMem_natStr (by decide) _⟩, by
        simp [pimcPath, pimc]⟩

theorem pairs_nodup {l m : List Nat} (hl : l.Nodup) (hm : m.Nodup) :
    (l.flatMap fun P => m.map fun T => (P, T)).Nodup := by
  rw [List.nodup_flatMap]
  refine ⟨fun P _ => hm.map (fun a b e => by simpa using e), ?_⟩
  apply hl.imp
  intro a b hne
  simp only [Function.onFun, List.disjoint_left, List.mem_map]
  rintro _ ⟨x, _, rfl⟩ ⟨y, _, e⟩
  simp only [Prod.mk.injEq] at e
  exact hne e.1.symm

/-- The hashes: those of the current model files. -/
def ModelsAre (hash : Str → Str) (s : FS) (d : Disk) (hv hr : Str) : Prop :=
  ∃ tv tr, d.files s.pathVibModel = some (.text tv) ∧ d.files s.pathRhoModel = some (.text tr) ∧
    hv = hash tv ∧ hr = hash tr

/-- No hashes were stored in the object before, or the stored ones are current. -/
def NotStale (s : FS) (hv hr : Str) : Prop :=
  s.hashVib = none ∨ s.hashRho = none ∨ (s.hashVib = some hv ∧ s.hashRho = some hr)

theorem generate_eq (hash : Str → Str) {s : FS} {d : Disk} {hv hr : Str}
    (hm : ModelsAre hash s d hv hr) (hs : NotStale s hv hr) :
    s.generateModelHashes hash d.texts false =
      .ok { s with hashVib := some hv, hashRho := some hr } := by
  obtain ⟨tv, tr, e1, e2, rfl, rfl⟩ := hm
  rcases hs with h | h | ⟨h1, h2⟩
  · simp [FS.generateModelHashes, h, hashOfFile, Disk.texts, e1, e2, bind, Except.bind]
  · simp [FS.generateModelHashes, h, hashOfFile, Disk.texts, e1, e2, bind, Except.bind]
  · cases s
    simp only at h1 h2
    subst h1 h2
    rfl

/-- C28: the pairs given to the pool: each number of beads with each temperature, once. -/
theorem C28_tasks (hash : Str → Str) {s : FS} {dir : Str} (h : ResultsDir s dir) {d : Disk}
    (ho : OnlyJobs d dir) {hv hr : Str} (hm : ModelsAre hash s d hv hr) (hs : NotStale s hv hr) :
    ∃ tasks, plan hash s d = .ok ({ s with hashVib := some hv, hashRho := some hr }, tasks) ∧
      tasks.Nodup ∧ ∀ P T, (P, T) ∈ tasks ↔
        (∃ T', HasData d dir P T') ∧ ∃ P', HasData d dir P' T := by
  have hlist : ∀ s' : FS, s'.pathRhoResults = s.pathRhoResults →
      retrivePimcFileList s' d.listing = retrivePimcFileList s d.listing := by
    intro s' e; simp [retrivePimcFileList, e]
  set list := retrivePimcFileList s d.listing with hls
  have hmem := listed_iff h ho
  rw [← hls] at hmem
  obtain ⟨pl, hpl⟩ := (C14_lists_succeed list).1.2 (by
    intro p hp
    obtain ⟨_, P, T, J, rfl⟩ := (hmem p).1 hp
    exact ⟨P, C13_pimc_bead dir h.noP P T J⟩)
  obtain ⟨tl, htl⟩ := (C14_lists_succeed list).2.2 (by
    intro p hp
    obtain ⟨_, P, T, J, rfl⟩ := (hmem p).1 hp
    exact ⟨T, C13_pimc_temperature dir h.noT P T J⟩)
  obtain ⟨s1, m1⟩ := C14_bead_list hpl
  obtain ⟨s2, m2⟩ := C14_temperature_list htl
  have nd : ∀ l : List Nat, l.Pairwise (· < ·) → l.Nodup :=
    fun l hp => hp.imp fun hab => Nat.ne_of_lt hab
  refine ⟨pl.flatMap fun P => tl.map fun T => (P, T), ?_, pairs_nodup (nd _ s1) (nd _ s2), ?_⟩
  · simp only [plan, bind, Except.bind, generate_eq hash hm hs]
    rw [hlist { s with hashVib := some hv, hashRho := some hr } rfl, hpl]
    simp only [htl]
  · intro P T
    have b1 : P ∈ pl ↔ ∃ T', HasData d dir P T' := by
      rw [m1]
      constructor
      · rintro ⟨p, hp, e⟩
        obtain ⟨hl, P', T', J', rfl⟩ := (hmem p).1 hp
        rw [C13_pimc_bead dir h.noP] at e
        cases e
        exact ⟨T', J', hl⟩
      · rintro ⟨T', J', hl⟩
        exact ⟨_, (hmem _).2 ⟨hl, P, T', J', rfl⟩, C13_pimc_bead dir h.noP _ _ _⟩
    have b2 : T ∈ tl ↔ ∃ P', HasData d dir P' T := by
      rw [m2]
      constructor
      · rintro ⟨p, hp, e⟩
        obtain ⟨hl, P', T', J', rfl⟩ := (hmem p).1 hp
        rw [C13_pimc_temperature dir h.noT] at e
        cases e
        exact ⟨P', J', hl⟩
      · rintro ⟨P', J', hl⟩
        exact ⟨_, (hmem _).2 ⟨hl, P', T, J', rfl⟩, C13_pimc_temperature dir h.noT _ _ _⟩
    rw [← b1, ← b2]
    simp

theorem withHashes {s : FS} {dir : Str} (h : ResultsDir s dir) (a b : Option Str) :
    ResultsDir { s with hashVib := a, hashRho := b } dir :=
  ⟨h.path, h.pimc, h.jackknife, h.brace, h.brace', h.star, h.noP, h.noT, h.analytic⟩

/-! ### C28 -/

/-- C28: on a complete grid with readable results and analytic results of the current models, the
analysis succeeds for every order in which the pool runs the tasks, and for every pair with data
writes one thermo file, named after the pair and the number of its samples, with the hashes of the
current models and the analysis of all samples of the pair; no other file is created or changed. -/
theorem C28_every_pair_once (hash : Str → Str) (setOrder : List Str → List Str)
    (hperm : ∀ l, (setOrder l).Perm l) (jackknife alpha : Bool) {s : FS} {dir : Str}
    (h : ResultsDir s dir) {d : Disk} (hd : Readable d dir) (hg : CompleteGrid d dir)
    {hv hr : Str} (hm : ModelsAre hash s d hv hr) (hs : NotStale s hv hr)
    (an : Nat → Analytic.AnalyticData ℝ)
    (han : ∀ P T, HasData d dir P T →
      Analytic.loadAnalytic ⟨hv, hr⟩ T (d.analytic s.pathAnalyticRho) = .ok (an T))
    (schedule : List (Nat × Nat) → List (Nat × Nat))
    (hsch : ∀ tasks op, Scheduled setOrder { s with hashVib := some hv, hashRho := some hr } op d
      tasks (schedule tasks)) :
    ∃ (d' : Disk) (X : Nat → Nat → Nat) (t : Nat → Nat → Thermo),
      analysisOfPimc hash setOrder jackknife (methodName alpha) ⟨c!"local", true⟩ schedule s d
        = (d', none) ∧
      (∀ P T, HasData d dir P T →
        d'.files (thermoPath dir P T (X P T)) = some (.thermo (t P T)) ∧
        thermoPath dir P T (X P T) ∈ d'.listing ∧
        IsThermoOf d dir hv hr jackknife alpha
          ⟨(an T).E, (an T).Cv, (an T).alphaPlus, (an T).alphaMinus⟩ P T (X P T) (t P T)) ∧
      ∀ p, (∀ P T, HasData d dir P T → p ≠ thermoPath dir P T (X P T)) →
        d'.files p = d.files p ∧ (p ∈ d'.listing ↔ p ∈ d.listing) := by
  obtain ⟨tasks, hplan, _, htasks⟩ := C28_tasks hash h hd.only hm hs
  obtain ⟨op, hop, hrun⟩ := expected_eq jackknife alpha
  set s' : FS := { s with hashVib := some hv, hashRho := some hr } with hs'
  have h' : ResultsDir s' dir := withHashes h _ _
  have key : ∀ P T, HasData d dir P T → ∃ X t,
      analyse setOrder s' op d P T = .ok (thermoPath dir P T X, t) ∧
      IsThermoOf d dir hv hr jackknife alpha
        ⟨(an T).E, (an T).Cv, (an T).alphaPlus, (an T).alphaMinus⟩ P T X t :=
    fun P T hPT => analyse_ok setOrder hperm h' hd jackknife alpha hrun hPT rfl rfl (han P T hPT)
  classical
  let X : Nat → Nat → Nat := fun P T => if hPT : HasData d dir P T then (key P T hPT).choose else 0
  let t : Nat → Nat → Thermo := fun P T =>
    if hPT : HasData d dir P T then (key P T hPT).choose_spec.choose else ⟨hv, hr, none⟩
  have hX : ∀ P T, HasData d dir P T →
      analyse setOrder s' op d P T = .ok (thermoPath dir P T (X P T), t P T) ∧
      IsThermoOf d dir hv hr jackknife alpha
        ⟨(an T).E, (an T).Cv, (an T).alphaPlus, (an T).alphaMinus⟩ P T (X P T) (t P T) := by
    intro P T hPT
    simp only [X, t, hPT, dif_pos]
    exact (key P T hPT).choose_spec.choose_spec
  have htd : ∀ P T, (P, T) ∈ tasks ↔ HasData d dir P T := by
    intro P T
    rw [htasks]
    exact ⟨fun ⟨⟨T', a⟩, P', b⟩ => hg P T P' T' a b, fun a => ⟨⟨T, a⟩, P, a⟩⟩
  have hsub : ∀ ran : List (Nat × Nat), ran.Subperm tasks →
      ∀ P T, (P, T) ∈ ran →
        analyse setOrder s' op d P T = .ok (thermoPath dir P T (X P T), t P T) :=
    fun ran hr P T hm => (hX P T ((htd P T).1 (hr.subset hm))).1
  have hpermT : (schedule tasks).Perm tasks := by
    rcases hsch tasks op with hp | ⟨hsp, he⟩
    · exact hp
    · exact absurd (run_ok setOrder hperm h' op X t _ d (hsub _ hsp)).1 he
  obtain ⟨r1, r2, r3⟩ := run_ok setOrder hperm h' op X t _ d (hsub _ hpermT.subperm)
  refine ⟨(runTasks setOrder s' op (schedule tasks) d).1, X, t, ?_, fun P T hPT => ⟨?_, ?_, (hX P T hPT).2⟩,
    fun p hp => ?_⟩
  · have hloc : PyStr.isLit ⟨c!"local", true⟩ c!"local" = true := by decide
    simp only [analysisOfPimc, hplan, hop, hloc, if_true]
    rw [← r1]
  · exact (r2 P T (hpermT.mem_iff.2 ((htd P T).2 hPT))).1
  · exact (r2 P T (hpermT.mem_iff.2 ((htd P T).2 hPT))).2
  · exact r3 p fun P T hmem => hp P T ((htd P T).1 (hpermT.mem_iff.1 hmem))

/-- C28: the files afterwards do not depend on the order in which the pool runs the tasks. -/
theorem C28_order_irrelevant (hash : Str → Str) (setOrder : List Str → List Str)
    (hperm : ∀ l, (setOrder l).Perm l) (jackknife alpha : Bool) {s : FS} {dir : Str}
    (h : ResultsDir s dir) {d : Disk} (hd : Readable d dir) (hg : CompleteGrid d dir)
    {hv hr : Str} (hm : ModelsAre hash s d hv hr) (hs : NotStale s hv hr)
    (an : Nat → Analytic.AnalyticData ℝ)
    (han : ∀ P T, HasData d dir P T →
      Analytic.loadAnalytic ⟨hv, hr⟩ T (d.analytic s.pathAnalyticRho) = .ok (an T))
    (schedule schedule' : List (Nat × Nat) → List (Nat × Nat))
    (h1 : ∀ l, (schedule l).Perm l) (h2 : ∀ l, (schedule' l).Perm l) :
    (analysisOfPimc hash setOrder jackknife (methodName alpha) ⟨c!"local", true⟩ schedule s d).1.files
      = (analysisOfPimc hash setOrder jackknife (methodName alpha) ⟨c!"local", true⟩
          schedule' s d).1.files := by
  obtain ⟨tasks, hplan, _, htasks⟩ := C28_tasks hash h hd.only hm hs
  obtain ⟨op, hop, hrun⟩ := expected_eq jackknife alpha
  set s' : FS := { s with hashVib := some hv, hashRho := some hr } with hs'
  have h' : ResultsDir s' dir := withHashes h _ _
  have htd : ∀ P T, (P, T) ∈ tasks → HasData d dir P T := by
    intro P T hmem
    obtain ⟨⟨T', a⟩, P', b⟩ := (htasks P T).1 hmem
    exact hg P T P' T' a b
  have key : ∀ P T, HasData d dir P T → ∃ X t,
      analyse setOrder s' op d P T = .ok (thermoPath dir P T X, t) := fun P T hPT =>
    let ⟨X, t, e, _⟩ := analyse_ok setOrder hperm h' hd jackknife alpha hrun hPT rfl rfl (han P T hPT)
    ⟨X, t, e⟩
  classical
  let X : Nat → Nat → Nat := fun P T => if hPT : HasData d dir P T then (key P T hPT).choose else 0
  let t : Nat → Nat → Thermo := fun P T =>
    if hPT : HasData d dir P T then (key P T hPT).choose_spec.choose else ⟨hv, hr, none⟩
  have hX : ∀ P T, HasData d dir P T →
      analyse setOrder s' op d P T = .ok (thermoPath dir P T (X P T), t P T) := by
    intro P T hPT
    simp only [X, t, hPT, dif_pos]
    exact (key P T hPT).choose_spec.choose_spec
  have hfin : ∀ ran : List (Nat × Nat), ran.Perm tasks →
      (runTasks setOrder s' op ran d).1.files = fun p =>
        if hp : ∃ q ∈ tasks, p = thermoPath dir q.1 q.2 (X q.1 q.2) then
          some (.thermo (t hp.choose.1 hp.choose.2)) else d.files p := by
    intro ran hp
    obtain ⟨_, r2, r3⟩ := run_ok setOrder hperm h' op X t ran d
      (fun P T hmem => hX P T (htd P T (hp.mem_iff.1 hmem)))
    funext p
    by_cases hq : ∃ q ∈ tasks, p = thermoPath dir q.1 q.2 (X q.1 q.2)
    · rw [dif_pos hq]
      obtain ⟨e1, e2⟩ := hq.choose_spec
      have := (r2 hq.choose.1 hq.choose.2 (hp.mem_iff.2 e1)).1
      rw [← e2] at this
      exact this
    · rw [dif_neg hq]
      exact (r3 p fun P T hmem e => hq ⟨(P, T), hp.mem_iff.1 hmem, e⟩).1
  have hloc : PyStr.isLit ⟨c!"local", true⟩ c!"local" = true := by decide
  simp only [analysisOfPimc, hplan, hop, hloc, if_true]
  rw [hfin _ (h1 tasks), hfin _ (h2 tasks)]

/-- C28: if a number of beads that occurs lacks a temperature that occurs, the analysis raises,
whatever the order of the tasks. -/
theorem C28_incomplete_grid_fails (hash : Str → Str) (setOrder : List Str → List Str)
    (hperm : ∀ l, (setOrder l).Perm l) (jackknife alpha : Bool) {s : FS} {dir : Str}
    (h : ResultsDir s dir) {d : Disk} (hd : Readable d dir)
    {hv hr : Str} (hm : ModelsAre hash s d hv hr) (hs : NotStale s hv hr)
    {P T P' T' : Nat} (h1 : HasData d dir P T') (h2 : HasData d dir P' T) (h3 : ¬ HasData d dir P T)
    (schedule : List (Nat × Nat) → List (Nat × Nat))
    (hsch : ∀ tasks op, Scheduled setOrder { s with hashVib := some hv, hashRho := some hr } op d
      tasks (schedule tasks)) :
    ∃ e, (analysisOfPimc hash setOrder jackknife (methodName alpha) ⟨c!"local", true⟩ schedule s d).2
        = some e := by
  obtain ⟨tasks, hplan, _, htasks⟩ := C28_tasks hash h hd.only hm hs
  obtain ⟨op, hop, hrun⟩ := expected_eq jackknife alpha
  set s' : FS := { s with hashVib := some hv, hashRho := some hr } with hs'
  have h' : ResultsDir s' dir := withHashes h _ _
  have hloc : PyStr.isLit ⟨c!"local", true⟩ c!"local" = true := by decide
  simp only [analysisOfPimc, hplan, hop, hloc, if_true]
  rw [← Option.ne_none_iff_exists']
  rcases hsch tasks op with hp | ⟨_, he⟩
  · obtain ⟨files, hf, _, hmf⟩ := files_of_pair h' hd P T
    have hnil : files = [] := by
      rw [List.eq_nil_iff_forall_not_mem]
      intro p hpf
      obtain ⟨hl, J, rfl⟩ := (hmf p).1 hpf
      exact h3 ⟨J, hl⟩
    refine run_fails setOrder hperm h' op _ d (hp.mem_iff.2 ((htasks P T).2 ⟨⟨T', h1⟩, P', h2⟩))
      (e := .assertion) ?_ fun d P T r => analyse_path setOrder h' op d P T r
    simp [analyse, bind, Except.bind, hf, hnil, Results.loadMultiple]
  · exact he

/-- C28: an unknown method or location is refused and nothing is written; the texts are compared by
identity, so this includes texts equal to the known names but computed at run time. -/
theorem C28_bad_arguments_write_nothing (hash : Str → Str) (setOrder : List Str → List Str)
    (jackknife : Bool) (method location : PyStr) (schedule : List (Nat × Nat) → List (Nat × Nat))
    (s : FS) (d : Disk)
    (hbad : method.interned = false ∨ (method.text ≠ c!"basic" ∧ method.text ≠ c!"alpha") ∨
      location.interned = false ∨ location.text ≠ c!"local") :
    ∃ e, analysisOfPimc hash setOrder jackknife method location schedule s d = (d, some e) := by
  unfold analysisOfPimc
  cases plan hash s d with
  | error e => exact ⟨e, rfl⟩
  | ok r =>
    obtain ⟨s', tasks⟩ := r
    simp only
    cases hop : chooseOp jackknife method with
    | none =>
      simp only
      split
      · exact ⟨_, rfl⟩
      split
      · exact ⟨_, rfl⟩
      split <;> exact ⟨_, rfl⟩
    | some op =>
      have hloc : location.isLit c!"local" = false := by
        rcases hbad with hb | hb | hb | hb
        · simp [chooseOp, PyStr.isLit, hb] at hop
        · simp [chooseOp, PyStr.isLit, hb.1, hb.2] at hop
        · simp [PyStr.isLit, hb]
        · simp [PyStr.isLit, hb]
      simp only [hloc]
      by_cases hsv : location.isLit c!"server" = true <;> simp [hsv]

/-- C28: which error, once the parameters of the runs are known: an unknown location and, without
jackknife, an unknown method give the generic `Exception`; the location `"server"` is an assertion;
the jackknife analysis with an unknown method runs on to the use of a name that was never bound. -/
theorem C28_bad_arguments_errors (hash : Str → Str) (setOrder : List Str → List Str)
    (method location : PyStr) (schedule : List (Nat × Nat) → List (Nat × Nat))
    (s s' : FS) (d : Disk) (tasks : List (Nat × Nat)) (hplan : plan hash s d = .ok (s', tasks))
    (hm : method.text ≠ c!"basic" ∧ method.text ≠ c!"alpha") :
    analysisOfPimc hash setOrder false method location schedule s d = (d, some .exception) ∧
    analysisOfPimc hash setOrder true method ⟨c!"local", true⟩ schedule s d = (d, some .unbound) ∧
    analysisOfPimc hash setOrder true method ⟨c!"server", true⟩ schedule s d
      = (d, some .assertion) ∧
    (∀ other interned, other ≠ c!"local" → other ≠ c!"server" →
      analysisOfPimc hash setOrder true method ⟨other, interned⟩ schedule s d
        = (d, some .exception)) ∧
    ∀ jackknife alpha,
      analysisOfPimc hash setOrder jackknife (methodName alpha) ⟨c!"server", true⟩ schedule s d
        = (d, some .assertion) ∧
      ∀ other interned, other ≠ c!"local" → other ≠ c!"server" →
        analysisOfPimc hash setOrder jackknife (methodName alpha) ⟨other, interned⟩ schedule s d
          = (d, some .exception) := by
  have hop : ∀ j, chooseOp j method = none := by
    intro j; simp [chooseOp, PyStr.isLit, hm.1, hm.2]
  have h1 : (c!"server" == c!"local") = false := by decide
  refine ⟨?_, ?_, ?_, ?_, ?_⟩
  · simp [analysisOfPimc, hplan, hop]
  · simp [analysisOfPimc, hplan, hop, PyStr.isLit]
  · simp [analysisOfPimc, hplan, hop, PyStr.isLit]
  · intro other interned g1 g2
    simp [analysisOfPimc, hplan, hop, PyStr.isLit, g1, g2]
  · intro j a
    have hop' : ∃ op, chooseOp j (methodName a) = some op := by
      cases j <;> cases a <;> exact ⟨_, rfl⟩
    obtain ⟨op, hop'⟩ := hop'
    constructor
    · simp [analysisOfPimc, hplan, hop', PyStr.isLit]
    · intro other interned g1 g2
      simp [analysisOfPimc, hplan, hop', PyStr.isLit, g1, g2]

/-! ### C29 -/

/-- The same disk with other hashes stored in the result files. -/
def restamp (stamp : Str → Option Str × Option Str) (d : Disk) : Disk :=
  { d with files := fun p => match d.files p with
      | some (.npz f) => some (.npz { f with hashVib := (stamp p).1, hashRho := (stamp p).2 })
      | c => c }

section
variable {V : Type} [Zero V] [DecidableEq V]

/-- Other hashes in one file. -/
def withStamp (x : Option Str × Option Str) (f : ResultFile V) : ResultFile V :=
  { f with hashVib := x.1, hashRho := x.2 }

omit [Zero V] [DecidableEq V] in
theorem scan_stamp (stamp : Str → Option Str × Option Str) (d d' : Results.Disk V)
    (h : ∀ p, d' p = (d p).map (withStamp (stamp p))) (cls : Cls) (paths : List Str) :
    Results.scanLoop d' cls paths = Results.scanLoop d cls paths := by
  induction paths with
  | nil => rfl
  | cons p ps ih =>
    simp only [Results.scanLoop, h p, ih]
    cases d p <;> rfl

theorem copy_stamp (stamp : Str → Option Str × Option Str) (d d' : Results.Disk V)
    (h : ∀ p, d' p = (d p).map (withStamp (stamp p))) (desired : Nat) (paths : List Str)
    (start : Nat) (b : Results.Box V) :
    Results.copyLoop d' desired paths start b = Results.copyLoop d desired paths start b := by
  induction paths generalizing start b with
  | nil => rfl
  | cons p ps ih =>
    simp only [Results.copyLoop, h p, ih]
    cases d p <;> rfl

theorem load_stamp (stamp : Str → Option Str × Option Str) (d d' : Results.Disk V)
    (h : ∀ p, d' p = (d p).map (withStamp (stamp p))) (setOrder : List Str → List Str)
    (b : Results.Box V) (paths : List Str) (desired : Option Nat) :
    Results.loadMultiple setOrder d' b paths desired =
      Results.loadMultiple setOrder d b paths desired := by
  simp only [Results.loadMultiple, scan_stamp stamp d d' h, copy_stamp stamp d d' h]
end

theorem analyse_restamp (stamp : Str → Option Str × Option Str) (setOrder : List Str → List Str)
    (s : FS) (op : Op) (d : Disk) (P T : Nat) :
    analyse setOrder s op (restamp stamp d) P T = analyse setOrder s op d P T := by
  have h1 : ∀ p, (restamp stamp d).npz p = (d.npz p).map (withStamp (stamp p)) := by
    intro p
    simp only [Disk.npz, restamp]
    rcases d.files p with _ | c
    · rfl
    · cases c <;> rfl
  have h2 : (restamp stamp d).analytic = d.analytic := by
    funext p
    simp only [Disk.analytic, restamp]
    rcases d.files p with _ | c
    · rfl
    · cases c <;> rfl
  have h3 : (restamp stamp d).listing = d.listing := rfl
  simp only [analyse, load_stamp stamp _ _ h1, h2, h3]

theorem write_restamp (stamp : Str → Option Str × Option Str) (d : Disk) (p : Str) (t : Thermo) :
    (restamp stamp d).write p (.thermo t) = restamp stamp (d.write p (.thermo t)) := by
  simp only [restamp, Disk.write, Analysis.Disk.mk.injEq]
  refine ⟨?_, rfl⟩
  funext q
  by_cases h : q = p <;> simp [h]

theorem run_restamp (stamp : Str → Option Str × Option Str) (setOrder : List Str → List Str)
    (s : FS) (op : Op) (ran : List (Nat × Nat)) (d : Disk) :
    runTasks setOrder s op ran (restamp stamp d) =
      (restamp stamp (runTasks setOrder s op ran d).1, (runTasks setOrder s op ran d).2) := by
  induction ran generalizing d with
  | nil => rfl
  | cons q rest ih =>
    obtain ⟨P, T⟩ := q
    simp only [runTasks, starmapWrapper, bind, Except.bind, analyse_restamp]
    cases analyse setOrder s op d P T with
    | error e => simp only [ih]
    | ok r => simp only [write_restamp, ih]

/-- C29 is false: the hashes stored in the result files play no role.  Whatever hashes one puts into
the result files, the analysis ends in the same way and writes the same thermo files, with the same
hashes of the current models. -/
theorem C29_stored_hashes_ignored_refuted (stamp : Str → Option Str × Option Str) (hash : Str → Str)
    (setOrder : List Str → List Str) (jackknife : Bool) (method location : PyStr)
    (schedule : List (Nat × Nat) → List (Nat × Nat)) (s : FS) (d : Disk) :
    (analysisOfPimc hash setOrder jackknife method location schedule s (restamp stamp d)).2 =
      (analysisOfPimc hash setOrder jackknife method location schedule s d).2 ∧
    ∀ p t, (analysisOfPimc hash setOrder jackknife method location schedule s d).1.files p =
        some (.thermo t) →
      (analysisOfPimc hash setOrder jackknife method location schedule s (restamp stamp d)).1.files p =
        some (.thermo t) := by
  have htx : (restamp stamp d).texts = d.texts := by
    simp only [Disk.texts, restamp, FileStructure.Disk.mk.injEq, true_and]
    funext p
    rcases d.files p with _ | c
    · rfl
    · cases c <;> rfl
  have hplan : plan hash s (restamp stamp d) = plan hash s d := by
    simp only [plan, htx]; rfl
  have key : analysisOfPimc hash setOrder jackknife method location schedule s (restamp stamp d) =
      (restamp stamp (analysisOfPimc hash setOrder jackknife method location schedule s d).1,
        (analysisOfPimc hash setOrder jackknife method location schedule s d).2) := by
    simp only [analysisOfPimc, hplan]
    cases plan hash s d with
    | error e => rfl
    | ok r =>
      obtain ⟨s', tasks⟩ := r
      simp only
      cases chooseOp jackknife method with
      | none => simp only; split <;> [rfl; split] <;> [rfl; split] <;> rfl
      | some op =>
        simp only
        split
        · exact run_restamp stamp setOrder s' op _ d
        · split <;> rfl
  rw [key]
  refine ⟨rfl, fun p t e => ?_⟩
  simp only [restamp, e]

/-- C29, partial: if all result files of the directory carry the current hashes, each thermo file is
computed from files with these hashes only (as C28, and the files that are read carry the hashes
that are written). -/
theorem C29_current_directory_partial (hash : Str → Str) (setOrder : List Str → List Str)
    (hperm : ∀ l, (setOrder l).Perm l) (jackknife alpha : Bool) {s : FS} {dir : Str}
    (h : ResultsDir s dir) {d : Disk} (hd : Readable d dir) (hg : CompleteGrid d dir)
    {hv hr : Str} (hm : ModelsAre hash s d hv hr) (hs : NotStale s hv hr)
    (an : Nat → Analytic.AnalyticData ℝ)
    (han : ∀ P T, HasData d dir P T →
      Analytic.loadAnalytic ⟨hv, hr⟩ T (d.analytic s.pathAnalyticRho) = .ok (an T))
    (schedule : List (Nat × Nat) → List (Nat × Nat))
    (hsch : ∀ tasks op, Scheduled setOrder { s with hashVib := some hv, hashRho := some hr } op d
      tasks (schedule tasks))
    (hcur : ∀ P T J f, pimcPath dir P T J ∈ d.listing →
      d.files (pimcPath dir P T J) = some (.npz f) → f.hashVib = some hv ∧ f.hashRho = some hr) :
    ∀ P T, HasData d dir P T → ∃ X t,
      (analysisOfPimc hash setOrder jackknife (methodName alpha) ⟨c!"local", true⟩ schedule s d).1.files
        (thermoPath dir P T X) = some (.thermo t) ∧
      IsThermoOf d dir hv hr jackknife alpha
        ⟨(an T).E, (an T).Cv, (an T).alphaPlus, (an T).alphaMinus⟩ P T X t ∧
      ∀ order, FilesOfPair d dir P T order → ∀ p ∈ order, ∃ f, d.files p = some (.npz f) ∧
        f.hashVib = some t.hashVib ∧ f.hashRho = some t.hashRho := by
  obtain ⟨d', X, t, e, h1, _⟩ := C28_every_pair_once hash setOrder hperm jackknife alpha h hd hg hm hs
    an han schedule hsch
  intro P T hPT
  obtain ⟨h2, -, h3⟩ := h1 P T hPT
  refine ⟨X P T, t P T, by rw [e]; exact h2, h3, fun order ho p hp => ?_⟩
  obtain ⟨hl, ⟨J, rfl⟩, f, ef, _⟩ := (ho.2 p).1 hp
  obtain ⟨c1, c2⟩ := hcur P T J f hl ef
  exact ⟨f, ef, by rw [c1, h3.1], by rw [c2, h3.2.1]⟩

/-! ### A directory that meets the hypotheses -/

/-- Every object created for a root directory without special characters has such a results
directory. -/
theorem resultsDir_init {root absRoot : Str} (hroot : Spec.FileStructure.RootOk root absRoot)
    (h1 : '{' ∉ absRoot) (h2 : '}' ∉ absRoot) (h3 : '*' ∉ absRoot) (h4 : 'P' ∉ absRoot)
    (h5 : 'T' ∉ absRoot) (d r : Nat) :
    ResultsDir (initFS root absRoot d r) (Spec.FileStructure.rhoDir absRoot d r ++ c!"results/") := by
  have hT : 'T' ∉ Spec.FileStructure.rhoDir absRoot d r ++ c!"results/" := by
    simp [Spec.FileStructure.rhoDir, Spec.FileStructure.dataDir, h5, notMem_natStr, digitVal]
  rw [initFS_eq hroot]
  refine ⟨rfl, rfl, rfl, ?_, ?_, ?_, ?_, ?_, ?_⟩
  · simp [Spec.FileStructure.rhoDir, Spec.FileStructure.dataDir, h1, notMem_natStr, digitVal]
  · simp [Spec.FileStructure.rhoDir, Spec.FileStructure.dataDir, h2, notMem_natStr, digitVal]
  · simp [Spec.FileStructure.rhoDir, Spec.FileStructure.dataDir, h3, notMem_natStr, digitVal]
  · simp [Spec.FileStructure.rhoDir, Spec.FileStructure.dataDir, h4, notMem_natStr, digitVal]
  · rintro ⟨a, b, e⟩
    apply hT
    rw [← e]; simp
  · exact ⟨Spec.FileStructure.rhoDir absRoot d r ++ c!"parameters/" ++ c!"analytic_results", by simp⟩

/-- The object of the example. -/
def s0 : FS := initFS c!"/w" c!"/w" 1 0
/-- Its results directory. -/
def dir0 : Str := Spec.FileStructure.rhoDir c!"/w" 1 0 ++ c!"results/"

theorem root0 : Spec.FileStructure.RootOk c!"/w" c!"/w" := by
  simp [Spec.FileStructure.RootOk]

theorem vib0 : s0.pathVibModel = Spec.FileStructure.dataDir c!"/w" 1 ++ c!"parameters/coupled_model" ++
    c!".json" := by rw [s0, initFS_eq root0]; simp
theorem rho0 : s0.pathRhoModel = Spec.FileStructure.rhoDir c!"/w" 1 0 ++ c!"parameters/sampling_model" ++
    c!".json" := by rw [s0, initFS_eq root0]; simp
theorem analyticPath0 : s0.pathAnalyticRho = Spec.FileStructure.rhoDir c!"/w" 1 0 ++
    c!"parameters/analytic_results" ++ c!".json" := by rw [s0, initFS_eq root0]; simp

theorem dir0_ok : ResultsDir s0 dir0 :=
  resultsDir_init root0 (by decide) (by decide) (by decide) (by decide) (by decide) 1 0

/-- A result file with `n` samples. -/
noncomputable def file0 (h : Str) (n : Nat) : ResultFile ℝ :=
  ⟨some h, some h, some n, some (List.replicate n (some 2)), some (List.replicate n (some 3)),
    some (List.replicate n (some 4)), some (List.replicate n (some 5))⟩

/-- The jobs of the example: one bead one job, two beads two jobs, all at 300 K. -/
def jobs0 : List (Nat × Nat × Nat) := [(1, 30000, 0), (2, 30000, 0), (2, 30000, 1)]

/-- A disk with these jobs, all result files carrying the hash `h`. -/
noncomputable def disk0 (h : Str) : Disk where
  listing := jobs0.map fun j => pimcPath dir0 j.1 j.2.1 j.2.2
  files := fun p =>
    if p = s0.pathVibModel then some (.text c!"v")
    else if p = s0.pathRhoModel then some (.text c!"r")
    else if p = s0.pathAnalyticRho then some (.analytic (.dict fun k =>
      if k = c!"hash_vib" then some (.hash c!"v")
      else if k = c!"hash_rho" then some (.hash c!"r")
      else some (.entry fun _ => some 7)))
    else some (.npz (file0 h (if p = pimcPath dir0 2 30000 1 then 3 else 2)))

theorem json_ne (a b : Str) : a ++ c!".json" ≠ b ++ c!".npz" := by
  intro h
  have h' : (a ++ c!".") ++ c!"json" = b ++ c!".npz" := by simpa using h
  have := (List.append_inj' h' rfl).2
  revert this; decide

theorem result_file (h : Str) (P T J : Nat) : ∃ n, (disk0 h).files (pimcPath dir0 P T J) =
    some (.npz (file0 h n)) := by
  have e : pimcPath dir0 P T J = (dir0 ++ (c!"P" ++ natStr P ++ c!"_T" ++ tempStr T ++ c!"_J" ++
      natStr J ++ c!"_data_points")) ++ c!".npz" := by simp [pimcPath, pimc]
  have h1 : pimcPath dir0 P T J ≠ s0.pathVibModel := by
    rw [e, vib0]
    exact (json_ne _ _).symm
  have h2 : pimcPath dir0 P T J ≠ s0.pathRhoModel := by
    rw [e, rho0]
    exact (json_ne _ _).symm
  have h3 : pimcPath dir0 P T J ≠ s0.pathAnalyticRho := by
    rw [e, analyticPath0]
    exact (json_ne _ _).symm
  refine ⟨if pimcPath dir0 P T J = pimcPath dir0 2 30000 1 then 3 else 2, ?_⟩
  simp only [disk0, h1, h2, h3, if_false]

theorem file0_usable (h : Str) (n : Nat) : Usable .pm (file0 h n) ∧ WellFormed (file0 h n) ∧
    ∀ a, (file0 h n).rho = some a → some 0 ∉ a := by
  refine ⟨⟨⟨n, rfl⟩, ⟨_, rfl⟩, ⟨_, rfl⟩, fun _ => ⟨⟨_, rfl⟩, _, rfl⟩⟩, ?_, ?_⟩
  · intro m hm
    simp only [file0, Option.some.injEq] at hm
    subst hm
    simp [file0]
  · intro a ha
    simp only [file0, Option.some.injEq] at ha
    subst ha
    simp

theorem readable0 (h : Str) : Readable (disk0 h) dir0 where
  nodup := by
    simp only [disk0]
    refine List.Nodup.map (fun a b e => ?_) (by decide : jobs0.Nodup)
    obtain ⟨h1, h2, h3⟩ := C13_pimc_injective dir0 e
    exact Prod.ext h1 (Prod.ext h2 h3)
  only := by
    intro p hp _
    simp only [disk0, List.mem_map] at hp
    obtain ⟨j, _, rfl⟩ := hp
    exact ⟨_, _, _, rfl⟩
  files := by
    intro P T J _
    obtain ⟨n, e⟩ := result_file h P T J
    exact ⟨_, e, fun _ => (file0_usable h n).2⟩
  usable := by
    rintro P T ⟨J, hJ⟩
    obtain ⟨n, e⟩ := result_file h P T J
    exact ⟨J, _, hJ, e, (file0_usable h n).1⟩

theorem hasData0 (h : Str) (P T : Nat) :
    HasData (disk0 h) dir0 P T ↔ (P = 1 ∨ P = 2) ∧ T = 30000 := by
  constructor
  · rintro ⟨J, hJ⟩
    simp only [disk0, List.mem_map] at hJ
    obtain ⟨⟨P', T', J'⟩, hm, e⟩ := hJ
    obtain ⟨rfl, rfl, rfl⟩ := C13_pimc_injective dir0 e
    simp only [jobs0, List.mem_cons, Prod.mk.injEq, List.not_mem_nil, or_false] at hm
    simp only
    omega
  · rintro ⟨rfl | rfl, rfl⟩
    · exact ⟨0, by simp [disk0, jobs0]⟩
    · exact ⟨0, by simp [disk0, jobs0]⟩

theorem complete0 (h : Str) : CompleteGrid (disk0 h) dir0 := by
  intro P T P' T'
  simp only [hasData0]
  omega

theorem models0 (h : Str) : ModelsAre id s0 (disk0 h) c!"v" c!"r" := by
  refine ⟨c!"v", c!"r", by simp [disk0], ?_, rfl, rfl⟩
  have : s0.pathRhoModel ≠ s0.pathVibModel := by
    rw [vib0, rho0]
    simp [Spec.FileStructure.rhoDir, Spec.FileStructure.dataDir]
  simp [disk0, this]

/-- The analytic data of the example. -/
noncomputable def an0 : Analytic.AnalyticData ℝ := ⟨7, 7, 7, 7 / 7, 7 / 7⟩

theorem analytic0 (h : Str) (T : Nat) : Analytic.loadAnalytic ⟨c!"v", c!"r"⟩ T
    ((disk0 h).analytic s0.pathAnalyticRho) = .ok an0 := by
  have h1 : s0.pathAnalyticRho ≠ s0.pathVibModel := by
    rw [vib0, analyticPath0]
    simp [Spec.FileStructure.rhoDir, Spec.FileStructure.dataDir]
  have h2 : s0.pathAnalyticRho ≠ s0.pathRhoModel := by
    rw [rho0, analyticPath0]
    simp
  have hT : ∀ k : Str, 'h' ∈ k → tempStr T ≠ k := by
    rintro k hk rfl
    exact notMem_tempStr (by decide) (by decide) T hk
  have h3 := hT c!"hash_vib" (by decide)
  have h4 := hT c!"hash_rho" (by decide)
  simp [Disk.analytic, disk0, h1, h2, Analytic.loadAnalytic, Analytic.hasHash, h3, h4,
    Analytic.getKey, Analytic.pyDiv, bind, Except.bind, an0]

/-- The example directory meets the hypotheses of C28, with result files of any hash. -/
example (h : Str) : ResultsDir s0 dir0 ∧ Readable (disk0 h) dir0 ∧ CompleteGrid (disk0 h) dir0 ∧
    ModelsAre id s0 (disk0 h) c!"v" c!"r" ∧ NotStale s0 c!"v" c!"r" ∧
    (∀ P T, HasData (disk0 h) dir0 P T → Analytic.loadAnalytic ⟨c!"v", c!"r"⟩ T
      ((disk0 h).analytic s0.pathAnalyticRho) = .ok an0) ∧
    ∀ setOrder s op d, ∀ tasks, Scheduled setOrder s op d tasks (id tasks) :=
  ⟨dir0_ok, readable0 h, complete0 h, models0 h, .inl rfl, fun _ T _ => analytic0 h T,
    fun _ _ _ _ _ => .inl (.refl _)⟩

/-- C29 is false, concretely: there are results of an old model (no file carries the current
hash) from which the analysis computes a thermo file stamped with the hashes of the current
models. -/
theorem C29_old_results_analysed_refuted (setOrder : List Str → List Str)
    (hperm : ∀ l, (setOrder l).Perm l) :
    ∃ X t, (analysisOfPimc id setOrder false (methodName false) ⟨c!"local", true⟩ id s0
        (disk0 c!"old")).1.files (thermoPath dir0 2 30000 X) = some (.thermo t) ∧
      t.hashVib = c!"v" ∧ t.hashRho = c!"r" ∧
      IsThermoOf (disk0 c!"old") dir0 c!"v" c!"r" false false
        ⟨an0.E, an0.Cv, an0.alphaPlus, an0.alphaMinus⟩ 2 30000 X t ∧
      ∀ p f, (disk0 c!"old").files p = some (.npz f) → f.hashVib = some c!"old" := by
  obtain ⟨d', X, t, e, h1, _⟩ := C28_every_pair_once id setOrder hperm false false dir0_ok
    (readable0 c!"old") (complete0 _) (models0 _) (.inl rfl) (fun _ => an0)
    (fun _ T _ => analytic0 _ T) id (fun _ _ => .inl (.refl _))
  obtain ⟨h2, -, h3⟩ := h1 2 30000 ((hasData0 _ _ _).2 ⟨.inr rfl, rfl⟩)
  refine ⟨X 2 30000, t 2 30000, by rw [e]; exact h2, h3.1, h3.2.1, h3, fun p f hf => ?_⟩
  simp only [disk0] at hf
  split at hf
  · cases hf
  split at hf
  · cases hf
  split at hf
  · cases hf
  · cases hf; rfl

end Pibronic.Props.Analysis
