import Verif.Model.ExamplesAnalysis
import Verif.Props.AnalysisChain
import Verif.Props.Examples
import Verif.Props.FileStructure

set_option autoImplicit false

/-!
Theorems about `analyze_results.py` in the example projects: C130 (the systems can be analysed at the same time).
-/
namespace Pibronic.Props.ExamplesAnalysis
open Pibronic.Py Pibronic.FileName Pibronic.Examples Pibronic.Analysis
open Pibronic.FileStructure
open Pibronic.ExamplesAnalysis Pibronic.Postprocessing Pibronic.Spec.FileStructure
open Pibronic.Props.Analysis Pibronic.Props.AnalysisChain Pibronic.Props.Examples Pibronic.Props.Postprocessing
open Pibronic.Props.FileStructure hiding step
open Classical

/-! ### What the statements are about -/

/-- The file belongs to a data set of the system. -/
def OfSystem (q : Setting) (name : Str) (p : Str) : Prop :=
  ∃ visits, q.project.visits name = .ok visits ∧ ∃ i r, (i, r) ∈ visits ∧ Inside (dataDir q.absRoot i) p

/-- Two disks have the same files, with the same contents and found in the same order, among those with the
property `R`. -/
def Same (R : Str → Prop) (d d' : Pibronic.Analysis.Disk) : Prop :=
  (∀ p, R p → d.files p = d'.files p) ∧ d.listing.filter (fun p => R p) = d'.listing.filter (fun p => R p)

/-- One of the two example projects, run on one of the two servers. -/
structure Server (q : Setting) : Prop where
  project : q.project = artificial ∨ q.project = paper
  root : RootOk q.project.serverRoot q.absRoot
  order : ∀ l, (q.setOrder l).Perm l

/-- No process has started. -/
def started (d : Pibronic.Analysis.Disk) : World := ⟨fun _ => .begin, d⟩

/-! ### What a process reads and writes -/

theorem Same.symm {R : Str → Prop} {d d' : Pibronic.Analysis.Disk} (h : Same R d d') : Same R d' d :=
  ⟨fun p hp => (h.1 p hp).symm, h.2.symm⟩

theorem Same.trans {R : Str → Prop} {a b c : Pibronic.Analysis.Disk} (h : Same R a b) (h' : Same R b c) : Same R a c :=
  ⟨fun p hp => (h.1 p hp).trans (h'.1 p hp), h.2.trans h'.2⟩

theorem Same.refl (R : Str → Prop) (a : Pibronic.Analysis.Disk) : Same R a a := ⟨fun _ _ => rfl, rfl⟩

theorem Same.mem {R : Str → Prop} {d d' : Pibronic.Analysis.Disk} (h : Same R d d') {p : Str} (hp : R p) :
    p ∈ d.listing ↔ p ∈ d'.listing := by
  have h1 : p ∈ d.listing.filter (fun p => R p) ↔ p ∈ d'.listing.filter (fun p => R p) := by rw [h.2]
  simpa [List.mem_filter, hp] using h1

theorem glob_same {R : Str → Prop} {d d' : Pibronic.Analysis.Disk} (h : Same R d d') (pattern : Str)
    (hR : ∀ p, globMatch pattern p = true → R p) : glob d.listing pattern = glob d'.listing pattern := by
  have key : ∀ l : List Str, glob l pattern = glob (l.filter fun p => R p) pattern := by
    intro l
    simp only [glob, List.filter_filter]
    apply List.filter_congr
    intro p _
    by_cases hm : globMatch pattern p = true
    · simp [hm, hR p hm]
    · simp [hm]
  rw [key, h.2, ← key]

/-- Writing inside does the same to two disks that are the same inside. -/
theorem write_same {R : Str → Prop} {d d' : Pibronic.Analysis.Disk} (h : Same R d d') {p : Str} (hp : R p) (c : Content) :
    Same R (d.write p c) (d'.write p c) := by
  refine ⟨fun x hx => ?_, ?_⟩
  · simp only [Disk.write]
    split
    · rfl
    · exact h.1 x hx
  · simp only [Disk.write]
    by_cases hm : p ∈ d.listing
    · rw [if_pos hm, if_pos (h.mem hp |>.1 hm)]; exact h.2
    · rw [if_neg hm, if_neg (fun hm' => hm (h.mem hp |>.2 hm'))]
      simp only [List.filter_append, h.2]

/-- Writing outside does nothing inside. -/
theorem write_other {R : Str → Prop} (d : Pibronic.Analysis.Disk) {p : Str} (hp : ¬ R p) (c : Content) :
    Same R (d.write p c) d := by
  refine ⟨fun x hx => ?_, ?_⟩
  · simp only [Disk.write]
    rw [if_neg]
    rintro rfl
    exact hp hx
  · simp only [Disk.write]
    split
    · rfl
    · simp [List.filter_append, hp]

/-- The files of the object lie in the region. -/
structure In (R : Str → Prop) (s : FS) : Prop where
  vib : R s.pathVibModel
  rho : R s.pathRhoModel
  analytic : R s.pathAnalyticRho
  results : ∃ dir, ResultsDir s dir ∧ ∀ x, R (dir ++ x)

theorem In.hashes {R : Str → Prop} {s : FS} (h : In R s) (a b : Option Str) :
    In R { s with hashVib := a, hashRho := b } := by
  obtain ⟨dir, h1, h2⟩ := h.results
  exact ⟨h.vib, h.rho, h.analytic, dir, withHashes h1 a b, h2⟩

theorem generate_same {R : Str → Prop} {s : FS} (h : In R s) (hash : Str → Str) {d d' : Pibronic.Analysis.Disk}
    (hs : Same R d d') :
    s.generateModelHashes hash d.texts false = s.generateModelHashes hash d'.texts false := by
  simp only [FS.generateModelHashes, hashOfFile, Disk.texts, hs.1 _ h.vib, hs.1 _ h.rho]

theorem generate_in {R : Str → Prop} {s s' : FS} (h : In R s) (hash : Str → Str) {k : FileStructure.Disk}
    (e : s.generateModelHashes hash k false = .ok s') : In R s' := by
  simp only [FS.generateModelHashes] at e
  split at e
  · cases e; exact h
  · cases h1 : hashOfFile hash k s.pathVibModel with
    | error x => simp [h1, bind, Except.bind] at e
    | ok a =>
      cases h2 : hashOfFile hash k s.pathRhoModel with
      | error x => simp [h1, h2, bind, Except.bind] at e
      | ok b =>
        simp only [h1, h2, bind, Except.bind, Except.ok.injEq] at e
        subst e
        exact h.hashes _ _

theorem plan_same {R : Str → Prop} {s : FS} (h : In R s) (hash : Str → Str) {d d' : Pibronic.Analysis.Disk}
    (hs : Same R d d') : plan hash s d = plan hash s d' := by
  unfold plan
  rw [generate_same h hash hs]
  cases e : s.generateModelHashes hash d'.texts false with
  | error x => rfl
  | ok s' =>
    obtain ⟨dir, h1, h2⟩ := (generate_in h hash e).results
    have hg : retrivePimcFileList s' d.listing = retrivePimcFileList s' d'.listing := by
      apply glob_same hs
      intro p hp
      rw [h1.path] at hp
      obtain ⟨x, rfl, -⟩ := (globMatch_literal_prefix dir _ p h1.star).1 hp
      exact h2 x
    simp only [bind, Except.bind, hg]

theorem plan_in {R : Str → Prop} {s s' : FS} (h : In R s) (hash : Str → Str) {d : Pibronic.Analysis.Disk}
    {ts : List (Nat × Nat)} (e : plan hash s d = .ok (s', ts)) : In R s' ∧
      s.generateModelHashes hash d.texts false = .ok s' := by
  unfold plan at e
  cases e1 : s.generateModelHashes hash d.texts false with
  | error x => simp [e1, bind, Except.bind] at e
  | ok s'' =>
    rw [e1] at e
    simp only [bind, Except.bind] at e
    split at e
    · cases e
    · split at e
      · cases e
      · simp only [Except.ok.injEq, Prod.mk.injEq] at e
        rw [← e.1]
        exact ⟨generate_in h hash e1, rfl⟩

theorem analyse_same {R : Str → Prop} {s : FS} (h : In R s) {setOrder : List Str → List Str}
    (hperm : ∀ l, (setOrder l).Perm l) (op : Op) {d d' : Pibronic.Analysis.Disk} (hs : Same R d d') (P T : Nat) :
    analyse setOrder s op d P T = analyse setOrder s op d' P T := by
  obtain ⟨dir, h1, h2⟩ := h.results
  have hpat := pattern_eq s dir h1.pimc h1.brace h1.brace' P T
  have hin : ∀ p, globMatch (dir ++ pimc (natStr P) (tempStr T) c!"*") p = true → R p := by
    intro p hp
    obtain ⟨x, rfl, -⟩ := (globMatch_literal_prefix dir _ p h1.star).1 hp
    exact h2 x
  have hg : pimcFilesFor s d.listing P T = pimcFilesFor s d'.listing P T := by
    simp only [pimcFilesFor, hpat, bind, Except.bind, glob_same hs _ hin]
  have hl : pimcFilesFor s d'.listing P T = .ok (glob d'.listing (dir ++ pimc (natStr P) (tempStr T) c!"*")) := by
    simp only [pimcFilesFor, hpat, bind, Except.bind]
  have hnpz : ∀ p ∈ glob d'.listing (dir ++ pimc (natStr P) (tempStr T) c!"*"), d.npz p = d'.npz p := by
    intro p hp
    have := hin p (List.mem_filter.1 hp).2
    simp only [Disk.npz, hs.1 p this]
  have han : d.analytic s.pathAnalyticRho = d'.analytic s.pathAnalyticRho := by
    simp only [Disk.analytic, hs.1 _ h.analytic]
  simp only [analyse, hg, hl, han, bind, Except.bind,
    load_congr setOrder hperm (Results.init .pm none none) _ none hnpz]

theorem analyse_in {R : Str → Prop} {s : FS} (h : In R s) {setOrder : List Str → List Str} {op : Op}
    {d : Pibronic.Analysis.Disk} {P T : Nat} {path : Str} {t : Thermo}
    (e : analyse setOrder s op d P T = .ok (path, t)) : R path := by
  obtain ⟨dir, h1, h2⟩ := h.results
  obtain ⟨X, hX⟩ := analyse_path setOrder h1 op d P T _ e
  have : ∃ x, thermoPath dir P T X = dir ++ x := ⟨_, by simp [thermoPath]; rfl⟩
  obtain ⟨x, hx⟩ := this
  simp only at hX
  rw [hX, hx]; exact h2 x

/-! ### One step -/

/-- Everything the process may still touch lies in the region. -/
def Todo (q : Setting) (R : Str → Prop) (todo : List (Nat × Nat)) : Prop :=
  ∀ i r, (i, r) ∈ todo → In R (initFS q.project.serverRoot q.absRoot i r)

/-- The same for a process at any point. -/
def Within (q : Setting) (name : Str) (R : Str → Prop) : Phase → Prop
  | .begin => ∀ visits, q.project.visits name = .ok visits → Todo q R visits
  | .next todo => Todo q R todo
  | .method s _ todo => In R s ∧ Todo q R todo
  | .tasks s _ _ _ _ todo => In R s ∧ Todo q R todo
  | .write path _ s _ _ _ _ todo => R path ∧ In R s ∧ Todo q R todo
  | .done _ => True

theorem step_same {q : Setting} {name : Str} {R : Str → Prop} (hperm : ∀ l, (q.setOrder l).Perm l)
    (schedule : List (Nat × Nat) → List (Nat × Nat)) {ph : Phase} (hw : Within q name R ph)
    {d d' : Pibronic.Analysis.Disk} (hs : Same R d d') :
    (step q schedule name ph d).1 = (step q schedule name ph d').1 ∧
    Same R (step q schedule name ph d).2 (step q schedule name ph d').2 ∧
    Within q name R (step q schedule name ph d).1 := by
  cases ph with
  | begin =>
    simp only [step]
    cases q.project.assertName name with
    | error e => exact ⟨rfl, hs, trivial⟩
    | ok u =>
      cases q.project.chooseRoot q.host with
      | error e => exact ⟨rfl, hs, trivial⟩
      | ok u =>
        cases hv : q.project.visits name with
        | error e => exact ⟨rfl, hs, trivial⟩
        | ok visits => exact ⟨rfl, hs, hw visits hv⟩
  | next todo =>
    match todo with
    | [] => exact ⟨rfl, hs, trivial⟩
    | (i, r) :: rest =>
      have h0 := hw i r (by simp)
      have hr : Todo q R rest := fun a b hm => hw a b (List.mem_cons_of_mem _ hm)
      by_cases h1 : q.rootThere = false
      · have e : ∀ d, step q schedule name (.next ((i, r) :: rest)) d = (.done (some .assertion), d) := fun d => by
          simp only [step, if_pos h1]
        rw [e, e]; exact ⟨rfl, hs, trivial⟩
      · simp only [step, hs.1 _ h0.rho, if_neg h1]
        split
        · exact ⟨rfl, hs, h0, hr⟩
        · exact ⟨rfl, hs, hr⟩
  | method s methods todo =>
    match methods with
    | [] => exact ⟨rfl, hs, hw.2⟩
    | j :: ms =>
      simp only [step, plan_same hw.1 q.hash hs]
      cases hp : plan q.hash s d' with
      | error e => exact ⟨rfl, hs, trivial⟩
      | ok x => exact ⟨rfl, hs, (plan_in hw.1 q.hash hp).1, hw.2⟩
  | tasks s op ts err methods todo =>
    match ts, err with
    | [], none => exact ⟨rfl, hs, hw⟩
    | [], some e => exact ⟨rfl, hs, trivial⟩
    | (P, T) :: rest, err =>
      simp only [step, analyse_same hw.1 hperm op hs]
      cases ha : analyse q.setOrder s op d' P T with
      | error e => exact ⟨rfl, hs, hw⟩
      | ok x => exact ⟨rfl, hs, analyse_in hw.1 ha, hw⟩
  | write path t s op ts err methods todo =>
    exact ⟨rfl, write_same hs hw.1 _, hw.2⟩
  | done e => exact ⟨rfl, hs, trivial⟩

/-- A step changes nothing outside. -/
theorem step_other {q : Setting} {name : Str} {R R' : Str → Prop} (hd : ∀ p, R p → ¬ R' p)
    (schedule : List (Nat × Nat) → List (Nat × Nat)) {ph : Phase} (hw : Within q name R ph)
    (d : Pibronic.Analysis.Disk) : Same R' (step q schedule name ph d).2 d := by
  cases ph with
  | begin =>
    simp only [step]
    repeat' split
    all_goals exact Same.refl _ _
  | next todo =>
    match todo with
    | [] => exact Same.refl _ _
    | (i, r) :: rest =>
      simp only [step]
      repeat' split
      all_goals exact Same.refl _ _
  | method s methods todo =>
    match methods with
    | [] => exact Same.refl _ _
    | j :: ms =>
      simp only [step]
      repeat' split
      all_goals exact Same.refl _ _
  | tasks s op ts err methods todo =>
    match ts, err with
    | [], none => exact Same.refl _ _
    | [], some e => exact Same.refl _ _
    | (P, T) :: rest, err =>
      simp only [step]
      repeat' split
      all_goals exact Same.refl _ _
  | write path t s op ts err methods todo =>
    exact write_other d (hd _ hw.1) _
  | done e => exact Same.refl _ _

/-! ### The regions of the systems -/

/-- A data set belongs to one system only. -/
theorem one_system {q : Setting} (hq : Server q) {a b : Str} (hab : a ≠ b) {la lb : List (Nat × Nat)}
    (ha : q.project.visits a = .ok la) (hb : q.project.visits b = .ok lb) {i r j t : Nat} (hi : (i, r) ∈ la)
    (hj : (j, t) ∈ lb) : i ≠ j := by
  rcases hq.project with hp | hp
  · rw [hp] at ha hb
    have key : ∀ n l, artificial.visits n = .ok l → ∃ k, k < 3 ∧ n = [c!"2x2", c!"4x6", c!"7x12"].getD k [] ∧
        ∀ d r, (d, r) ∈ l → 10 * (k + 1) + 1 ≤ d ∧ d ≤ 10 * (k + 1) + 5 := by
      intro n l hn
      obtain ⟨h1, h2⟩ := C121_visits_artificial n
      by_cases hm : n ∈ [c!"2x2", c!"4x6", c!"7x12"]
      · obtain ⟨k, hk, e⟩ := List.mem_iff_getElem.1 hm
        have hk' : k < 3 := by simpa using hk
        have hn' : n = [c!"2x2", c!"4x6", c!"7x12"].getD k [] := by
          simp only [List.getD_eq_getElem?_getD, List.getElem?_eq_getElem hk, Option.getD_some]; exact e.symm
        obtain ⟨l', e', -, h3⟩ := h1 k hk' hn'
        rw [hn] at e'; cases e'
        exact ⟨k, hk', hn', fun d r hd => ((h3 d r).1 hd).1⟩
      · rw [h2 hm] at hn; cases hn
    obtain ⟨k, hk, ea, hka⟩ := key a la ha
    obtain ⟨k', hk', eb, hkb⟩ := key b lb hb
    have hne : k ≠ k' := by rintro rfl; exact hab (ea.trans eb.symm)
    have := hka _ _ hi
    have := hkb _ _ hj
    omega
  · rw [hp] at ha hb
    have key : ∀ n l, paper.visits n = .ok l → ∃ k, k < 4 ∧
        n = [c!"superimposed", c!"displaced", c!"elevated", c!"jahnteller"].getD k [] ∧
        ∀ d r, (d, r) ∈ l → 10 * (k + 1) + 1 ≤ d ∧ d ≤ 10 * (k + 1) + 6 := by
      intro n l hn
      obtain ⟨h1, h2⟩ := C121_visits_paper n
      by_cases hm : n ∈ [c!"superimposed", c!"displaced", c!"elevated", c!"jahnteller"]
      · obtain ⟨k, hk, e⟩ := List.mem_iff_getElem.1 hm
        have hk' : k < 4 := by simpa using hk
        have hn' : n = [c!"superimposed", c!"displaced", c!"elevated", c!"jahnteller"].getD k [] := by
          simp only [List.getD_eq_getElem?_getD, List.getElem?_eq_getElem hk, Option.getD_some]; exact e.symm
        obtain ⟨l', e', -, h3⟩ := h1 k hk' hn'
        rw [hn] at e'; cases e'
        exact ⟨k, hk', hn', fun d r hd => ((h3 d r).1 hd).1⟩
      · rw [h2 hm] at hn; cases hn
    obtain ⟨k, hk, ea, hka⟩ := key a la ha
    obtain ⟨k', hk', eb, hkb⟩ := key b lb hb
    have hne : k ≠ k' := by rintro rfl; exact hab (ea.trans eb.symm)
    have := hka _ _ hi
    have := hkb _ _ hj
    omega

theorem systems_disjoint {q : Setting} (hq : Server q) {a b : Str} (hab : a ≠ b) (p : Str) (ha : OfSystem q a p) :
    ¬ OfSystem q b p := by
  rintro ⟨lb, hb, j, t, hj, hpb⟩
  obtain ⟨la, ha, i, r, hi, hpa⟩ := ha
  exact C18_data_sets_disjoint q.absRoot i j (one_system hq hab ha hb hi hj) p hpa hpb

/-- The root has no special characters. -/
theorem root_chars {q : Setting} (hq : Server q) (c : Char) (hc : c = '{' ∨ c = '}' ∨ c = '*' ∨ c = 'P' ∨ c = 'T') :
    c ∉ q.absRoot := by
  have h : c ∉ q.project.serverRoot := by
    rcases hq.project with hp | hp <;> rw [hp] <;> rcases hc with rfl | rfl | rfl | rfl | rfl <;> decide
  rcases hq.root.2.2 with e | e
  · rw [← e]; exact h
  · intro hm; apply h; rw [e]; simp [hm]

theorem in_of_visits {q : Setting} (hq : Server q) {name : Str} {visits : List (Nat × Nat)}
    (hv : q.project.visits name = .ok visits) {i r : Nat} (hi : (i, r) ∈ visits) :
    In (OfSystem q name) (initFS q.project.serverRoot q.absRoot i r) := by
  have hin : ∀ x, OfSystem q name (dataDir q.absRoot i ++ x) := fun x => ⟨visits, hv, i, r, hi, x, rfl⟩
  have hr := resultsDir_init hq.root (root_chars hq _ (by simp)) (root_chars hq _ (by simp))
    (root_chars hq _ (by simp)) (root_chars hq _ (by simp)) (root_chars hq _ (by simp)) i r
  refine ⟨?_, ?_, ?_, _, hr, fun x => ?_⟩
  · rw [initFS_eq hq.root]; simp only [List.append_assoc]; exact hin _
  · rw [initFS_eq hq.root]; simp only [rhoDir, List.append_assoc]; exact hin _
  · rw [initFS_eq hq.root]; simp only [rhoDir, List.append_assoc]; exact hin _
  · simp only [rhoDir, List.append_assoc]; exact hin _

theorem within_begin {q : Setting} (hq : Server q) (name : Str) : Within q name (OfSystem q name) .begin :=
  fun _ hv _ _ hi => in_of_visits hq hv hi

/-! ### C130 -/

/-- Every process within its own region; one process compared with a run of its own. -/
theorem together_same {q : Setting} (hq : Server q) (schedule : Str → List (Nat × Nat) → List (Nat × Nat))
    (moves : List Str) (w : World) (hw : ∀ n, Within q n (OfSystem q n) (w.phases n)) (name : Str)
    (d : Pibronic.Analysis.Disk) (hs : Same (OfSystem q name) w.disk d) :
    (together q schedule moves w).phases name =
      (alone q (schedule name) name (moves.count name) (w.phases name, d)).1 ∧
    Same (OfSystem q name) (together q schedule moves w).disk
      (alone q (schedule name) name (moves.count name) (w.phases name, d)).2 := by
  induction moves generalizing w d with
  | nil => exact ⟨rfl, hs⟩
  | cons m moves ih =>
    simp only [together]
    obtain ⟨e1, e2, e3⟩ := step_same hq.order (schedule m) (hw m) (Same.refl _ w.disk)
    set x := step q (schedule m) m (w.phases m) w.disk with hx
    have hw' : ∀ n, Within q n (OfSystem q n) ((fun n => if n = m then x.1 else w.phases n) n) := by
      intro n
      by_cases hn : n = m
      · subst hn; simpa using e3
      · simpa [hn] using hw n
    by_cases hm : m = name
    · subst hm
      obtain ⟨f1, f2, -⟩ := step_same hq.order (schedule m) (hw m) hs
      have := ih ⟨fun n => if n = m then x.1 else w.phases n, x.2⟩ hw'
        (step q (schedule m) m (w.phases m) d).2 f2
      rw [List.count_cons_self, alone]
      simp only [if_true] at this
      have hpair : (x.1, (step q (schedule m) m (w.phases m) d).2) = step q (schedule m) m (w.phases m) d := by
        rw [show x.1 = _ from f1]
      rw [hpair] at this
      exact this
    · rw [List.count_cons_of_ne hm]
      have hso := step_other (R' := OfSystem q name) (fun p hp => systems_disjoint hq hm p hp) (schedule m) (hw m) w.disk
      have := ih ⟨fun n => if n = m then x.1 else w.phases n, x.2⟩ hw' d (hso.trans hs)
      simpa [Ne.symm hm] using this

/-- C130: whatever the order in which the processes of all systems make their steps, and at every moment, the
process of each system is where it would be, and the files of its data sets are what they would be, if the process
ran alone. -/
theorem C130_separate {q : Setting} (hq : Server q) (schedule : Str → List (Nat × Nat) → List (Nat × Nat))
    (moves : List Str) (d : Pibronic.Analysis.Disk) (name : Str) :
    (together q schedule moves (started d)).phases name =
      (alone q (schedule name) name (moves.count name) (.begin, d)).1 ∧
    Same (OfSystem q name) (together q schedule moves (started d)).disk
      (alone q (schedule name) name (moves.count name) (.begin, d)).2 :=
  together_same hq schedule moves (started d) (fun n => within_begin hq n) name d (Same.refl _ _)

/-- C130: nothing changes outside the data sets of the systems. -/
theorem C130_elsewhere {q : Setting} (hq : Server q) (schedule : Str → List (Nat × Nat) → List (Nat × Nat))
    (moves : List Str) (d : Pibronic.Analysis.Disk) (p : Str) (hp : ∀ name, ¬ OfSystem q name p) :
    (together q schedule moves (started d)).disk.files p = d.files p ∧
    (p ∈ (together q schedule moves (started d)).disk.listing ↔ p ∈ d.listing) := by
  have key : ∀ (moves : List Str) (w : World), (∀ n, Within q n (OfSystem q n) (w.phases n)) →
      Same (fun x => x = p) (together q schedule moves w).disk w.disk := by
    intro moves
    induction moves with
    | nil => intro w _; exact Same.refl _ _
    | cons m moves ih =>
      intro w hw
      simp only [together]
      obtain ⟨-, -, e3⟩ := step_same hq.order (schedule m) (hw m) (Same.refl _ w.disk)
      refine (ih _ fun n => ?_).trans
        (step_other (R' := fun x => x = p) (fun x hx (e : x = p) => hp m (e ▸ hx)) (schedule m) (hw m) w.disk)
      by_cases hn : n = m
      · subst hn; simpa using e3
      · simpa [hn] using hw n
  have := key moves (started d) fun n => within_begin hq n
  exact ⟨this.1 p rfl, this.mem rfl⟩

/-! #### A process that runs alone -/

theorem alone_add (q : Setting) (schedule : List (Nat × Nat) → List (Nat × Nat)) (name : Str) (a b : Nat)
    (x : Phase × Pibronic.Analysis.Disk) :
    alone q schedule name (a + b) x = alone q schedule name b (alone q schedule name a x) := by
  induction a generalizing x with
  | zero => simp [alone]
  | succ a ih => rw [Nat.add_right_comm, alone, ih, alone]

theorem alone_done (q : Setting) (schedule : List (Nat × Nat) → List (Nat × Nat)) (name : Str) (k : Nat)
    (e : Option Err) (d : Pibronic.Analysis.Disk) : alone q schedule name k (.done e, d) = (.done e, d) := by
  induction k with
  | zero => rfl
  | succ k ih => rw [alone]; exact ih

/-- From one point the process comes to another. -/
def Reaches (q : Setting) (schedule : List (Nat × Nat) → List (Nat × Nat)) (name : Str)
    (x y : Phase × Pibronic.Analysis.Disk) : Prop := ∃ k, alone q schedule name k x = y

theorem Reaches.trans {q : Setting} {schedule : List (Nat × Nat) → List (Nat × Nat)} {name : Str}
    {x y z : Phase × Pibronic.Analysis.Disk} (h : Reaches q schedule name x y) (h' : Reaches q schedule name y z) :
    Reaches q schedule name x z := by
  obtain ⟨a, rfl⟩ := h
  obtain ⟨b, rfl⟩ := h'
  exact ⟨a + b, alone_add q schedule name a b x⟩

theorem Reaches.step {q : Setting} {schedule : List (Nat × Nat) → List (Nat × Nat)} {name : Str}
    {x y z : Phase × Pibronic.Analysis.Disk} (h : step q schedule name x.1 x.2 = y) (h' : Reaches q schedule name y z) :
    Reaches q schedule name x z := by
  obtain ⟨b, rfl⟩ := h'
  exact ⟨b + 1, by rw [alone, h]⟩

theorem Reaches.refl (q : Setting) (schedule : List (Nat × Nat) → List (Nat × Nat)) (name : Str)
    (x : Phase × Pibronic.Analysis.Disk) : Reaches q schedule name x x := ⟨0, rfl⟩

theorem reaches_tasks (q : Setting) (schedule : List (Nat × Nat) → List (Nat × Nat)) (name : Str) (s : FS) (op : Op)
    (ts : List (Nat × Nat)) (err : Option Err) (ms : List Bool) (todo : List (Nat × Nat))
    (d : Pibronic.Analysis.Disk) :
    Reaches q schedule name (.tasks s op ts err ms todo, d)
      (.tasks s op [] (err.orElse fun _ => (runTasks q.setOrder s op ts d).2) ms todo,
        (runTasks q.setOrder s op ts d).1) := by
  induction ts generalizing err d with
  | nil => cases err <;> exact Reaches.refl _ _ _ _
  | cons x rest ih =>
    obtain ⟨P, T⟩ := x
    cases ha : analyse q.setOrder s op d P T with
    | error e =>
      refine Reaches.step (y := (.tasks s op rest (some (err.getD e)) ms todo, d)) (by simp [step, ha]) ?_
      have := ih (some (err.getD e)) d
      simp only [runTasks, starmapWrapper, ha, bind, Except.bind]
      cases err <;> exact this
    | ok r =>
      refine Reaches.step (y := (.write r.1 r.2 s op rest err ms todo, d)) (by simp [step, ha]) ?_
      refine Reaches.step (y := (.tasks s op rest err ms todo, d.write r.1 (.thermo r.2))) rfl ?_
      have := ih err (d.write r.1 (.thermo r.2))
      simp only [runTasks, starmapWrapper, ha, bind, Except.bind]
      exact this

/-- The methods of one object. -/
theorem reaches_methods {q : Setting} {R : Str → Prop} (schedule : List (Nat × Nat) → List (Nat × Nat)) (name : Str)
    (ms : List Bool) (s : FS) (hs : In R s) (todo : List (Nat × Nat)) (d : Pibronic.Analysis.Disk) :
    Reaches q schedule name (.method s ms todo, d)
      (match analyses q.hash q.setOrder schedule (ms.map fun j => (j, false)) s d with
        | (d', some e) => (.done (some e), d')
        | (d', none) => (.next todo, d')) := by
  induction ms generalizing s d with
  | nil => exact Reaches.step rfl (Reaches.refl _ _ _ _)
  | cons j ms ih =>
    have hop : chooseOp j ⟨c!"basic", true⟩ = some (if j then .basicJackknife else .basic) := by
      cases j <;> decide
    have hloc : (⟨c!"local", true⟩ : PyStr).isLit c!"local" = true := by decide
    simp only [List.map_cons, analyses, Bool.false_eq_true, if_false]
    cases hp : plan q.hash s d with
    | error e =>
      simp only [analysisOfPimc, hp]
      exact Reaches.step (by simp [step, hp]) (Reaches.refl _ _ _ _)
    | ok x =>
      obtain ⟨s', ts⟩ := x
      obtain ⟨h1, h2⟩ := plan_in hs q.hash hp
      simp only [analysisOfPimc, hp, hop, hloc, if_true, h2]
      refine Reaches.step (y := (.tasks s' (if j then .basicJackknife else .basic) (schedule ts) none ms todo, d))
        (by simp [step, hp]) ?_
      refine (reaches_tasks q schedule name s' _ (schedule ts) none ms todo d).trans ?_
      cases hr : runTasks q.setOrder s' (if j then .basicJackknife else .basic) (schedule ts) d with
      | mk d' err =>
        cases err with
        | some e => exact Reaches.step rfl (Reaches.refl _ _ _ _)
        | none => exact Reaches.step (y := (.method s' ms todo, d')) rfl (ih s' h1 d')

theorem reaches_loop {q : Setting} {R : Str → Prop} (schedule : List (Nat × Nat) → List (Nat × Nat)) (name : Str)
    (todo : List (Nat × Nat)) (ht : Todo q R todo) (d : Pibronic.Analysis.Disk) :
    Reaches q schedule name (.next todo, d)
      (.done (analysisLoop q schedule todo d).2, (analysisLoop q schedule todo d).1) := by
  induction todo generalizing d with
  | nil => exact Reaches.step rfl (Reaches.refl _ _ _ _)
  | cons x rest ih =>
    obtain ⟨i, r⟩ := x
    have hr : Todo q R rest := fun a b hm => ht a b (List.mem_cons_of_mem _ hm)
    simp only [analysisLoop]
    by_cases h1 : q.rootThere = false
    · simp only [if_pos h1]
      exact Reaches.step (by simp [step, h1]) (Reaches.refl _ _ _ _)
    · simp only [if_neg h1]
      by_cases h2 : (d.files (initFS q.project.serverRoot q.absRoot i r).pathRhoModel).isSome = true
      · rw [if_pos h2]
        refine Reaches.step (y := (.method (initFS q.project.serverRoot q.absRoot i r) [false, true] rest, d))
          (by simp only [step, if_neg h1, if_pos h2]) ?_
        refine (reaches_methods schedule name [false, true] _ (ht i r (by simp)) rest d).trans ?_
        simp only [simpleWrapper, List.map_cons, List.map_nil]
        cases analyses q.hash q.setOrder schedule [(false, false), (true, false)]
            (initFS q.project.serverRoot q.absRoot i r) d with
        | mk d' err =>
          cases err with
          | some e => exact Reaches.refl _ _ _ _
          | none => exact ih hr d'
      · rw [if_neg h2]
        exact Reaches.step (y := (.next rest, d)) (by simp only [step, if_neg h1, if_neg h2]) (ih hr d)

/-- A process that runs alone does what the program for one system does. -/
theorem reaches_end {q : Setting} (hq : Server q) (schedule : List (Nat × Nat) → List (Nat × Nat)) (name : Str)
    (d : Pibronic.Analysis.Disk) : Reaches q schedule name (.begin, d)
      (.done (automateAnalysis q schedule name d).2, (automateAnalysis q schedule name d).1) := by
  simp only [automateAnalysis]
  cases h1 : q.project.assertName name with
  | error e => exact Reaches.step (by simp [step, h1]) (Reaches.refl _ _ _ _)
  | ok u =>
    cases h2 : q.project.chooseRoot q.host with
    | error e => exact Reaches.step (by simp [step, h1, h2]) (Reaches.refl _ _ _ _)
    | ok u' =>
      cases h3 : q.project.visits name with
      | error e => exact Reaches.step (by simp [step, h1, h2, h3]) (Reaches.refl _ _ _ _)
      | ok visits =>
        exact Reaches.step (y := (.next visits, d)) (by simp [step, h1, h2, h3])
          (reaches_loop schedule name visits (within_begin hq name visits h3) d)

/-- C130: every process ends after a number of steps that does not depend on the others, and when it has ended
the files of its data sets, and its exception, are those of the program run for this system alone on the disk
that was there at the beginning. -/
theorem C130_as_if_alone {q : Setting} (hq : Server q) (schedule : Str → List (Nat × Nat) → List (Nat × Nat))
    (d : Pibronic.Analysis.Disk) (name : Str) :
    (∃ k, ∀ moves : List Str, k ≤ moves.count name →
      ∃ err, (together q schedule moves (started d)).phases name = .done err) ∧
    ∀ moves err, (together q schedule moves (started d)).phases name = .done err →
      err = (automateAnalysis q (schedule name) name d).2 ∧
      Same (OfSystem q name) (together q schedule moves (started d)).disk
        (automateAnalysis q (schedule name) name d).1 := by
  obtain ⟨k, hk⟩ := reaches_end hq (schedule name) name d
  refine ⟨⟨k, fun moves hm => ⟨(automateAnalysis q (schedule name) name d).2, ?_⟩⟩, fun moves err he => ?_⟩
  · rw [(C130_separate hq schedule moves d name).1]
    obtain ⟨b, hb⟩ := Nat.exists_eq_add_of_le hm
    rw [hb, alone_add, hk, alone_done]
  · obtain ⟨e1, e2⟩ := C130_separate hq schedule moves d name
    rw [he] at e1
    have hpair : alone q (schedule name) name (moves.count name) (.begin, d) =
        (.done err, (alone q (schedule name) name (moves.count name) (.begin, d)).2) := by rw [e1]
    have : (Phase.done err, (alone q (schedule name) name (moves.count name) (.begin, d)).2) =
        (.done (automateAnalysis q (schedule name) name d).2, (automateAnalysis q (schedule name) name d).1) := by
      rw [← hpair]
      rcases Nat.le_total k (moves.count name) with hle | hle
      · obtain ⟨b, hb⟩ := Nat.exists_eq_add_of_le hle
        rw [hb, alone_add, hk, alone_done]
      · obtain ⟨b, hb⟩ := Nat.exists_eq_add_of_le hle
        rw [hb, alone_add, hpair, alone_done] at hk
        rw [hpair, hk]
    simp only [Prod.mk.injEq, Phase.done.injEq] at this
    exact ⟨this.1, this.2 ▸ e2⟩

/-! #### What is left in the end -/

/-- The results of a sampling distribution of a data set. -/
def resultsOf (q : Setting) (i r : Nat) : Str := rhoDir q.absRoot i r ++ c!"results/"

/-- The object for a sampling distribution of a data set. -/
def objectOf (q : Setting) (i r : Nat) : FS := initFS q.project.serverRoot q.absRoot i r

/-- Everything an analysis needs is there: readable results on a complete grid, both models, and the
analytical results of these models for every temperature. -/
structure Ready (q : Setting) (hv hr : Str) (an : Nat → Analytic.AnalyticData ℝ) (i r : Nat)
    (d : Pibronic.Analysis.Disk) : Prop where
  readable : Readable d (resultsOf q i r)
  grid : CompleteGrid d (resultsOf q i r)
  models : ModelsAre q.hash (objectOf q i r) d hv hr
  analytic : ∀ P T, HasData d (resultsOf q i r) P T →
    Analytic.loadAnalytic ⟨hv, hr⟩ T (d.analytic (objectOf q i r).pathAnalyticRho) = .ok (an T)

/-- There is a sampling model. -/
def HasModel (q : Setting) (i r : Nat) (d : Pibronic.Analysis.Disk) : Prop :=
  (d.files (objectOf q i r).pathRhoModel).isSome = true

/-- `t` is the result of the basic jackknife analysis of all samples of a pair. -/
def IsResult (q : Setting) (hv hr : Str) (an : Nat → Analytic.AnalyticData ℝ) (i r : Nat)
    (d : Pibronic.Analysis.Disk) (P T X : Nat) (t : Thermo) : Prop :=
  IsThermoOf d (resultsOf q i r) hv hr true false ⟨(an T).E, (an T).Cv, (an T).alphaPlus, (an T).alphaMinus⟩ P T X t

theorem analyses_nodup (hash : Str → Str) (setOrder : List Str → List Str)
    (schedule : List (Nat × Nat) → List (Nat × Nat)) (ms : List (Bool × Bool)) (s : FS) (d : Pibronic.Analysis.Disk)
    (h : d.listing.Nodup) : (analyses hash setOrder schedule ms s d).1.listing.Nodup := by
  induction ms generalizing s d with
  | nil => exact h
  | cons m ms ih =>
    obtain ⟨j, a⟩ := m
    have h1 := analysis_nodup hash setOrder j ⟨if a then c!"alpha" else c!"basic", true⟩ ⟨c!"local", true⟩ schedule s d h
    unfold analyses
    split
    · next heq => rw [heq] at h1; exact h1
    · next heq =>
      rw [heq] at h1
      split
      · exact ih _ _ h1
      · exact h1

theorem rho_apart {absRoot : Str} {i r i' r' : Nat} (hne : (i, r) ≠ (i', r')) {p : Str}
    (h : Inside (rhoDir absRoot i r) p) : ¬ Inside (rhoDir absRoot i' r') p := by
  by_cases hi : i = i'
  · subst hi
    exact C18_rho_disjoint absRoot i r r' (fun e => hne (by rw [e])) p h
  · intro h'
    have key : ∀ j t, Inside (rhoDir absRoot j t) p → Inside (dataDir absRoot j) p := by
      rintro j t ⟨x, rfl⟩
      exact ⟨c!"rho_" ++ natStr t ++ c!"/" ++ x, by simp [rhoDir]⟩
    exact C18_data_sets_disjoint absRoot i i' hi p (key _ _ h) (key _ _ h')

theorem thermo_inside (q : Setting) (i r P T X : Nat) :
    Inside (rhoDir q.absRoot i r) (thermoPath (resultsOf q i r) P T X) :=
  ⟨c!"results/" ++ jackknife (natStr P) (tempStr T) (natStr X), by simp [thermoPath, resultsOf]⟩

theorem object_json {q : Setting} (hq : Server q) (i r : Nat) : c!".json" <:+ (objectOf q i r).pathVibModel ∧
    c!".json" <:+ (objectOf q i r).pathRhoModel ∧
    Inside (rhoDir q.absRoot i r) (objectOf q i r).pathRhoModel ∧
    Inside (rhoDir q.absRoot i r) (objectOf q i r).pathAnalyticRho := by
  unfold objectOf
  rw [initFS_eq hq.root]
  refine ⟨⟨dataDir q.absRoot i ++ c!"parameters/coupled_model", by simp⟩,
    ⟨rhoDir q.absRoot i r ++ c!"parameters/sampling_model", by simp⟩,
    ⟨c!"parameters/sampling_model.json", by simp⟩, ⟨c!"parameters/analytic_results.json", by simp⟩⟩

/-- The analysis of one sampling distribution leaves everything in place for the others. -/
theorem Ready.others {q : Setting} (hq : Server q) {hv hr : Str} {an : Nat → Analytic.AnalyticData ℝ} {i r j t : Nat}
    (hne : (j, t) ≠ (i, r)) {d d' : Pibronic.Analysis.Disk} (hn : d'.listing.Nodup)
    (hf : ∀ p, (∀ P T X, p ≠ thermoPath (resultsOf q j t) P T X) →
      d'.files p = d.files p ∧ (p ∈ d'.listing ↔ p ∈ d.listing)) :
    (HasModel q i r d' ↔ HasModel q i r d) ∧ SamePimc (resultsOf q i r) d d' ∧
    (Ready q hv hr an i r d → Ready q hv hr an i r d') := by
  have hin : ∀ p, Inside (rhoDir q.absRoot i r) p → d'.files p = d.files p ∧ (p ∈ d'.listing ↔ p ∈ d.listing) :=
    fun p hp => hf p fun P T X e => rho_apart hne (e ▸ thermo_inside q j t P T X) hp
  obtain ⟨o1, o2, o3, o4⟩ := object_json hq i r
  have hs : SamePimc (resultsOf q i r) d d' := fun P T J =>
    hin _ ⟨c!"results/" ++ pimc P T J, by simp [resultsOf]⟩
  refine ⟨by unfold HasModel; rw [(hin _ o3).1], hs, fun h => ⟨hs.readable hn h.readable, hs.grid h.grid, ?_, ?_⟩⟩
  · obtain ⟨tv, tr, m1, m2, m3⟩ := h.models
    exact ⟨tv, tr, by rw [(hf _ (json_path_ne o1 _)).1, m1], by rw [(hin _ o3).1, m2], m3⟩
  · intro P T hPT
    have : d'.analytic (objectOf q i r).pathAnalyticRho = d.analytic (objectOf q i r).pathAnalyticRho := by
      unfold Disk.analytic
      rw [(hin _ o4).1]
    rw [this]
    exact h.analytic P T ((hs.hasData P T).1 hPT)

theorem loop_ok {q : Setting} (hq : Server q) (hroot : q.rootThere = true)
    (schedule : List (Nat × Nat) → List (Nat × Nat)) (hsch : ∀ l, (schedule l).Perm l)
    (hv hr : Nat → Nat → Str) (an : Nat → Nat → Nat → Analytic.AnalyticData ℝ) (visits : List (Nat × Nat))
    (hnd : visits.Nodup) (d : Pibronic.Analysis.Disk)
    (hready : ∀ i r, (i, r) ∈ visits → HasModel q i r d → Ready q (hv i r) (hr i r) (an i r) i r d) :
    ∃ d', analysisLoop q schedule visits d = (d', none) ∧
      (∀ i r, (i, r) ∈ visits → HasModel q i r d → ∀ P T, HasData d (resultsOf q i r) P T →
        ∃ X t, d'.files (thermoPath (resultsOf q i r) P T X) = some (.thermo t) ∧
          thermoPath (resultsOf q i r) P T X ∈ d'.listing ∧ IsResult q (hv i r) (hr i r) (an i r) i r d P T X t) ∧
      ∀ p, (∀ i r, (i, r) ∈ visits → HasModel q i r d → ∀ P T X t, HasData d (resultsOf q i r) P T →
          IsResult q (hv i r) (hr i r) (an i r) i r d P T X t → p ≠ thermoPath (resultsOf q i r) P T X) →
        d'.files p = d.files p ∧ (p ∈ d'.listing ↔ p ∈ d.listing) := by
  induction visits generalizing d with
  | nil => exact ⟨d, rfl, by simp, fun p _ => ⟨rfl, Iff.rfl⟩⟩
  | cons v rest ih =>
    obtain ⟨i, r⟩ := v
    rw [List.nodup_cons] at hnd
    have hne : ∀ i' r', (i', r') ∈ rest → (i, r) ≠ (i', r') := fun i' r' hm e => hnd.1 (e ▸ hm)
    by_cases hm : HasModel q i r d
    · have hrd := hready i r (by simp) hm
      have hres := resultsDir_init hq.root (root_chars hq _ (by simp)) (root_chars hq _ (by simp))
        (root_chars hq _ (by simp)) (root_chars hq _ (by simp)) (root_chars hq _ (by simp)) i r
      obtain ⟨o1, o2, -, -⟩ := object_json hq i r
      obtain ⟨d1, X, t, a1, a2, a3⟩ := C120_last_analysis_stays q.hash q.setOrder hq.order schedule hsch
        [(false, false)] true false hres o1 o2 hrd.readable hrd.grid hrd.models
        (.inl (by rw [initFS_eq hq.root])) (an i r) hrd.analytic
      have hn1 : d1.listing.Nodup := by
        have := analyses_nodup q.hash q.setOrder schedule ([(false, false)] ++ [(true, false)])
          (initFS q.project.serverRoot q.absRoot i r) d hrd.readable.nodup
        rw [a1] at this
        exact this
      have hf : ∀ p, (∀ P T X, p ≠ thermoPath (resultsOf q i r) P T X) →
          d1.files p = d.files p ∧ (p ∈ d1.listing ↔ p ∈ d.listing) := fun p hp => a3 p fun P T _ => hp P T _
      have hoth := fun i' r' (hm' : (i', r') ∈ rest) =>
        Ready.others hq (hv := hv i' r') (hr := hr i' r') (an := an i' r') (hne i' r' hm') hn1 hf
      obtain ⟨d2, b1, b2, b3⟩ := ih hnd.2 d1 fun i' r' hm' hmod =>
        (hoth i' r' hm').2.2 (hready i' r' (List.mem_cons_of_mem _ hm') ((hoth i' r' hm').1.1 hmod))
      have hloop : analysisLoop q schedule ((i, r) :: rest) d = (d2, none) := by
        have a1' : simpleWrapper q schedule (initFS q.project.serverRoot q.absRoot i r) d = (d1, none) := a1
        have hm' : (d.files (initFS q.project.serverRoot q.absRoot i r).pathRhoModel).isSome = true := hm
        simp only [analysisLoop, hroot, Bool.true_eq_false, if_false, hm', if_true, a1', b1]
      have hback : ∀ i' r' (hm' : (i', r') ∈ rest) P T X' t', IsResult q (hv i' r') (hr i' r') (an i' r') i' r' d1 P T X' t'
          → IsResult q (hv i' r') (hr i' r') (an i' r') i' r' d P T X' t' := fun i' r' hm' P T X' t' h =>
        (hoth i' r' hm').2.1.isThermoOf h
      refine ⟨d2, hloop, fun i' r' hmem hmod P T hPT => ?_, fun p hp => ?_⟩
      · rcases List.mem_cons.1 hmem with e | hmem
        · cases e
          obtain ⟨c1, c2, c3⟩ := a2 P T hPT
          obtain ⟨f1, f2⟩ := b3 (thermoPath (resultsOf q i r) P T (X P T)) fun i' r' hm' _ P' T' X' _ _ _ e =>
            rho_apart (hne i' r' hm') (thermo_inside q i r P T (X P T)) (e ▸ thermo_inside q i' r' P' T' X')
          exact ⟨X P T, t P T, f1.trans c1, f2.2 c2, c3⟩
        · obtain ⟨o1, o2, -⟩ := hoth i' r' hmem
          obtain ⟨X', t', c1, c2, c3⟩ := b2 i' r' hmem (o1.2 hmod) P T ((o2.hasData P T).2 hPT)
          exact ⟨X', t', c1, c2, hback i' r' hmem P T X' t' c3⟩
      · obtain ⟨f1, f2⟩ := a3 p fun P T hPT => hp i r (by simp) hm P T (X P T) (t P T) hPT (a2 P T hPT).2.2
        obtain ⟨g1, g2⟩ := b3 p fun i' r' hm' hmod P T X' t' hPT hres =>
          hp i' r' (List.mem_cons_of_mem _ hm') ((hoth i' r' hm').1.1 hmod) P T X' t'
            (((hoth i' r' hm').2.1.hasData P T).1 hPT) (hback i' r' hm' P T X' t' hres)
        exact ⟨g1.trans f1, g2.trans f2⟩
    · obtain ⟨d2, b1, b2, b3⟩ := ih hnd.2 d fun i' r' hm' hmod => hready i' r' (List.mem_cons_of_mem _ hm') hmod
      refine ⟨d2, ?_, fun i' r' hmem hmod => ?_, fun p hp => b3 p fun i' r' hm' => hp i' r' (List.mem_cons_of_mem _ hm')⟩
      · have hm' : ¬ (d.files (initFS q.project.serverRoot q.absRoot i r).pathRhoModel).isSome = true := hm
        simp only [analysisLoop, hroot, Bool.true_eq_false, if_false]
        rw [if_neg hm', b1]
      · rcases List.mem_cons.1 hmem with e | hmem
        · cases e; exact absurd hmod hm
        · exact b2 i' r' hmem hmod

/-- C130: on a server, if everything the analyses of a system need is there at the beginning, then whatever the
processes of the other systems do and find, and in whatever order all steps are made, the process of this system ends
without an exception, and then every number of beads and temperature with results has, for every sampling distribution
of the system that has a model, the jackknife analysis of all its samples; no other file of the system has changed. -/
theorem C130_results {q : Setting} (hq : Server q) (hhost : q.host = c!"nlogn" ∨ q.host = c!"feynman")
    (hroot : q.rootThere = true) (schedule : Str → List (Nat × Nat) → List (Nat × Nat))
    (name : Str) (hsch : ∀ l, (schedule name l).Perm l)
    (hv hr : Nat → Nat → Str) (an : Nat → Nat → Nat → Analytic.AnalyticData ℝ) {visits : List (Nat × Nat)}
    (hvis : q.project.visits name = .ok visits) (d : Pibronic.Analysis.Disk)
    (hready : ∀ i r, (i, r) ∈ visits → HasModel q i r d → Ready q (hv i r) (hr i r) (an i r) i r d)
    (moves : List Str) (err : Option Err) (hend : (together q schedule moves (started d)).phases name = .done err) :
    err = none ∧
    (∀ i r, (i, r) ∈ visits → HasModel q i r d → ∀ P T, HasData d (resultsOf q i r) P T →
      ∃ X t, (together q schedule moves (started d)).disk.files (thermoPath (resultsOf q i r) P T X) = some (.thermo t) ∧
        IsResult q (hv i r) (hr i r) (an i r) i r d P T X t) ∧
    ∀ p, OfSystem q name p → (∀ i r, (i, r) ∈ visits → HasModel q i r d → ∀ P T X t,
        HasData d (resultsOf q i r) P T → IsResult q (hv i r) (hr i r) (an i r) i r d P T X t →
        p ≠ thermoPath (resultsOf q i r) P T X) →
      (together q schedule moves (started d)).disk.files p = d.files p := by
  obtain ⟨e1, e2⟩ := (C130_as_if_alone hq schedule d name).2 moves err hend
  have hnd : visits.Nodup ∧ q.project.assertName name = .ok () := by
    have hass : q.project.assertName name = .ok () := by
      cases hn : q.project.assertName name with
      | ok u => rfl
      | error e => simp [Project.visits, hn, bind, Except.bind] at hvis
    refine ⟨?_, hass⟩
    rcases hq.project with hp | hp
    · rw [hp] at hvis
      by_cases hmem : name ∈ [c!"2x2", c!"4x6", c!"7x12"]
      · obtain ⟨k, hk, e⟩ := List.mem_iff_getElem.1 hmem
        obtain ⟨l', e', h2, -⟩ := (C121_visits_artificial name).1 k (by simpa using hk)
          (by simp only [List.getD_eq_getElem?_getD, List.getElem?_eq_getElem hk, Option.getD_some]; exact e.symm)
        rw [hvis] at e'; cases e'; exact h2
      · rw [(C121_visits_artificial name).2 hmem] at hvis; cases hvis
    · rw [hp] at hvis
      by_cases hmem : name ∈ [c!"superimposed", c!"displaced", c!"elevated", c!"jahnteller"]
      · obtain ⟨k, hk, e⟩ := List.mem_iff_getElem.1 hmem
        obtain ⟨l', e', h2, -⟩ := (C121_visits_paper name).1 k (by simpa using hk)
          (by simp only [List.getD_eq_getElem?_getD, List.getElem?_eq_getElem hk, Option.getD_some]; exact e.symm)
        rw [hvis] at e'; cases e'; exact h2
      · rw [(C121_visits_paper name).2 hmem] at hvis; cases hvis
  have hcr : q.project.chooseRoot q.host = .ok q.project.serverRoot := by
    unfold Project.chooseRoot; rw [if_pos hhost]
  obtain ⟨d', l1, l2, l3⟩ := loop_ok hq hroot (schedule name) hsch hv hr an visits hnd.1 d hready
  have hauto : automateAnalysis q (schedule name) name d = (d', none) := by
    simp only [automateAnalysis, hnd.2, hcr, hvis, l1]
  rw [hauto] at e1 e2
  refine ⟨e1, fun i r hm hmod P T hPT => ?_, fun p hp hne => ?_⟩
  · obtain ⟨X, t, c1, -, c3⟩ := l2 i r hm hmod P T hPT
    refine ⟨X, t, ?_, c3⟩
    rw [e2.1 _ ⟨visits, hvis, i, r, hm, ?_⟩, c1]
    exact ⟨c!"rho_" ++ natStr r ++ c!"/results/" ++ jackknife (natStr P) (tempStr T) (natStr X), by
      simp [thermoPath, resultsOf, rhoDir]⟩
  · rw [e2.1 p hp, (l3 p hne).1]

/-! #### A server that meets the hypotheses -/

/-- The example projects on the first server. -/
def qE : Setting := ⟨artificial, c!"nlogn", c!"/work/ngraymon/pimc/artificial", true, id, id⟩

theorem serverE : Server qE :=
  ⟨.inl rfl, ⟨by decide, by decide, .inr rfl⟩, fun _ => .refl _⟩

/-- The result of the only job. -/
def jobE : Str := pimcPath (resultsOf qE 11 0) 50 30000 7

/-- A disk with one finished job, for the first sampling distribution of the data set 11. -/
noncomputable def diskE : Pibronic.Analysis.Disk where
  listing := [jobE]
  files := fun p =>
    if p = jobE then some (.npz (file0 [] 3))
    else if p = (objectOf qE 11 0).pathVibModel then some (.text c!"v")
    else if p = (objectOf qE 11 0).pathRhoModel then some (.text c!"r")
    else if p = (objectOf qE 11 0).pathAnalyticRho then some (.analytic (.dict fun k =>
      if k = c!"hash_vib" then some (.hash c!"v")
      else if k = c!"hash_rho" then some (.hash c!"r")
      else some (.entry fun _ => some 7)))
    else none

theorem pathsE (i r : Nat) :
    (objectOf qE i r).pathVibModel = dataDir qE.absRoot i ++ c!"parameters/coupled_model" ++ c!".json" ∧
    (objectOf qE i r).pathRhoModel = rhoDir qE.absRoot i r ++ c!"parameters/sampling_model" ++ c!".json" ∧
    (objectOf qE i r).pathAnalyticRho = rhoDir qE.absRoot i r ++ c!"parameters/analytic_results" ++ c!".json" := by
  unfold objectOf
  rw [initFS_eq serverE.root]
  simp

theorem json_ne_job (x : Str) : x ++ c!".json" ≠ jobE := by
  have e : jobE = (resultsOf qE 11 0 ++ (c!"P" ++ natStr 50 ++ c!"_T" ++ tempStr 30000 ++ c!"_J" ++
      natStr 7 ++ c!"_data_points")) ++ c!".npz" := by simp [jobE, pimcPath, pimc]
  rw [e]
  exact json_ne _ _

theorem hasModelE (i r : Nat) (h : HasModel qE i r diskE) : i = 11 ∧ r = 0 := by
  by_contra hne
  have hne : (i, r) ≠ (11, 0) := fun e => hne (by simpa using e)
  obtain ⟨-, -, o3, -⟩ := object_json serverE i r
  obtain ⟨-, -, p3, p4⟩ := object_json serverE 11 0
  have h1 : (objectOf qE i r).pathRhoModel ≠ jobE := by
    rw [(pathsE i r).2.1]; exact json_ne_job _
  have h2 : (objectOf qE i r).pathRhoModel ≠ (objectOf qE 11 0).pathVibModel := by
    rw [(pathsE i r).2.1, (pathsE 11 0).1]
    intro e
    have e2 := List.append_inj_left' e rfl
    have h3 : Inside (dataDir qE.absRoot i) (dataDir qE.absRoot 11 ++ c!"parameters/coupled_model") := by
      rw [← e2]
      exact ⟨c!"rho_" ++ natStr r ++ c!"/parameters/sampling_model", by simp [rhoDir]⟩
    by_cases hi : i = 11
    · subst hi
      simp [rhoDir] at e2
    · exact C18_data_sets_disjoint qE.absRoot i 11 hi _ h3 ⟨_, rfl⟩
  have h3 : (objectOf qE i r).pathRhoModel ≠ (objectOf qE 11 0).pathRhoModel := fun e =>
    rho_apart hne o3 (e ▸ p3)
  have h4 : (objectOf qE i r).pathRhoModel ≠ (objectOf qE 11 0).pathAnalyticRho := fun e =>
    rho_apart hne o3 (e ▸ p4)
  simp [HasModel, diskE, h1, h2, h3, h4] at h

theorem filesE : diskE.files (objectOf qE 11 0).pathVibModel = some (.text c!"v") ∧
    diskE.files (objectOf qE 11 0).pathRhoModel = some (.text c!"r") ∧
    diskE.files (objectOf qE 11 0).pathAnalyticRho = some (.analytic (.dict fun k =>
      if k = c!"hash_vib" then some (.hash c!"v")
      else if k = c!"hash_rho" then some (.hash c!"r")
      else some (.entry fun _ => some 7))) := by
  obtain ⟨e1, e2, e3⟩ := pathsE 11 0
  have h1 : (objectOf qE 11 0).pathVibModel ≠ jobE := by rw [e1]; exact json_ne_job _
  have h2 : (objectOf qE 11 0).pathRhoModel ≠ jobE := by rw [e2]; exact json_ne_job _
  have h3 : (objectOf qE 11 0).pathAnalyticRho ≠ jobE := by rw [e3]; exact json_ne_job _
  have h4 : (objectOf qE 11 0).pathRhoModel ≠ (objectOf qE 11 0).pathVibModel := by rw [e1, e2]; simp [rhoDir]
  have h5 : (objectOf qE 11 0).pathAnalyticRho ≠ (objectOf qE 11 0).pathVibModel := by rw [e1, e3]; simp [rhoDir]
  have h6 : (objectOf qE 11 0).pathAnalyticRho ≠ (objectOf qE 11 0).pathRhoModel := by rw [e2, e3]; simp
  refine ⟨?_, ?_, ?_⟩
  · simp [diskE, h1]
  · simp [diskE, h2, h4]
  · simp [diskE, h3, h5, h6]

theorem hasDataE (P T J : Nat) (h : pimcPath (resultsOf qE 11 0) P T J ∈ diskE.listing) :
    P = 50 ∧ T = 30000 ∧ J = 7 := by
  simp only [diskE, List.mem_singleton] at h
  exact C13_pimc_injective (resultsOf qE 11 0) h

theorem readyE : Ready qE c!"v" c!"r" (fun _ => an0) 11 0 diskE := by
  have hjob : diskE.files jobE = some (.npz (file0 [] 3)) := by simp [diskE]
  refine ⟨⟨by simp [diskE], ?_, ?_, ?_⟩, ?_, ?_, ?_⟩
  · intro p hp _
    simp only [diskE, List.mem_singleton] at hp
    exact ⟨50, 30000, 7, hp⟩
  · intro P T J h
    obtain ⟨rfl, rfl, rfl⟩ := hasDataE P T J h
    exact ⟨_, hjob, fun _ => (file0_usable [] 3).2⟩
  · rintro P T ⟨J, h⟩
    obtain ⟨rfl, rfl, rfl⟩ := hasDataE P T J h
    exact ⟨7, _, h, hjob, (file0_usable [] 3).1⟩
  · rintro P T P' T' ⟨J, h⟩ ⟨J', h'⟩
    obtain ⟨rfl, rfl, rfl⟩ := hasDataE _ _ _ h
    obtain ⟨rfl, rfl, rfl⟩ := hasDataE _ _ _ h'
    exact ⟨7, h⟩
  · exact ⟨c!"v", c!"r", filesE.1, filesE.2.1, rfl, rfl⟩
  · intro P T _
    have hT : ∀ k : Str, 'h' ∈ k → tempStr T ≠ k := by
      rintro k hk rfl
      exact notMem_tempStr (by decide) (by decide) T hk
    have h3 := hT c!"hash_vib" (by decide)
    have h4 := hT c!"hash_rho" (by decide)
    simp [Disk.analytic, filesE.2.2, Analytic.loadAnalytic, Analytic.hasHash, h3, h4,
      Analytic.getKey, Analytic.pyDiv, bind, Except.bind, an0]

/-- The hypotheses of `C130_results` can be met by the systems `2x2` and `4x6`: the first has a finished job, the
second has no model; the process of the first system ends whatever the other does. -/
example (schedule : Str → List (Nat × Nat) → List (Nat × Nat)) (hsch : ∀ n l, (schedule n l).Perm l) :
    ∃ k, ∀ moves : List Str, k ≤ moves.count c!"2x2" →
      ∃ X t, (together qE schedule moves (started diskE)).disk.files
          (thermoPath (rhoDir c!"/work/ngraymon/pimc/artificial" 11 0 ++ c!"results/") 50 30000 X) = some (.thermo t) ∧
        t.hashVib = c!"v" := by
  obtain ⟨k, hk⟩ := (C130_as_if_alone serverE schedule diskE c!"2x2").1
  obtain ⟨visits, hvis, -, hmem⟩ := (C121_visits_artificial c!"2x2").1 0 (by decide) rfl
  refine ⟨k, fun moves hm => ?_⟩
  obtain ⟨err, he⟩ := hk moves hm
  obtain ⟨-, h2, -⟩ := C130_results serverE (.inl rfl) rfl schedule c!"2x2" (hsch _) (fun _ _ => c!"v")
    (fun _ _ => c!"r") (fun _ _ _ => an0) hvis diskE
    (fun i r _ hmod => by obtain ⟨rfl, rfl⟩ := hasModelE i r hmod; exact readyE) moves err he
  obtain ⟨X, t, a, b⟩ := h2 11 0 ((hmem 11 0).2 (by omega)) (by simp [HasModel, filesE.2.1]) 50 30000
    ⟨7, by simp [diskE, jobE]⟩
  exact ⟨X, t, a, b.1⟩

/-- There are files of two systems, and files of none. -/
example : OfSystem qE c!"2x2" (dataDir qE.absRoot 11) ∧ OfSystem qE c!"4x6" (dataDir qE.absRoot 21) ∧
    ∀ name, ¬ OfSystem qE name c!"/tmp" := by
  obtain ⟨v1, h1, -, m1⟩ := (C121_visits_artificial c!"2x2").1 0 (by decide) rfl
  obtain ⟨v2, h2, -, m2⟩ := (C121_visits_artificial c!"4x6").1 1 (by decide) rfl
  refine ⟨⟨v1, h1, 11, 0, (m1 11 0).2 (by omega), [], by simp⟩, ⟨v2, h2, 21, 0, (m2 21 0).2 (by omega), [], by simp⟩, ?_⟩
  rintro name ⟨_, _, i, r, _, x, hx⟩
  have := congrArg (fun l => l.take 2) hx
  simp [dataDir, qE] at this

end Pibronic.Props.ExamplesAnalysis
