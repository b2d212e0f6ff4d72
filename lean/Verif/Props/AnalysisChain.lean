import Verif.Props.Analysis
import Verif.Props.ThermoText

set_option autoImplicit false

/-! C120: one analysis after another, and from the samples to the table of a plot. -/
namespace Pibronic.Props.AnalysisChain
open Pibronic.Py Pibronic.FileName Pibronic.Postprocessing
open Pibronic.FileStructure hiding Disk Disk.isDir Disk.makedirs
open Pibronic.Analysis Pibronic.Props.Postprocessing Pibronic.Props.Results Pibronic.Props.Analysis
open Pibronic.Spec.Results (Usable numberAt rhoAt gAt gPAt gMAt)

/-- `d'` differs from `d` at most in thermo files. -/
structure OnlyThermo (dir : Str) (d d' : Disk) : Prop where
  files : ∀ p, (∀ P T X, p ≠ thermoPath dir P T X) → d'.files p = d.files p
  listing : ∀ p, (∀ P T X, p ≠ thermoPath dir P T X) → (p ∈ d'.listing ↔ p ∈ d.listing)

theorem suffix_ne {a e : Str} (he : e.length ≤ 7) (hne : ¬ e <:+ c!"_thermo") (h : e <:+ a) (dir : Str)
    (P T X : Nat) : a ≠ thermoPath dir P T X := by
  rintro rfl
  apply hne
  refine List.suffix_of_suffix_length_le h
    ⟨dir ++ (c!"P" ++ natStr P ++ c!"_T" ++ tempStr T ++ c!"_X" ++ natStr X), ?_⟩ (by simpa using he)
  simp [thermoPath, jackknife]

theorem pimc_ne (dir : Str) (P T J : Str) (P' T' X' : Nat) :
    dir ++ pimc P T J ≠ thermoPath dir P' T' X' := by
  refine suffix_ne (e := c!".npz") (by decide) (by decide) ⟨dir ++ (c!"P" ++ P ++ c!"_T" ++ T ++ c!"_J" ++ J ++
    c!"_data_points"), ?_⟩ dir P' T' X'
  simp [pimc]

theorem json_path_ne {a : Str} (h : c!".json" <:+ a) (dir : Str) (P T X : Nat) : a ≠ thermoPath dir P T X :=
  suffix_ne (by decide) (by decide) h dir P T X

/-- The result files are the same. -/
def SamePimc (dir : Str) (d d' : Disk) : Prop :=
  ∀ P T J : Str, d'.files (dir ++ pimc P T J) = d.files (dir ++ pimc P T J) ∧
    (dir ++ pimc P T J ∈ d'.listing ↔ dir ++ pimc P T J ∈ d.listing)

namespace SamePimc
variable {dir : Str} {d d' : Disk}

theorem pimcFile (h : SamePimc dir d d') (P T J : Nat) :
    d'.files (pimcPath dir P T J) = d.files (pimcPath dir P T J) ∧
      (pimcPath dir P T J ∈ d'.listing ↔ pimcPath dir P T J ∈ d.listing) :=
  h _ _ _

theorem hasData (h : SamePimc dir d d') (P T : Nat) : HasData d' dir P T ↔ HasData d dir P T :=
  exists_congr fun J => (h.pimcFile P T J).2

theorem readable (h : SamePimc dir d d') (hn : d'.listing.Nodup) (hd : Readable d dir) :
    Readable d' dir where
  nodup := hn
  only := by
    rintro p hp ⟨P, T, J, hj, rfl⟩
    exact hd.only _ ((h P T J).2.1 hp) ⟨P, T, J, hj, rfl⟩
  files := by
    intro P T J hp
    rw [(h.pimcFile P T J).1]
    exact hd.files P T J ((h.pimcFile P T J).2.1 hp)
  usable := by
    intro P T hPT
    obtain ⟨J, f, h1, h2, h3⟩ := hd.usable P T ((h.hasData P T).1 hPT)
    exact ⟨J, f, (h.pimcFile P T J).2.2 h1, by rw [(h.pimcFile P T J).1]; exact h2, h3⟩

theorem grid (h : SamePimc dir d d') (hg : CompleteGrid d dir) : CompleteGrid d' dir := by
  intro P T P' T'
  simp only [h.hasData]
  exact hg P T P' T'

theorem filesOfPair (h : SamePimc dir d d') (P T : Nat) (order : List Str) :
    FilesOfPair d' dir P T order ↔ FilesOfPair d dir P T order := by
  unfold FilesOfPair
  refine and_congr_right fun _ => forall_congr' fun p => iff_congr Iff.rfl ?_
  constructor
  · rintro ⟨a, ⟨J, rfl⟩, f, b⟩
    rw [(h.pimcFile P T J).1] at b
    exact ⟨(h.pimcFile P T J).2.1 a, ⟨J, rfl⟩, f, b⟩
  · rintro ⟨a, ⟨J, rfl⟩, f, b⟩
    rw [← (h.pimcFile P T J).1] at b
    exact ⟨(h.pimcFile P T J).2.2 a, ⟨J, rfl⟩, f, b⟩

theorem isThermoOf (h : SamePimc dir d d') {hv hr : Str} {jk al : Bool} {an : Stats.Analytic}
    {P T X : Nat} {t : Thermo} (ht : IsThermoOf d' dir hv hr jk al an P T X t) :
    IsThermoOf d dir hv hr jk al an P T X t := by
  obtain ⟨h1, h2, order, h3, h4, h5⟩ := ht
  have hnpz : ∀ p ∈ order, d'.npz p = d.npz p := by
    intro p hp
    obtain ⟨-, ⟨J, rfl⟩, -⟩ := (h3.2 p).1 hp
    unfold Disk.npz
    rw [(h.pimcFile P T J).1]
  have e0 : order.map (numberAt d'.npz) = order.map (numberAt d.npz) :=
    List.map_congr_left fun p hp => by unfold numberAt; rw [hnpz p hp]
  have e1 : order.flatMap (rhoAt d'.npz) = order.flatMap (rhoAt d.npz) :=
    List.flatMap_congr fun p hp => by unfold rhoAt; rw [hnpz p hp]
  have e2 : order.flatMap (gAt d'.npz) = order.flatMap (gAt d.npz) :=
    List.flatMap_congr fun p hp => by unfold gAt; rw [hnpz p hp]
  have e3 : order.flatMap (gPAt d'.npz) = order.flatMap (gPAt d.npz) :=
    List.flatMap_congr fun p hp => by unfold gPAt; rw [hnpz p hp]
  have e4 : order.flatMap (gMAt d'.npz) = order.flatMap (gMAt d.npz) :=
    List.flatMap_congr fun p hp => by unfold gMAt; rw [hnpz p hp]
  rw [e0] at h4
  rw [e1, e2, e3, e4] at h5
  exact ⟨h1, h2, order, (h.filesOfPair P T order).1 h3, h4, h5⟩

end SamePimc

namespace OnlyThermo
variable {dir : Str} {d d' : Disk}

theorem samePimc (h : OnlyThermo dir d d') : SamePimc dir d d' := fun P T J =>
  ⟨h.files _ (pimc_ne dir P T J), h.listing _ (pimc_ne dir P T J)⟩

theorem hasData (h : OnlyThermo dir d d') (P T : Nat) : HasData d' dir P T ↔ HasData d dir P T :=
  h.samePimc.hasData P T

theorem readable (h : OnlyThermo dir d d') (hn : d'.listing.Nodup) (hd : Readable d dir) :
    Readable d' dir := h.samePimc.readable hn hd

theorem grid (h : OnlyThermo dir d d') (hg : CompleteGrid d dir) : CompleteGrid d' dir := h.samePimc.grid hg

theorem isThermoOf (h : OnlyThermo dir d d') {hv hr : Str} {jk al : Bool} {an : Stats.Analytic}
    {P T X : Nat} {t : Thermo} (ht : IsThermoOf d' dir hv hr jk al an P T X t) :
    IsThermoOf d dir hv hr jk al an P T X t := h.samePimc.isThermoOf ht

end OnlyThermo

/-- The number of samples of a pair does not depend on the order of the files. -/
theorem samples_unique {d : Disk} {dir hv hr hv' hr' : Str} {jk al jk' al' : Bool} {an an' : Stats.Analytic}
    {P T X X' : Nat} {t t' : Thermo} (h : IsThermoOf d dir hv hr jk al an P T X t)
    (h' : IsThermoOf d dir hv' hr' jk' al' an' P T X' t') : X = X' := by
  obtain ⟨-, -, o, ho, hX, -⟩ := h
  obtain ⟨-, -, o', ho', hX', -⟩ := h'
  have : o.Perm o' := (List.perm_ext_iff_of_nodup ho.1 ho'.1).2 fun p => (ho.2 p).trans (ho'.2 p).symm
  rw [hX, hX', (this.map _).sum_eq]

theorem run_nodup (setOrder : List Str → List Str) (s : FS) (op : Op) (ran : List (Nat × Nat)) (d : Disk)
    (h : d.listing.Nodup) : (runTasks setOrder s op ran d).1.listing.Nodup := by
  induction ran generalizing d with
  | nil => exact h
  | cons q ran ih =>
    obtain ⟨P, T⟩ := q
    unfold runTasks
    cases hs : starmapWrapper setOrder s op d P T with
    | error e => exact ih d h
    | ok d1 =>
      refine ih d1 ?_
      unfold starmapWrapper at hs
      simp only [bind, Except.bind] at hs
      split at hs
      · cases hs
      · cases hs
        simp only [Disk.write]
        split
        · exact h
        · next hn => exact List.nodup_append.2 ⟨h, by simp, by
            intro a ha b hb
            rw [List.mem_singleton] at hb
            rintro rfl
            exact hn (hb ▸ ha)⟩

theorem analysis_nodup (hash : Str → Str) (setOrder : List Str → List Str) (jk : Bool) (m l : PyStr)
    (schedule : List (Nat × Nat) → List (Nat × Nat)) (s : FS) (d : Disk) (h : d.listing.Nodup) :
    (analysisOfPimc hash setOrder jk m l schedule s d).1.listing.Nodup := by
  unfold analysisOfPimc
  split
  · exact h
  · split
    · split_ifs <;> exact h
    · split_ifs
      · exact run_nodup _ _ _ _ _ h
      · exact h
      · exact h

/-- C120: a second analysis of the same results, by whatever method, gives the thermo files that it
would give if the first one had not been run.  The two have the same names: those of the first are
gone. -/
theorem C120_later_analysis (hash : Str → Str) (setOrder : List Str → List Str)
    (hperm : ∀ l, (setOrder l).Perm l) (jk al jk' al' : Bool) {s : FS} {dir : Str}
    (h : ResultsDir s dir) (hv1 : c!".json" <:+ s.pathVibModel) (hr1 : c!".json" <:+ s.pathRhoModel)
    {d : Disk} (hd : Readable d dir) (hg : CompleteGrid d dir)
    {hv hr : Str} (hm : ModelsAre hash s d hv hr) (hs : NotStale s hv hr)
    (an : Nat → Analytic.AnalyticData ℝ)
    (han : ∀ P T, HasData d dir P T →
      Analytic.loadAnalytic ⟨hv, hr⟩ T (d.analytic s.pathAnalyticRho) = .ok (an T))
    (schedule schedule' : List (Nat × Nat) → List (Nat × Nat))
    (hsch : ∀ l, (schedule l).Perm l) (hsch' : ∀ l, (schedule' l).Perm l) {d1 d2 : Disk} {e1 e2 : Option Err}
    (h1 : analysisOfPimc hash setOrder jk (methodName al) ⟨c!"local", true⟩ schedule s d = (d1, e1))
    (h2 : analysisOfPimc hash setOrder jk' (methodName al') ⟨c!"local", true⟩ schedule'
      { s with hashVib := some hv, hashRho := some hr } d1 = (d2, e2)) :
    e1 = none ∧ e2 = none ∧ ∃ (X : Nat → Nat → Nat) (t1 t2 : Nat → Nat → Thermo),
      (∀ P T, HasData d dir P T →
        (d1.files (thermoPath dir P T (X P T)) = some (.thermo (t1 P T)) ∧
          IsThermoOf d dir hv hr jk al
            ⟨(an T).E, (an T).Cv, (an T).alphaPlus, (an T).alphaMinus⟩ P T (X P T) (t1 P T)) ∧
        d2.files (thermoPath dir P T (X P T)) = some (.thermo (t2 P T)) ∧
          IsThermoOf d dir hv hr jk' al'
            ⟨(an T).E, (an T).Cv, (an T).alphaPlus, (an T).alphaMinus⟩ P T (X P T) (t2 P T)) ∧
      ∀ p, (∀ P T, HasData d dir P T → p ≠ thermoPath dir P T (X P T)) →
        d2.files p = d.files p ∧ (p ∈ d2.listing ↔ p ∈ d.listing) := by
  obtain ⟨d1', X1, t1, a1, a2, a3⟩ := C28_every_pair_once hash setOrder hperm jk al h hd hg hm hs an han
    schedule (fun tasks _ => .inl (hsch tasks))
  rw [h1] at a1
  cases a1
  have ho : OnlyThermo dir d d1 :=
    ⟨fun p hp => (a3 p fun P T _ => hp P T _).1, fun p hp => (a3 p fun P T _ => hp P T _).2⟩
  have hn : d1.listing.Nodup := by
    have := analysis_nodup hash setOrder jk (methodName al) ⟨c!"local", true⟩ schedule s d hd.nodup
    rw [h1] at this
    exact this
  set s2 : FS := { s with hashVib := some hv, hashRho := some hr } with hs2
  have hres : ResultsDir s2 dir := withHashes h _ _
  have hm2 : ModelsAre hash s2 d1 hv hr := by
    obtain ⟨tv, tr, m1, m2, m3⟩ := hm
    refine ⟨tv, tr, ?_, ?_, m3⟩
    · change d1.files s.pathVibModel = _
      rw [ho.files _ (json_path_ne hv1 dir), m1]
    · change d1.files s.pathRhoModel = _
      rw [ho.files _ (json_path_ne hr1 dir), m2]
  have han2 : ∀ P T, HasData d1 dir P T →
      Analytic.loadAnalytic ⟨hv, hr⟩ T (d1.analytic s2.pathAnalyticRho) = .ok (an T) := by
    intro P T hPT
    have : d1.analytic s2.pathAnalyticRho = d.analytic s.pathAnalyticRho := by
      unfold Disk.analytic
      change (match d1.files s.pathAnalyticRho with | _ => _) = _
      rw [ho.files _ (json_path_ne h.analytic dir)]
    rw [this]
    exact han P T ((ho.hasData P T).1 hPT)
  obtain ⟨d2', X2, t2, b1, b2, b3⟩ := C28_every_pair_once hash setOrder hperm jk' al' hres
    (ho.readable hn hd) (ho.grid hg) hm2 (.inr (.inr ⟨rfl, rfl⟩)) an han2 schedule'
    (fun tasks _ => .inl (hsch' tasks))
  rw [h2] at b1
  cases b1
  have hX : ∀ P T, HasData d dir P T → X2 P T = X1 P T := fun P T hPT =>
    samples_unique (ho.isThermoOf (b2 P T ((ho.hasData P T).2 hPT)).2.2) (a2 P T hPT).2.2
  refine ⟨rfl, rfl, X1, t1, t2, fun P T hPT => ⟨⟨(a2 P T hPT).1, (a2 P T hPT).2.2⟩, ?_, ?_⟩, fun p hp => ?_⟩
  · rw [← hX P T hPT]
    exact (b2 P T ((ho.hasData P T).2 hPT)).1
  · rw [← hX P T hPT]
    exact ho.isThermoOf (b2 P T ((ho.hasData P T).2 hPT)).2.2
  · obtain ⟨x1, x2⟩ := a3 p hp
    obtain ⟨y1, y2⟩ := b3 p fun P T hPT => by
      rw [hX P T ((ho.hasData P T).1 hPT)]
      exact hp P T ((ho.hasData P T).1 hPT)
    exact ⟨y1.trans x1, y2.trans x2⟩

/-- C120: after any number of analyses of the same results all of them succeeded, and the thermo files
are those of the last one alone: for every method and order of the tasks, each pair with results has
the file named after it and the number of its samples, with the last method's results; every other
file is as before. -/
theorem C120_last_analysis_stays (hash : Str → Str) (setOrder : List Str → List Str)
    (hperm : ∀ l, (setOrder l).Perm l) (schedule : List (Nat × Nat) → List (Nat × Nat))
    (hsch : ∀ l, (schedule l).Perm l) (before : List (Bool × Bool)) (jk al : Bool) {s : FS} {dir : Str}
    (h : ResultsDir s dir) (hv1 : c!".json" <:+ s.pathVibModel) (hr1 : c!".json" <:+ s.pathRhoModel)
    {d : Disk} (hd : Readable d dir) (hg : CompleteGrid d dir)
    {hv hr : Str} (hm : ModelsAre hash s d hv hr) (hs : NotStale s hv hr)
    (an : Nat → Analytic.AnalyticData ℝ)
    (han : ∀ P T, HasData d dir P T →
      Analytic.loadAnalytic ⟨hv, hr⟩ T (d.analytic s.pathAnalyticRho) = .ok (an T)) :
    ∃ (d' : Disk) (X : Nat → Nat → Nat) (t : Nat → Nat → Thermo),
      analyses hash setOrder schedule (before ++ [(jk, al)]) s d = (d', none) ∧
      (∀ P T, HasData d dir P T →
        d'.files (thermoPath dir P T (X P T)) = some (.thermo (t P T)) ∧
        thermoPath dir P T (X P T) ∈ d'.listing ∧
        IsThermoOf d dir hv hr jk al
          ⟨(an T).E, (an T).Cv, (an T).alphaPlus, (an T).alphaMinus⟩ P T (X P T) (t P T)) ∧
      ∀ p, (∀ P T, HasData d dir P T → p ≠ thermoPath dir P T (X P T)) →
        d'.files p = d.files p ∧ (p ∈ d'.listing ↔ p ∈ d.listing) := by
  have hgen := generate_eq hash hm hs
  induction before generalizing s d with
  | nil =>
    obtain ⟨d1, X1, t1, a1, a2, a3⟩ := C28_every_pair_once hash setOrder hperm jk al h hd hg hm hs an han
      schedule (fun tasks _ => .inl (hsch tasks))
    refine ⟨d1, X1, t1, ?_, a2, a3⟩
    unfold methodName at a1
    simp only [List.nil_append, analyses, a1, hgen]
  | cons m rest ih =>
    obtain ⟨jk1, al1⟩ := m
    obtain ⟨d1, X1, t1, a1, a2, a3⟩ := C28_every_pair_once hash setOrder hperm jk1 al1 h hd hg hm hs an han
      schedule (fun tasks _ => .inl (hsch tasks))
    have ho : OnlyThermo dir d d1 :=
      ⟨fun p hp => (a3 p fun P T _ => hp P T _).1, fun p hp => (a3 p fun P T _ => hp P T _).2⟩
    have hn : d1.listing.Nodup := by
      have := analysis_nodup hash setOrder jk1 (methodName al1) ⟨c!"local", true⟩ schedule s d hd.nodup
      rw [a1] at this
      exact this
    have hm2 : ModelsAre hash { s with hashVib := some hv, hashRho := some hr } d1 hv hr := by
      obtain ⟨tv, tr, m1, m2, m3⟩ := hm
      refine ⟨tv, tr, ?_, ?_, m3⟩
      · change d1.files s.pathVibModel = _
        rw [ho.files _ (json_path_ne hv1 dir), m1]
      · change d1.files s.pathRhoModel = _
        rw [ho.files _ (json_path_ne hr1 dir), m2]
    have han2 : ∀ P T, HasData d1 dir P T →
        Analytic.loadAnalytic ⟨hv, hr⟩ T (d1.analytic s.pathAnalyticRho) = .ok (an T) := by
      intro P T hPT
      have : d1.analytic s.pathAnalyticRho = d.analytic s.pathAnalyticRho := by
        unfold Disk.analytic
        rw [ho.files _ (json_path_ne h.analytic dir)]
      rw [this]
      exact han P T ((ho.hasData P T).1 hPT)
    have hs2 : NotStale { s with hashVib := some hv, hashRho := some hr } hv hr := .inr (.inr ⟨rfl, rfl⟩)
    obtain ⟨d2, X2, t2, b1, b2, b3⟩ := ih (s := { s with hashVib := some hv, hashRho := some hr })
      (withHashes h _ _) hv1 hr1 (ho.readable hn hd) (ho.grid hg) hm2 hs2 han2 (generate_eq hash hm2 hs2)
    have hX : ∀ P T, HasData d dir P T → X2 P T = X1 P T := fun P T hPT =>
      samples_unique (ho.isThermoOf (b2 P T ((ho.hasData P T).2 hPT)).2.2) (a2 P T hPT).2.2
    refine ⟨d2, X2, t2, ?_, fun P T hPT => ?_, fun p hp => ?_⟩
    · unfold methodName at a1
      rw [List.cons_append]
      simp only [analyses, a1, hgen, b1]
    · obtain ⟨y1, y2, y3⟩ := b2 P T ((ho.hasData P T).2 hPT)
      exact ⟨y1, y2, ho.isThermoOf y3⟩
    · obtain ⟨x1, x2⟩ := a3 p fun P T hPT => by
        rw [← hX P T hPT]
        exact hp P T hPT
      obtain ⟨y1, y2⟩ := b3 p fun P T hPT => hp P T ((ho.hasData P T).1 hPT)
      exact ⟨y1.trans x1, y2.trans x2⟩

/-- C120: the test program runs the four analyses in turn and leaves the results of the last one, the
jackknife with known coefficients. -/
theorem C120_test_program (hash : Str → Str) (setOrder : List Str → List Str)
    (hperm : ∀ l, (setOrder l).Perm l) (schedule : List (Nat × Nat) → List (Nat × Nat))
    (hsch : ∀ l, (schedule l).Perm l) {s : FS} {dir : Str}
    (h : ResultsDir s dir) (hv1 : c!".json" <:+ s.pathVibModel) (hr1 : c!".json" <:+ s.pathRhoModel)
    {d : Disk} (hd : Readable d dir) (hg : CompleteGrid d dir)
    {hv hr : Str} (hm : ModelsAre hash s d hv hr) (hs : NotStale s hv hr)
    (an : Nat → Analytic.AnalyticData ℝ)
    (han : ∀ P T, HasData d dir P T →
      Analytic.loadAnalytic ⟨hv, hr⟩ T (d.analytic s.pathAnalyticRho) = .ok (an T)) :
    ∃ d', testingExecution hash setOrder schedule s d = (d', none) ∧
      ∀ P T, HasData d dir P T → ∃ X t, d'.files (thermoPath dir P T X) = some (.thermo t) ∧
        IsThermoOf d dir hv hr true true
          ⟨(an T).E, (an T).Cv, (an T).alphaPlus, (an T).alphaMinus⟩ P T X t := by
  obtain ⟨d', X, t, h1, h2, -⟩ := C120_last_analysis_stays hash setOrder hperm schedule hsch
    [(false, false), (false, true), (true, false)] true true h hv1 hr1 hd hg hm hs an han
  exact ⟨d', h1, fun P T hPT => ⟨_, _, (h2 P T hPT).1, (h2 P T hPT).2.2⟩⟩

theorem numbers_of {l : List (Option ℝ)} (h : none ∉ l) : ∃ r : List ℝ, l = r.map some := by
  induction l with
  | nil => exact ⟨[], rfl⟩
  | cons a l ih =>
    rw [List.mem_cons, not_or] at h
    obtain ⟨r, rfl⟩ := ih h.2
    cases a with
    | none => exact absurd rfl h.1
    | some x => exact ⟨x :: r, rfl⟩

/-- No usable result file has a NaN. -/
def NoNaN (d : Disk) (dir : Str) : Prop :=
  ∀ P T J f, pimcPath dir P T J ∈ d.listing → d.files (pimcPath dir P T J) = some (.npz f) → Usable .pm f →
    ∀ a, f.rho = some a ∨ f.g = some a ∨ f.gP = some a ∨ f.gM = some a → none ∉ a

/-- C120: from the samples to the table of a plot.  In a directory with readable results without NaN and
a complete grid, and with no thermo files or complete ones of earlier analyses, an analysis in any
order of its tasks followed by the set up of a plot of the same models succeeds.  For every number of
beads and temperature with results the entries of the table at the number of all samples are the
numbers that the analysis method gives for all samples of all usable files, each file once, as the
nearest float; the jackknife quantities are NaN if the method is not a jackknife method. -/
theorem C120_samples_to_table (hash : Str → Str) (setOrder : List Str → List Str)
    (hperm : ∀ l, (setOrder l).Perm l) (jk al : Bool) {s : FS} {dir : Str} (h : ResultsDir s dir)
    (hnoX : ¬ c!"_X" <:+: dir) (hv1 : c!".json" <:+ s.pathVibModel) (hr1 : c!".json" <:+ s.pathRhoModel)
    {d : Disk} (hd : Readable d dir) (hg : CompleteGrid d dir) (hnan : NoNaN d dir)
    (hold : ∀ path ∈ d.listing, dir <+: path → c!"_thermo" <:+ path →
      ∃ P T X hv hr st, path = thermoPath dir P T X ∧ d.files path = some (.thermo ⟨hv, hr, some st⟩))
    {hv hr : Str} (hm : ModelsAre hash s d hv hr) (hnew : s.hashVib = none ∨ s.hashRho = none)
    (an : Nat → Analytic.AnalyticData ℝ)
    (han : ∀ P T, HasData d dir P T →
      Analytic.loadAnalytic ⟨hv, hr⟩ T (d.analytic s.pathAnalyticRho) = .ok (an T))
    (schedule : List (Nat × Nat) → List (Nat × Nat)) (hsch : ∀ l, (schedule l).Perm l) (fl : ThermoText.Floats)
    (skip : Bool) :
    ∃ d' paths l t,
      analysisOfPimc hash setOrder jk (methodName al) ⟨c!"local", true⟩ schedule s d = (d', none) ∧
      ThermoText.initOne hash d'.texts fl (ThermoText.textsOf fl d') s =
        .ok ({ s with hashVib := some hv, hashRho := some hr }, paths, l) ∧
      Plotting.loadPimcData skip ((ThermoText.textsOf fl d').view fl) l paths = .ok t ∧
      ∀ P T, HasData d dir P T → ∃ (order : List Str) (r g p m : List ℝ),
        FilesOfPair d dir P T order ∧
        order.flatMap (rhoAt d.npz) = r.map some ∧ order.flatMap (gAt d.npz) = g.map some ∧
        order.flatMap (gPAt d.npz) = p.map some ∧ order.flatMap (gMAt d.npz) = m.map some ∧
        ∀ X, X = (order.map (numberAt d.npz)).sum → ∀ f ∈ [c!"Z", c!"Z error", c!"E", c!"E error", c!"Cv",
            c!"Cv error", c!"jk_E", c!"jk_E error", c!"jk_Cv", c!"jk_Cv error"],
          Spec.Plotting.entry t P T X f =
            (Spec.ThermoText.found (expected jk al (T / 100)
              (⟨fun i => r.getD i 0, fun i => g.getD i 0, fun i => p.getD i 0, fun i => m.getD i 0⟩ :
                Stats.Samples X) ⟨(an T).E, (an T).Cv, (an T).alphaPlus, (an T).alphaMinus⟩) f).bind
              (Spec.ThermoText.asFloat fl) := by
  have hs : NotStale s hv hr := by
    rcases hnew with e | e
    · exact .inl e
    · exact .inr (.inl e)
  obtain ⟨d', X, th, a1, a2, a3⟩ := C28_every_pair_once hash setOrder hperm jk al h hd hg hm hs an han
    schedule (fun tasks _ => .inl (hsch tasks))
  have ho : OnlyThermo dir d d' :=
    ⟨fun p hp => (a3 p fun P T _ => hp P T _).1, fun p hp => (a3 p fun P T _ => hp P T _).2⟩
  -- the values of the new thermo files
  have hval : ∀ P T, HasData d dir P T → ∃ (order : List Str) (r g p m : List ℝ),
      FilesOfPair d dir P T order ∧
      order.flatMap (rhoAt d.npz) = r.map some ∧ order.flatMap (gAt d.npz) = g.map some ∧
      order.flatMap (gPAt d.npz) = p.map some ∧ order.flatMap (gMAt d.npz) = m.map some ∧
      X P T = (order.map (numberAt d.npz)).sum ∧
      th P T = ⟨hv, hr, some (expected jk al (T / 100)
        (⟨fun i => r.getD i 0, fun i => g.getD i 0, fun i => p.getD i 0, fun i => m.getD i 0⟩ :
          Stats.Samples (X P T)) ⟨(an T).E, (an T).Cv, (an T).alphaPlus, (an T).alphaMinus⟩)⟩ := by
    intro P T hPT
    obtain ⟨q1, q2, order, q3, q4, q5⟩ := (a2 P T hPT).2.2
    have hfile : ∀ q ∈ order, ∃ f, d.npz q = some f ∧
        ∀ a, f.rho = some a ∨ f.g = some a ∨ f.gP = some a ∨ f.gM = some a → none ∉ a := by
      intro q hq
      obtain ⟨w1, ⟨J, rfl⟩, f, w2, w3⟩ := (q3.2 q).1 hq
      exact ⟨f, by simp [Disk.npz, w2], hnan P T J f w1 w2 w3⟩
    have hno : ∀ (F : Pibronic.Results.ResultFile ℝ → Option (List (Option ℝ))),
        (∀ f a, F f = some a → f.rho = some a ∨ f.g = some a ∨ f.gP = some a ∨ f.gM = some a) →
        none ∉ order.flatMap fun q => ((d.npz q).bind F).getD [] := by
      intro F hF hmem
      obtain ⟨q, hq, hq'⟩ := List.mem_flatMap.1 hmem
      obtain ⟨f, hf, hf'⟩ := hfile q hq
      rw [hf] at hq'
      cases hFf : F f with
      | none => simp [hFf] at hq'
      | some a =>
        simp only [Option.bind_some, hFf, Option.getD_some] at hq'
        exact hf' a (hF f a hFf) hq'
    obtain ⟨r, hr⟩ := numbers_of (hno (·.rho) fun f a e => .inl e)
    obtain ⟨g, hg⟩ := numbers_of (hno (·.g) fun f a e => .inr (.inl e))
    obtain ⟨p, hp⟩ := numbers_of (hno (·.gP) fun f a e => .inr (.inr (.inl e)))
    obtain ⟨m, hm⟩ := numbers_of (hno (·.gM) fun f a e => .inr (.inr (.inr e)))
    refine ⟨order, r, g, p, m, q3, hr, hg, hp, hm, q4, ?_⟩
    have := q5 r g p m hr hg hp hm
    cases hth : th P T with
    | mk a b c =>
      rw [hth] at q1 q2 this
      simp only at q1 q2 this
      rw [q1, q2, this]
  have hfile : ∀ P T X, Spec.Plotting.thermoFile s P T X = thermoPath dir P T X := by
    intro P T X
    simp [Spec.Plotting.thermoFile, thermoPath, jackknife, h.path]
  have hthermo : ∀ path ∈ d'.listing, dir <+: path → c!"_thermo" <:+ path →
      ∃ P T X hv hr st, path = thermoPath dir P T X ∧ d'.files path = some (.thermo ⟨hv, hr, some st⟩) := by
    intro path p1 p2 p3
    by_cases hnewf : ∃ P T, HasData d dir P T ∧ path = thermoPath dir P T (X P T)
    · obtain ⟨P, T, hPT, rfl⟩ := hnewf
      obtain ⟨_, _, _, _, _, -, -, -, -, -, -, e⟩ := hval P T hPT
      have h0 := (a2 P T hPT).1
      rw [e] at h0
      exact ⟨P, T, X P T, hv, hr, _, rfl, h0⟩
    · obtain ⟨x1, x2⟩ := a3 path fun P T hPT e => hnewf ⟨P, T, hPT, e⟩
      obtain ⟨P, T, X, hv, hr, st, y1, y2⟩ := hold path (x2.1 p1) p2 p3
      exact ⟨P, T, X, hv, hr, st, y1, x1.trans y2⟩
  have ht : Spec.ThermoText.Tidy s (ThermoText.textsOf fl d') := {
    noStar := by rw [h.path]; exact h.star,
    noP := by rw [h.path]; exact h.noP,
    noT := by rw [h.path]; exact h.noT,
    noX := by rw [h.path]; exact hnoX,
    names := by
      intro path p1 p2 p3
      rw [h.path] at p2
      obtain ⟨P, T, X, _, _, _, e, -⟩ := hthermo path p1 p2 p3
      exact ⟨P, T, X, by rw [e, hfile]⟩ }
  have hc : Spec.ThermoText.Complete fl s (ThermoText.textsOf fl d') := by
    intro path p1 p2 p3
    rw [h.path] at p2
    obtain ⟨_, _, _, hv, hr, st, -, e⟩ := hthermo path p1 p2 p3
    exact ⟨hv, hr, st, p1, by simp [ThermoText.textsOf, e]⟩
  obtain ⟨tv, tr, m1, m2, rfl, rfl⟩ := hm
  have m1' : d'.texts.files s.pathVibModel = some tv := by
    simp [Disk.texts, ho.files _ (json_path_ne hv1 dir), m1]
  have m2' : d'.texts.files s.pathRhoModel = some tr := by
    simp [Disk.texts, ho.files _ (json_path_ne hr1 dir), m2]
  obtain ⟨paths, l, t, i1, i2⟩ := ThermoText.C120_succeeds (hash := hash) hnew ht hc m1' m2' skip
  refine ⟨d', paths, l, t, a1, i1, i2, fun P T hPT => ?_⟩
  obtain ⟨order, r, g, p, m, v1, v2, v3, v4, v5, v6, v7⟩ := hval P T hPT
  refine ⟨order, r, g, p, m, v1, v2, v3, v4, v5, fun Y hY f hf => ?_⟩
  rw [← v6] at hY
  subst hY
  have hw : Spec.ThermoText.Written fl (ThermoText.textsOf fl d') (Spec.Plotting.thermoFile s P T (X P T))
      (hash tv) (hash tr) (expected jk al (T / 100)
        (⟨fun i => r.getD i 0, fun i => g.getD i 0, fun i => p.getD i 0, fun i => m.getD i 0⟩ :
          Stats.Samples (X P T)) ⟨(an T).E, (an T).Cv, (an T).alphaPlus, (an T).alphaMinus⟩) := by
    rw [hfile]
    refine ⟨(a2 P T hPT).2.1, ?_⟩
    simp [ThermoText.textsOf, (a2 P T hPT).1, v7]
  obtain ⟨-, tv', tr', n1, n2, n3⟩ := ThermoText.C120_table hnew ht hc i1 i2
  rw [m1'] at n1
  rw [m2'] at n2
  cases n1
  cases n2
  obtain ⟨x, hx, -⟩ := ThermoText.written_read hw
  have hcur := (ThermoText.current_iff hc).2 ⟨_, hw, hx⟩
  rw [ThermoText.complete_init ht hc] at i1
  obtain ⟨tv', tr', n1, n2, -, l1, l2, l3⟩ := Plotting.C80_lists hnew (ThermoText.tidy_view ht fl) i1
  rw [m1'] at n1
  rw [m2'] at n2
  cases n1
  cases n2
  exact (n3 P ((l1 P).2 ⟨T, _, x, hcur⟩) T ((l2 T).2 ⟨P, _, x, hcur⟩) _ ((l3 _).2 ⟨P, T, x, hcur⟩) f hf).1 _ hw

/-- The directory of the example of C28 meets the further hypotheses, for every method and order of the
tasks. -/
example (h : Str) : ¬ c!"_X" <:+: dir0 ∧ c!".json" <:+ s0.pathVibModel ∧ c!".json" <:+ s0.pathRhoModel ∧
    NoNaN (disk0 h) dir0 ∧ (s0.hashVib = none ∨ s0.hashRho = none) ∧
    (∀ path ∈ (disk0 h).listing, dir0 <+: path → c!"_thermo" <:+ path →
      ∃ P T X hv hr st, path = thermoPath dir0 P T X ∧
        (disk0 h).files path = some (.thermo ⟨hv, hr, some st⟩)) ∧
    Spec.ThermoText.asFloat ThermoText.fl0 (5 / 2) = some (5 / 2) := by
  refine ⟨?_, ⟨_, vib0.symm⟩, ⟨_, rho0.symm⟩, ?_, .inl rfl, ?_, ?_⟩
  · rw [dir0, Spec.FileStructure.rhoDir, Spec.FileStructure.dataDir]
    decide +kernel
  · intro P T J f _ hf _ a ha
    obtain ⟨n, e⟩ := result_file h P T J
    rw [e] at hf
    cases hf
    rcases ha with ha | ha | ha | ha <;> cases ha <;> simp
  · intro path hp _ hs
    exfalso
    simp only [disk0, List.mem_map] at hp
    obtain ⟨j, -, rfl⟩ := hp
    obtain ⟨a, ha⟩ := hs
    have h' : a ++ c!"_thermo" = (dir0 ++ (c!"P" ++ natStr j.1 ++ c!"_T" ++ tempStr j.2.1 ++ c!"_J" ++
        natStr j.2.2 ++ c!"_data_poi")) ++ c!"nts.npz" := by rw [ha]; simp [pimcPath, pimc]
    have := (List.append_inj' h' rfl).2
    revert this; decide
  · simp [Spec.ThermoText.asFloat, ThermoText.fl0]

end Pibronic.Props.AnalysisChain
