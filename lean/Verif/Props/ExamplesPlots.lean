import Verif.Model.ExamplesPlots
import Verif.Props.Examples
import Verif.Props.Grids
import Verif.Props.Plotting

set_option autoImplicit false

/-!
C133: the figures that the programs of the example projects draw for all data sets of a system.
-/
namespace Pibronic.Props.ExamplesPlots
open Pibronic.Py Pibronic.FileName Pibronic.FileStructure Pibronic.Examples Pibronic.Plotting Pibronic.ExamplesPlots
open Spec.FileStructure Spec.Plotting Pibronic.Props.Plotting Pibronic.Props.Examples
open Pibronic.Postprocessing (mapM_isOk)

/-! ### What the statements are about -/

/-- The program runs on the server, whose root is usable. -/
structure OnServer (p : Project) (x : Site) (absRoot : Str) : Prop where
  host : x.host = c!"nlogn" ∨ x.host = c!"feynman"
  absolute : x.absolute p.serverRoot = absRoot
  root : RootOk p.serverRoot absRoot
  isDir : x.texts.isDir p.serverRoot = true

/-- The file with the comparison of the sampling distributions 0 and `r` of the data set `d`. -/
def versusFile (absRoot : Str) (d r : Nat) : Str :=
  dataDir absRoot d ++ c!"plots/Z_orig_D" ++ natStr d ++ c!"_R0_R" ++ natStr r ++ c!".pdf"

/-- What a comparison needs of one sampling distribution: both models; results, all of them readable and at 300 K; and the
exact numbers at 300 K under the names that are looked for. -/
structure Ready (x : Site) (s : FS) : Prop where
  tidy : Tidy s x.results
  readable : ∀ path ∈ x.results.listing, s.pathRhoResults <+: path → c!"_thermo" <:+ path →
    ∃ d, x.results.thermo path = some d
  models : ∃ tv tr, x.texts.files s.pathVibModel = some tv ∧ x.texts.files s.pathRhoModel = some tr ∧
    (∀ P T X d, CurrentFile s x.results (x.hash tv) (x.hash tr) P T X d → WellFormed d ∧ T = 30000) ∧
    ∃ P X d, CurrentFile s x.results (x.hash tv) (x.hash tr) P 30000 X d
  sampling : ∃ z, Holds (x.results.results s.pathAnalyticRho) 30000 c!"Z_sampling" z
  original : ∃ z, Holds (x.results.results s.pathAnalyticOrig) 30000 c!"Z_coupled" z

/-! ### Helpers -/

theorem visits_nodup {p : Project} (hp : p = artificial ∨ p = paper) {name : Str} {l : List (Nat × Nat)}
    (h : p.visits name = .ok l) : l.Nodup ∧ ∀ v ∈ l, 10 ≤ v.1 := by
  rcases hp with rfl | rfl
  · by_cases hn : name ∈ [c!"2x2", c!"4x6", c!"7x12"]
    · obtain ⟨k, hk, hk'⟩ : ∃ k < 3, name = [c!"2x2", c!"4x6", c!"7x12"].getD k [] := by
        simp only [List.mem_cons, List.not_mem_nil, or_false] at hn
        rcases hn with rfl | rfl | rfl
        · exact ⟨0, by decide, rfl⟩
        · exact ⟨1, by decide, rfl⟩
        · exact ⟨2, by decide, rfl⟩
      obtain ⟨l', h1, h2, h3⟩ := (C121_visits_artificial name).1 k hk hk'
      rw [h] at h1
      cases h1
      exact ⟨h2, fun v hv => by have := (h3 v.1 v.2).1 hv; omega⟩
    · rw [(C121_visits_artificial name).2 hn] at h
      cases h
  · by_cases hn : name ∈ [c!"superimposed", c!"displaced", c!"elevated", c!"jahnteller"]
    · obtain ⟨k, hk, hk'⟩ : ∃ k < 4, name = [c!"superimposed", c!"displaced", c!"elevated", c!"jahnteller"].getD k [] := by
        simp only [List.mem_cons, List.not_mem_nil, or_false] at hn
        rcases hn with rfl | rfl | rfl | rfl
        · exact ⟨0, by decide, rfl⟩
        · exact ⟨1, by decide, rfl⟩
        · exact ⟨2, by decide, rfl⟩
        · exact ⟨3, by decide, rfl⟩
      obtain ⟨l', h1, h2, h3⟩ := (C121_visits_paper name).1 k hk hk'
      rw [h] at h1
      cases h1
      exact ⟨h2, fun v hv => by have := (h3 v.1 v.2).1 hv; omega⟩
    · rw [(C121_visits_paper name).2 hn] at h
      cases h

theorem visits_name {p : Project} {name : Str} {l : List (Nat × Nat)} (h : p.visits name = .ok l) :
    p.assertName name = .ok () := by
  unfold Project.visits at h
  obtain ⟨u, h1, -⟩ := bind_eq_ok.1 h
  exact h1

section
variable {p : Project} {x : Site} {absRoot : Str}

theorem prepareLoop_ok (hx : OnServer p x absRoot) {name : Str} {l : List (Nat × Nat)} (h : p.visits name = .ok l) :
    prepareLoop p x name = .ok (p.serverRoot, l) := by
  simp [prepareLoop, visits_name h, Project.chooseRoot, hx.host, h, bind, Except.bind]

theorem construct_ok (hx : OnServer p x absRoot) (d r : Nat) :
    ∃ k, construct p.serverRoot (x.absolute p.serverRoot) d r false x.texts =
      .ok (initFS p.serverRoot absRoot d r, k) := by
  simp [construct, hx.isDir, new, hx.absolute]

/-- What a saved comparison is made of. -/
theorem versusPair_ok (hx : OnServer p x absRoot) {d r : Nat} {fig : InsetFigure}
    (h : versusPair x p.serverRoot d r = .ok fig) :
    ∃ s0 s1 paths0 paths1 l0 l1 d0 d1,
      initOne x.hash x.texts x.results (initFS p.serverRoot absRoot d 0) = .ok (s0, paths0, l0) ∧
      initOne x.hash x.texts x.results (initFS p.serverRoot absRoot d r) = .ok (s1, paths1, l1) ∧
      loadVersus x.results s0 paths0 l0 = .ok d0 ∧ loadVersus x.results s1 paths1 l1 = .ok d1 ∧
      drawVersus (x.dims s0) s0 s1 d0 d1 = .ok fig := by
  unfold versusPair at h
  obtain ⟨k0, e0⟩ := construct_ok hx d 0
  obtain ⟨k1, e1⟩ := construct_ok hx d r
  rw [e0, e1] at h
  simp only [bind, Except.bind, initTwo, List.length_cons, List.length_nil, if_true, initMany, List.mapM_cons, List.mapM_nil,
    pure, Except.pure] at h
  cases h0 : initOne x.hash x.texts x.results (initFS p.serverRoot absRoot d 0) with
  | error e => rw [h0] at h; cases h
  | ok a =>
    cases h1 : initOne x.hash x.texts x.results (initFS p.serverRoot absRoot d r) with
    | error e => rw [h0, h1] at h; cases h
    | ok b =>
      rw [h0, h1] at h
      obtain ⟨s0, paths0, l0⟩ := a
      obtain ⟨s1, paths1, l1⟩ := b
      simp only at h
      split at h
      · cases h
      · next _ _ hall =>
        split at hall
        · cases hall
        · cases hall
          simp only at h
          cases h2 : loadVersus x.results s0 paths0 l0 with
          | error e => rw [h2] at h; cases h
          | ok d0 =>
            cases h3 : loadVersus x.results s1 paths1 l1 with
            | error e => rw [h2, h3] at h; cases h
            | ok d1 =>
              rw [h2, h3] at h
              exact ⟨s0, s1, paths0, paths1, l0, l1, d0, d1, rfl, rfl, h2, h3, h⟩

theorem initOne_ids {s s' : FS} {paths : List Str} {l : Lists} (hnew : s.hashVib = none ∨ s.hashRho = none)
    (h : initOne x.hash x.texts x.results s = .ok (s', paths, l)) :
    s'.idData = s.idData ∧ s'.idRho = s.idRho ∧ s'.pathVibPlots = s.pathVibPlots ∧ s'.pathAnalyticRho = s.pathAnalyticRho ∧
      s'.pathRhoPlots = s.pathRhoPlots := by
  obtain ⟨tv, tr, -, -, rfl, -⟩ := initOne_ok hnew h
  exact ⟨rfl, rfl, rfl, rfl, rfl⟩

theorem versusPair_path (hx : OnServer p x absRoot) {d r : Nat} {fig : InsetFigure}
    (h : versusPair x p.serverRoot d r = .ok fig) : fig.path = versusFile absRoot d r := by
  obtain ⟨s0, s1, paths0, paths1, l0, l1, d0, d1, h0, h1, -, -, h4⟩ := versusPair_ok hx h
  obtain ⟨a1, a2, a3, -⟩ := initOne_ids (.inl rfl) h0
  obtain ⟨b1, b2, -⟩ := initOne_ids (.inl rfl) h1
  rw [(C83_versus_name_and_inset h4).1, a1, a2, a3, b2]
  have h0 : natStr 0 = c!"0" := by decide +kernel
  simp only [initFS_eq hx.root, h0, versusFile]
  have := join_slash (dataDir absRoot d ++ c!"plots") 'Z'
    (c!"_orig_D" ++ natStr d ++ c!"_R" ++ c!"0" ++ c!"_R" ++ natStr r ++ c!".pdf") (by decide)
  simpa using this

theorem versusFile_inj {d r d' r' : Nat} (h : versusFile absRoot d r = versusFile absRoot d' r') : d = d' ∧ r = r' := by
  simp only [versusFile, dataDir, List.append_assoc, List.append_cancel_left_eq] at h
  have h1 := append_cons_inj (c := '/') (a := natStr d) (b := natStr d') (notMem_natStr (c := '/') (by decide) d) (notMem_natStr (c := '/') (by decide) d') (by simpa using h)
  obtain ⟨h1, h2⟩ := h1
  have hd := natStr_injective h1
  subst hd
  refine ⟨rfl, ?_⟩
  simp only [List.append_cancel_left_eq, List.cons.injEq, true_and] at h2
  exact natStr_injective (append_cons_inj (c := '.') (notMem_natStr (c := '.') (by decide) r) (notMem_natStr (c := '.') (by decide) r') h2).1

theorem versusLoop_spec (hx : OnServer p x absRoot) (l : List (Nat × Nat)) :
    (versusLoop x p.serverRoot l).2.Sublist l ∧
    (∀ v, v ∈ (versusLoop x p.serverRoot l).2 ↔ v ∈ l ∧ ∃ fig, versusPair x p.serverRoot v.1 v.2 = .ok fig) ∧
    (∀ fig, fig ∈ (versusLoop x p.serverRoot l).1 ↔ ∃ v ∈ l, versusPair x p.serverRoot v.1 v.2 = .ok fig) ∧
    (versusLoop x p.serverRoot l).1.map (·.path) =
      (versusLoop x p.serverRoot l).2.map fun v => versusFile absRoot v.1 v.2 := by
  induction l with
  | nil => simp [versusLoop]
  | cons v l ih =>
    obtain ⟨d, r⟩ := v
    obtain ⟨i1, i2, i3, i4⟩ := ih
    cases h : versusPair x p.serverRoot d r with
    | error e =>
      simp only [versusLoop, h]
      refine ⟨i1.cons _, fun v => ?_, fun fig => ?_, i4⟩
      · rw [i2, List.mem_cons]
        constructor
        · rintro ⟨a, b⟩; exact ⟨.inr a, b⟩
        · rintro ⟨rfl | a, b⟩
          · rw [h] at b; obtain ⟨_, b⟩ := b; cases b
          · exact ⟨a, b⟩
      · rw [i3]
        simp [h]
    | ok g =>
      simp only [versusLoop, h]
      refine ⟨i1.cons_cons _, fun v => ?_, fun fig => ?_, ?_⟩
      · rw [List.mem_cons, List.mem_cons, i2]
        constructor
        · rintro (rfl | ⟨a, b⟩)
          · exact ⟨.inl rfl, g, h⟩
          · exact ⟨.inr a, b⟩
        · rintro ⟨rfl | a, b⟩
          · exact .inl rfl
          · exact .inr ⟨a, b⟩
      · rw [List.mem_cons, i3]
        simp only [List.mem_cons, exists_eq_or_imp, h, Except.ok.injEq]
        rw [eq_comm]
      · rw [List.map_cons, List.map_cons, i4, versusPair_path hx h]

end

/-! ### C133: the comparisons -/

/-- C133: the program that compares sampling distributions goes through all of its pairs; for each one it saves, under a
name of its own, what drawing it alone gives, and reports it as finished; a pair that fails is left out and does
not stop the others. -/
theorem C133_versus {p : Project} (hp : p = artificial ∨ p = paper) {x : Site} {absRoot : Str}
    (hx : OnServer p x absRoot) {name : Str} {l : List (Nat × Nat)} (hl : p.visits name = .ok l) :
    ∃ figs done, automateVersus p x name = ((figs, done), none) ∧ done.Sublist l ∧
      (∀ d r, (d, r) ∈ done ↔ (d, r) ∈ l ∧ ∃ fig, versusPair x p.serverRoot d r = .ok fig) ∧
      (∀ fig, fig ∈ figs ↔ ∃ d r, (d, r) ∈ l ∧ versusPair x p.serverRoot d r = .ok fig) ∧
      figs.map (·.path) = done.map (fun v => versusFile absRoot v.1 v.2) ∧ (figs.map (·.path)).Nodup := by
  obtain ⟨h1, h2, h3, h4⟩ := versusLoop_spec hx l
  refine ⟨_, _, ?_, h1, fun d r => h2 (d, r), fun fig => ?_, h4, ?_⟩
  · simp only [automateVersus, prepareLoop_ok hx hl]
  · rw [h3]
    constructor
    · rintro ⟨v, a, b⟩; exact ⟨v.1, v.2, a, b⟩
    · rintro ⟨d, r, a, b⟩; exact ⟨(d, r), a, b⟩
  · rw [h4]
    refine List.Nodup.map_on ?_ (h1.nodup (visits_nodup hp hl).1)
    rintro ⟨d, r⟩ - ⟨d', r'⟩ - e
    obtain ⟨rfl, rfl⟩ := versusFile_inj e
    rfl

theorem ready_loads {x : Site} {s : FS} (hnew : s.hashVib = none ∨ s.hashRho = none) (h : Ready x s) :
    ∃ s' paths l r, initOne x.hash x.texts x.results s = .ok (s', paths, l) ∧ paths ≠ [] ∧
      s'.idData = s.idData ∧ s'.idRho = s.idRho ∧
      loadVersus x.results s' paths l = .ok r ∧ l.T = [30000] ∧ l.X ≠ [] ∧ l.X.Nodup ∧ l.P ≠ [] := by
  obtain ⟨tv, tr, hv, hr, hw, P, X, dc, hc⟩ := h.models
  obtain ⟨paths, l, t, h1, h2⟩ := C80_succeeds (hash := x.hash) hnew h.tidy hv hr h.readable
    (fun P T X d hd => (hw P T X d hd).1) true
  obtain ⟨tv', tr', hv', hr', ⟨hP, hT, hX⟩, mP, mT, mX⟩ := C80_lists hnew h.tidy h1
  rw [hv] at hv'
  rw [hr] at hr'
  cases hv'
  cases hr'
  have eT : l.T = [30000] := by
    have hall : ∀ n ∈ l.T, n = 30000 := fun n hn => by
      obtain ⟨P, X, d, hd⟩ := (mT n).1 hn
      exact (hw P n X d hd).2
    have hmem : 30000 ∈ l.T := (mT _).2 ⟨P, X, dc, hc⟩
    revert hT hall hmem
    cases l.T with
    | nil => intro _ _ h; cases h
    | cons a as =>
      intro hT hall _
      have ha := hall a (by simp)
      cases as with
      | nil => rw [ha]
      | cons b bs =>
        exfalso
        have hb := hall b (by simp)
        have := (List.pairwise_cons.1 hT).1 b (by simp)
        omega
  obtain ⟨zr, dr, er, hz1, hz2, hz3⟩ := h.sampling
  obtain ⟨zo, dO, eo, ho1, ho2, ho3⟩ := h.original
  obtain ⟨r, hr⟩ := C81_versus_succeeds (s := { s with hashVib := some (x.hash tv), hashRho := some (x.hash tr) }) h2
    ⟨dr, hz1⟩ ⟨dO, ho1⟩
    (by rw [eT]; intro T hT; rw [List.mem_singleton.1 hT]; exact ⟨zr, dr, er, hz1, hz2, hz3⟩)
    (by rw [eT]; intro T hT; rw [List.mem_singleton.1 hT]; exact ⟨zo, dO, eo, ho1, ho2, ho3⟩)
  have hXm : X ∈ l.X := (mX X).2 ⟨P, 30000, dc, hc⟩
  have hPm : P ∈ l.P := (mP P).2 ⟨30000, X, dc, hc⟩
  refine ⟨_, paths, l, r, h1, ?_, rfl, rfl, hr, eT, List.ne_nil_of_mem hXm, hX.imp (fun h => Nat.ne_of_lt h),
    List.ne_nil_of_mem hPm⟩
  rintro rfl
  obtain ⟨_, _, _, _, _, _, h4⟩ := initOne_ok hnew h1
  obtain ⟨path, hp, -⟩ := ((generateParameterLists_ok h4).2.1 P).1 hPm
  cases hp

/-- C133: a pair of one of the five sampling distributions with a label, both ready, is saved, whatever the state of the
others is. -/
theorem C133_versus_saved {p : Project} (hp : p = artificial ∨ p = paper) {x : Site} {absRoot : Str}
    (hx : OnServer p x absRoot) {name : Str} {l : List (Nat × Nat)} (hl : p.visits name = .ok l) {d r : Nat}
    (hv : (d, r) ∈ l) (h4 : r ≤ 4) (h0 : Ready x (initFS p.serverRoot absRoot d 0))
    (h1 : Ready x (initFS p.serverRoot absRoot d r)) (hd : ∀ s, ∃ n, x.dims s = .ok n) :
    ∃ figs done, automateVersus p x name = ((figs, done), none) ∧ (d, r) ∈ done ∧
      versusFile absRoot d r ∈ figs.map (·.path) := by
  obtain ⟨figs, done, e, -, h2, -, h5, -⟩ := C133_versus hp hx hl
  have hin : (d, r) ∈ done := by
    refine (h2 d r).2 ⟨hv, ?_⟩
    obtain ⟨s0, p0, l0, r0, a1, a2, a3, a4, a5, a6, a7, a8, a9⟩ := ready_loads (.inl rfl) h0
    obtain ⟨s1, p1, l1, r1, b1, b2, b3, b4, b5, b6, b7, b8, b9⟩ := ready_loads (.inl rfl) h1
    obtain ⟨n, hn⟩ := hd s0
    obtain ⟨fig, hf⟩ := C83_versus_succeeds a5 b5 a6 b6 a7 b7 a8 b8 (by rw [a4]; exact Nat.zero_le _)
      (by rw [b4]; exact h4) (.inr ⟨rfl, a9, b9⟩) n
    obtain ⟨k0, e0⟩ := construct_ok hx d 0
    obtain ⟨k1, e1⟩ := construct_ok hx d r
    refine ⟨fig, ?_⟩
    unfold versusPair
    rw [e0, e1]
    have hne : ¬ ([(s0, p0, l0), (s1, p1, l1)].all fun a => a.2.1.isEmpty) = true := by simp [a2]
    simp only [bind, Except.bind, initTwo, List.length_cons, List.length_nil, if_true, initMany, List.mapM_cons,
      List.mapM_nil, pure, Except.pure, a1, b1, if_neg hne, a5, b5, hn, hf]
  exact ⟨figs, done, e, hin, by rw [h5]; exact List.mem_map.2 ⟨(d, r), hin, rfl⟩⟩

/-- A comparison of a data set from 10 on is saved only if both objects have results. -/
theorem versusPair_results {p : Project} {x : Site} {absRoot : Str} (hx : OnServer p x absRoot) {d r : Nat}
    (hd : 10 ≤ d) {fig : InsetFigure} (h : versusPair x p.serverRoot d r = .ok fig) :
    ∃ s0 s1 paths0 paths1 l0 l1 d0 d1,
      initOne x.hash x.texts x.results (initFS p.serverRoot absRoot d 0) = .ok (s0, paths0, l0) ∧
      initOne x.hash x.texts x.results (initFS p.serverRoot absRoot d r) = .ok (s1, paths1, l1) ∧
      loadVersus x.results s0 paths0 l0 = .ok d0 ∧ loadVersus x.results s1 paths1 l1 = .ok d1 ∧
      drawVersus (x.dims s0) s0 s1 d0 d1 = .ok fig ∧ d0.table.lists.T ≠ [] ∧ d1.table.lists.T ≠ [] := by
  obtain ⟨s0, s1, paths0, paths1, l0, l1, d0, d1, h0, h1, h2, h3, h4⟩ := versusPair_ok hx h
  obtain ⟨a1, -⟩ := initOne_ids (.inl rfl) h0
  obtain ⟨c, c', -, hc⟩ := (C83_versus_name_and_inset h4).2.2.2 (by rw [a1]; exact hd)
  obtain ⟨_, _, _, _, e1, _⟩ := hc (d0, c) (by simp)
  obtain ⟨_, _, _, _, e2, _⟩ := hc (d1, c') (by simp)
  exact ⟨s0, s1, paths0, paths1, l0, l1, d0, d1, h0, h1, h2, h3, h4, e1, e2⟩

/-- C133 fails: for the systems of the paper the comparison with the sampling distribution 11 is never saved, and no
exception says so. -/
theorem C133_iterative_refuted {x : Site} {absRoot : Str} (hx : OnServer paper x absRoot) {name : Str}
    {l : List (Nat × Nat)} (hl : paper.visits name = .ok l) {d : Nat} (hv : (d, 11) ∈ l) :
    ∃ figs done, automateVersus paper x name = ((figs, done), none) ∧ (d, 11) ∉ done ∧
      versusFile absRoot d 11 ∉ figs.map (·.path) := by
  obtain ⟨figs, done, e, -, h2, -, h5, -⟩ := C133_versus (.inr rfl) hx hl
  have hno : (d, 11) ∉ done := by
    intro hin
    obtain ⟨-, fig, hf⟩ := (h2 d 11).1 hin
    obtain ⟨s0, s1, paths0, paths1, l0, l1, d0, d1, h0, h1, -, -, h4, -, e2⟩ :=
      versusPair_results hx ((visits_nodup (.inr rfl) hl).2 _ hv) hf
    obtain ⟨-, b2, -⟩ := initOne_ids (.inl rfl) h1
    have b2 : s1.idRho = 11 := b2
    unfold drawVersus at h4
    obtain ⟨_, -, h4⟩ := bind_eq_ok.1 h4
    obtain ⟨cs', hcs, -⟩ := bind_eq_ok.1 h4
    obtain ⟨T, hT⟩ := List.exists_mem_of_ne_nil _ e2
    obtain ⟨c, hc⟩ := mapM_isOk.1 ⟨cs', hcs⟩ T hT
    unfold versusCurve at hc
    obtain ⟨iT, -, hc⟩ := bind_eq_ok.1 hc
    split at hc
    · cases hc
    · obtain ⟨iX, -, hc⟩ := bind_eq_ok.1 hc
      rw [if_neg (by omega)] at hc
      cases hc
  refine ⟨figs, done, e, hno, ?_⟩
  rw [h5]
  intro hm
  obtain ⟨⟨d', r'⟩, hin, he⟩ := List.mem_map.1 hm
  obtain ⟨rfl, rfl⟩ := versusFile_inj he
  exact hno hin

/-- C133 fails: if the exact results are those that the programs of this package write, the program ends as if all
were well, and has saved nothing. -/
theorem C133_own_results_refuted {p : Project} (hp : p = artificial ∨ p = paper) {x : Site} {absRoot : Str}
    (hx : OnServer p x absRoot) {name : Str} {l : List (Nat × Nat)} (hl : p.visits name = .ok l)
    (float : Str → Except Err ℝ)
    (hw : ∀ d r T c e, x.results.results (initFS p.serverRoot absRoot d r).pathAnalyticRho = .dict c →
      c (tempStr T) = some (.entry e) → ∃ killed out, Pibronic.Analytic.compute float killed out = .ok (some e)) :
    automateVersus p x name = (([], []), none) := by
  obtain ⟨figs, done, e, -, h2, h3, -⟩ := C133_versus hp hx hl
  have hno : ∀ d r, (d, r) ∈ l → ∀ fig, versusPair x p.serverRoot d r ≠ .ok fig := by
    intro d r hv fig hf
    obtain ⟨s0, s1, paths0, paths1, l0, l1, d0, d1, h0, h1, h2, h3, h4, e1, e2⟩ :=
      versusPair_results hx ((visits_nodup hp hl).2 _ hv) hf
    obtain ⟨-, -, -, a4, -⟩ := initOne_ids (.inl rfl) h0
    unfold loadVersus at h2
    obtain ⟨t0, g0, g⟩ := bind_eq_ok.1 h2
    obtain ⟨orig, ho, g⟩ := bind_eq_ok.1 g
    obtain ⟨rho, hr, g⟩ := bind_eq_ok.1 g
    obtain ⟨t1, g1, g⟩ := bind_eq_ok.1 g
    obtain ⟨t2, g2, g⟩ := bind_eq_ok.1 g
    cases g
    obtain ⟨_, _, _, _, _, _, hgen⟩ := initOne_ok (.inl rfl) h0
    have hnd := generateParameterLists_ok hgen
    have hT : l0.T.Nodup := hnd.1.2.1.imp (fun h => Nat.ne_of_lt h)
    have hX : l0.X.Nodup := hnd.1.2.2.imp (fun h => Nat.ne_of_lt h)
    have k0 := loadPimcData_lists g0
    have k1 := scaleAll_ok (by rw [k0]; exact hT) g1
    have k2 := percentEach_ok (by rw [k1.1, k0]; exact hT) (by rw [k1.1, k0]; exact hX) g2
    obtain ⟨T, hTm⟩ := List.exists_mem_of_ne_nil _ e1
    have hTm' : T ∈ l0.T := by rwa [k2.1, k1.1, k0] at hTm
    obtain ⟨z, hz, -⟩ := k1.2 T (by rw [k0]; exact hTm')
    obtain ⟨dd, ee, f1, f2, f3⟩ := (getEntry_loaded hr hTm' _ _).1 hz
    rw [a4] at f1
    obtain ⟨killed, out, hc⟩ := hw d 0 T dd ee f1 f2
    rw [(C81_names_never_written_refuted float killed out ee hc).1] at f3
    cases f3
  have hfigs : figs = [] := List.eq_nil_iff_forall_not_mem.2 fun fig hm => by
    obtain ⟨d, r, a, b⟩ := (h3 fig).1 hm
    exact hno d r a fig b
  have hdone : done = [] := List.eq_nil_iff_forall_not_mem.2 fun v hm => by
    obtain ⟨a, fig, b⟩ := (h2 v.1 v.2).1 hm
    exact hno v.1 v.2 a fig b
  rw [e, hfigs, hdone]

/-! ### C133: the raw results -/

theorem testLoop_spec (x : Site) (root : Str) (l : List (Nat × Nat)) :
    (testLoop x root l).2.Sublist l ∧
    (∀ v, v ∈ (testLoop x root l).2 ↔ v ∈ l ∧ (testPair x root v.1 v.2).2 = none) ∧
    (testLoop x root l).1 = l.flatMap fun v => (testPair x root v.1 v.2).1 := by
  induction l with
  | nil => simp [testLoop]
  | cons v l ih =>
    obtain ⟨d, r⟩ := v
    obtain ⟨i1, i2, i3⟩ := ih
    match h : testPair x root d r with
    | (figs, some e) =>
      simp only [testLoop, h]
      refine ⟨i1.cons _, fun v => ?_, by rw [List.flatMap_cons, h, i3]⟩
      rw [i2, List.mem_cons]
      constructor
      · rintro ⟨a, b⟩; exact ⟨.inr a, b⟩
      · rintro ⟨rfl | a, b⟩
        · rw [h] at b; cases b
        · exact ⟨a, b⟩
    | (figs, none) =>
      simp only [testLoop, h]
      refine ⟨i1.cons_cons _, fun v => ?_, by rw [List.flatMap_cons, h, i3]⟩
      rw [List.mem_cons, List.mem_cons, i2]
      constructor
      · rintro (rfl | ⟨a, b⟩)
        · exact ⟨.inl rfl, by rw [h]⟩
        · exact ⟨.inr a, b⟩
      · rintro ⟨rfl | a, b⟩
        · exact .inl rfl
        · exact .inr ⟨a, b⟩

/-- C133: the program that draws the raw results saves, for every pair, what drawing it alone saves, also if that ends with
an exception; the pairs without exception are reported as finished. -/
theorem C133_test {p : Project} {x : Site} {absRoot : Str} (hx : OnServer p x absRoot) {name : Str}
    {l : List (Nat × Nat)} (hl : p.visits name = .ok l) :
    ∃ figs done, automateTest p x name = ((figs, done), none) ∧ done.Sublist l ∧
      (∀ d r, (d, r) ∈ done ↔ (d, r) ∈ l ∧ (testPair x p.serverRoot d r).2 = none) ∧
      figs = l.flatMap fun v => (testPair x p.serverRoot v.1 v.2).1 := by
  obtain ⟨h1, h2, h3⟩ := testLoop_spec x p.serverRoot l
  exact ⟨_, _, by simp only [automateTest, prepareLoop_ok hx hl], h1, fun d r => h2 (d, r), h3⟩

/-- C133: of a sampling distribution with results at one temperature the partition function and the energy are saved. -/
theorem C133_test_saved {p : Project} {x : Site} {absRoot : Str} (hx : OnServer p x absRoot) {name : Str}
    {l : List (Nat × Nat)} (hl : p.visits name = .ok l) {d r : Nat} (hv : (d, r) ∈ l)
    (h : Ready x (initFS p.serverRoot absRoot d r)) :
    ∃ figs done, automateTest p x name = ((figs, done), none) ∧ ∀ f ∈ [c!"Z", c!"E"],
      rhoDir absRoot d r ++ c!"plots/" ++ f ++ c!"_D" ++ natStr d ++ c!"_R" ++ natStr r ++ c!".pdf" ∈
        figs.map (·.path) := by
  obtain ⟨figs, done, e, -, -, h3⟩ := C133_test hx hl
  refine ⟨figs, done, e, ?_⟩
  obtain ⟨tv, tr, hm1, hm2, hw, P, X, dc, hc⟩ := h.models
  have hnew : (initFS p.serverRoot absRoot d r).hashVib = none ∨ (initFS p.serverRoot absRoot d r).hashRho = none := .inl rfl
  obtain ⟨paths, ls, t, h1, h2⟩ := C80_succeeds (hash := x.hash) hnew h.tidy hm1 hm2 h.readable
    (fun P T X d hd => (hw P T X d hd).1) false
  obtain ⟨_, _, _, _, h1', _, hT, -⟩ : ∃ s' paths' l' r', initOne x.hash x.texts x.results
      (initFS p.serverRoot absRoot d r) = .ok (s', paths', l') ∧ paths' ≠ [] ∧ l'.T = [30000] ∧
      loadVersus x.results s' paths' l' = .ok r' := by
    obtain ⟨s', p', l', r', q1, q2, -, -, q5, q6, -⟩ := ready_loads hnew h
    exact ⟨s', p', l', r', q1, q2, q6, q5⟩
  rw [h1] at h1'
  cases h1'
  obtain ⟨k, ek⟩ := construct_ok hx d r
  obtain ⟨z, en, hp, hz, hen⟩ := C83_plot_test_refuted
    { initFS p.serverRoot absRoot d r with hashVib := some (x.hash tv), hashRho := some (x.hash tr) } t
    (by rw [loadPimcData_lists h2, hT]; rfl)
  have hpair : testPair x p.serverRoot d r = ([z, en], some .attribute) := by
    unfold testPair
    rw [ek]
    simp only [bind, Except.bind, h1, h2]
    exact hp
  have hpath : ∀ f (fig : Figure), f ∈ [c!"Z", c!"E"] → drawTest
      { initFS p.serverRoot absRoot d r with hashVib := some (x.hash tv), hashRho := some (x.hash tr) } t f true = .ok fig →
      fig.path = rhoDir absRoot d r ++ c!"plots/" ++ f ++ c!"_D" ++ natStr d ++ c!"_R" ++ natStr r ++ c!".pdf" := by
    intro f fig hf hd
    rw [(drawTest_ok hd).1]
    simp only [initFS_eq hx.root]
    simp only [List.mem_cons, List.not_mem_nil, or_false] at hf
    rcases hf with rfl | rfl
    · simpa using join_slash (rhoDir absRoot d r ++ c!"plots") 'Z' (c!"_D" ++ natStr d ++ c!"_R" ++ natStr r ++ c!".pdf") (by decide)
    · simpa using join_slash (rhoDir absRoot d r ++ c!"plots") 'E' (c!"_D" ++ natStr d ++ c!"_R" ++ natStr r ++ c!".pdf") (by decide)
  intro f hf
  have hin : ∀ g ∈ [z, en], g ∈ figs := fun g hg => by
    rw [h3]
    exact List.mem_flatMap.2 ⟨(d, r), hv, by rw [hpair]; exact hg⟩
  have hf' := hf
  simp only [List.mem_cons, List.not_mem_nil, or_false] at hf'
  rcases hf' with rfl | rfl
  · exact List.mem_map.2 ⟨z, hin z (by simp), hpath _ z hf hz⟩
  · exact List.mem_map.2 ⟨en, hin en (by simp), hpath _ en hf hen⟩

/-- C133 fails: a sampling distribution with any current result is never finished, and its heat capacity is never saved. -/
theorem C133_heat_capacity_refuted {p : Project} {x : Site} {absRoot : Str} (hx : OnServer p x absRoot) {d r : Nat}
    (ht : Tidy (initFS p.serverRoot absRoot d r) x.results) {tv tr : Str}
    (hm1 : x.texts.files (initFS p.serverRoot absRoot d r).pathVibModel = some tv)
    (hm2 : x.texts.files (initFS p.serverRoot absRoot d r).pathRhoModel = some tr) {P T X : Nat} {dc : ThermoDict ℝ}
    (hc : CurrentFile (initFS p.serverRoot absRoot d r) x.results (x.hash tv) (x.hash tr) P T X dc) :
    (testPair x p.serverRoot d r).2 ≠ none ∧ (testPair x p.serverRoot d r).1.length ≤ 2 := by
  obtain ⟨k, ek⟩ := construct_ok hx d r
  unfold testPair
  rw [ek]
  simp only [bind, Except.bind]
  cases h1 : initOne x.hash x.texts x.results (initFS p.serverRoot absRoot d r) with
  | error e => simp
  | ok a =>
    obtain ⟨s', paths, l⟩ := a
    simp only
    cases h2 : loadPimcData false x.results l paths with
    | error e => simp
    | ok t =>
      simp only
      obtain ⟨tv', tr', hv', hr', -, -, mT, mX⟩ := C80_lists (.inl rfl) ht h1
      rw [hm1] at hv'
      rw [hm2] at hr'
      cases hv'
      cases hr'
      have hT : T ∈ t.lists.T := by rw [loadPimcData_lists h2]; exact (mT T).2 ⟨P, X, dc, hc⟩
      have hX : X ∈ t.lists.X := by rw [loadPimcData_lists h2]; exact (mX X).2 ⟨P, T, dc, hc⟩
      by_cases h1 : t.lists.T.length = 1
      · obtain ⟨z, en, hp, -⟩ := C83_plot_test_refuted s' t h1
        rw [hp]
        simp
      · have : t.lists.T.length ≠ 0 := fun h => by
          rw [List.length_eq_zero_iff.1 h] at hT
          cases hT
        rw [C83_plot_test_two_temperatures_refuted s' t (by omega) (List.ne_nil_of_mem hX)]
        simp

/-! ### C133: the grids -/

/-- C133: the program that draws the grids goes through the data sets in order, until the first one that fails: what
was saved before stays, its exception ends the program. -/
theorem C133_grids {p : Project} (hp : p = artificial ∨ p = paper) {x : Site} {absRoot : Str} (hx : OnServer p x absRoot)
    {name : Str} {ids : List Nat} (hn : (name, ids) ∈ p.systems) :
    ((∀ d ∈ ids, (gridSet x p.serverRoot d).2 = none) →
      automateGrids p x name = ((ids.flatMap fun d => (gridSet x p.serverRoot d).1, ids), none)) ∧
    ∀ before d after e, ids = before ++ d :: after → (∀ d ∈ before, (gridSet x p.serverRoot d).2 = none) →
      (gridSet x p.serverRoot d).2 = some e →
      automateGrids p x name = (((before ++ [d]).flatMap fun d => (gridSet x p.serverRoot d).1, before), some e) := by
  have hsys : p.assertName name = .ok () ∧ dictItem p.systems name = .ok ids := by
    rcases hp with rfl | rfl
    · simp only [artificial, List.mem_cons, List.not_mem_nil, or_false, Prod.mk.injEq] at hn
      rcases hn with ⟨rfl, rfl⟩ | ⟨rfl, rfl⟩ | ⟨rfl, rfl⟩ <;> exact ⟨rfl, rfl⟩
    · simp only [paper, List.mem_cons, List.not_mem_nil, or_false, Prod.mk.injEq] at hn
      rcases hn with ⟨rfl, rfl⟩ | ⟨rfl, rfl⟩ | ⟨rfl, rfl⟩ | ⟨rfl, rfl⟩ <;> exact ⟨rfl, rfl⟩
  have hstart : automateGrids p x name = gridLoop x p.serverRoot ids := by
    simp only [automateGrids, hsys.1, hsys.2, Project.chooseRoot, hx.host, if_true, bind, Except.bind]
  have happ : ∀ a b, (∀ d ∈ a, (gridSet x p.serverRoot d).2 = none) → gridLoop x p.serverRoot (a ++ b) =
      (((a.flatMap fun d => (gridSet x p.serverRoot d).1) ++ (gridLoop x p.serverRoot b).1.1,
        a ++ (gridLoop x p.serverRoot b).1.2), (gridLoop x p.serverRoot b).2) := by
    intro a b h
    induction a with
    | nil => rfl
    | cons d a ih =>
      have hd : gridSet x p.serverRoot d = ((gridSet x p.serverRoot d).1, none) := Prod.ext rfl (h d (by simp))
      rw [List.cons_append, gridLoop, hd]
      simp only
      rw [ih fun y hy => h y (List.mem_cons_of_mem _ hy)]
      simp
  rw [hstart]
  refine ⟨fun h => ?_, fun before d after e hi hb hd => ?_⟩
  · have := happ ids [] h
    simpa [gridLoop] using this
  · subst hi
    have hd' : gridSet x p.serverRoot d = ((gridSet x p.serverRoot d).1, some e) := Prod.ext rfl hd
    rw [happ before _ hb, gridLoop, hd']
    simp

/-- C133: one data set: with both model files, of the dimensions of the sampling model and with energies and linear terms,
nothing fails: two figures with energies and two for each mode are saved. -/
theorem C133_grids_saved {p : Project} {x : Site} {absRoot : Str} (hx : OnServer p x absRoot) {d A N : Nat}
    {orig coup : Pibronic.Grids.ModelFile ℝ}
    (h1 : x.model (dataDir absRoot d ++ c!"parameters/original_coupled_model.json") = .ok orig)
    (h2 : x.model (dataDir absRoot d ++ c!"parameters/coupled_model.json") = .ok coup)
    (h3 : x.dims (initFS p.serverRoot absRoot d 0) = .ok (A, N)) (ho : orig.A = A ∧ orig.N = N)
    (hc : coup.A = A ∧ coup.N = N) (he : orig.energy ≠ none ∧ coup.energy ≠ none)
    (hl : orig.linear ≠ none ∧ coup.linear ≠ none) :
    (gridSet x p.serverRoot d).2 = none ∧ (gridSet x p.serverRoot d).1.length = 2 + 2 * N := by
  obtain ⟨k, ek⟩ := construct_ok hx d 0
  obtain ⟨eo, ho'⟩ := Option.ne_none_iff_exists'.1 he.1
  obtain ⟨ec, hc'⟩ := Option.ne_none_iff_exists'.1 he.2
  obtain ⟨lo, hlo⟩ := Option.ne_none_iff_exists'.1 hl.1
  obtain ⟨lc, hlc⟩ := Option.ne_none_iff_exists'.1 hl.2
  obtain ⟨g, g', e1, -⟩ := Pibronic.Props.Grids.C85_energy (N := N) (s := initFS p.serverRoot absRoot d 0) ho' hc' ho.1 hc.1
  obtain ⟨figs, e2, e3, -⟩ := Pibronic.Props.Grids.C85_linear (s := initFS p.serverRoot absRoot d 0) hlo hlc ho hc
  have p1 : (initFS p.serverRoot absRoot d 0).pathOrigModel =
      dataDir absRoot d ++ c!"parameters/original_coupled_model.json" := by simp [initFS_eq hx.root]
  have p2 : (initFS p.serverRoot absRoot d 0).pathVibModel =
      dataDir absRoot d ++ c!"parameters/coupled_model.json" := by simp [initFS_eq hx.root]
  unfold gridSet
  rw [ek]
  simp only [bind, Except.bind, p1, p2, h1, h2, h3, e1, e2]
  simp [e3]
  omega

/-! ### C133: refusals -/

/-- C133: an unknown system and any other machine are refused, and nothing is drawn. -/
theorem C133_refused (p : Project) (x : Site) (name : Str) :
    ((∀ ids, (name, ids) ∉ p.systems) → automateVersus p x name = (([], []), some .assertion) ∧
      automateTest p x name = (([], []), some .assertion) ∧ automateGrids p x name = (([], []), some .assertion)) ∧
    (∀ ids, (name, ids) ∈ p.systems → x.host ≠ c!"nlogn" → x.host ≠ c!"feynman" →
      automateVersus p x name = (([], []), some .exception) ∧
      automateTest p x name = (([], []), some .exception) ∧ automateGrids p x name = (([], []), some .exception)) := by
  have key : ∀ e, (p.assertName name = .error e ∨ (p.assertName name = .ok () ∧ p.chooseRoot x.host = .error e)) →
      automateVersus p x name = (([], []), some e) ∧
      automateTest p x name = (([], []), some e) ∧ automateGrids p x name = (([], []), some e) := by
    rintro e (h | ⟨h, h'⟩)
    · simp [automateVersus, automateTest, automateGrids, prepareLoop, h, bind, Except.bind]
    · simp [automateVersus, automateTest, automateGrids, prepareLoop, h, h', bind, Except.bind]
  refine ⟨fun h => key _ (.inl ?_), fun ids h h1 h2 => key _ (.inr ⟨?_, ?_⟩)⟩
  · have : p.nameValid name = false := by
      simp only [Project.nameValid, List.contains_eq_mem, decide_eq_false_iff_not, List.mem_map]
      rintro ⟨⟨n, ids⟩, hm, rfl⟩
      exact h ids hm
    simp [Project.assertName, this]
  · have : p.nameValid name = true := by
      simp only [Project.nameValid, List.contains_eq_mem, decide_eq_true_iff, List.mem_map]
      exact ⟨_, h, rfl⟩
    simp [Project.assertName, this]
  · simp [Project.chooseRoot, h1, h2]

/-! ### The hypotheses can be met -/

/-- The files of a result with 12 beads and 100 samples at 300 K. -/
def resultFile (r : Nat) : Str := thermoFile (initFS paper.serverRoot paper.serverRoot.dropLast 11 r) 12 30000 100

/-- A server with all models, results for the sampling distributions 0 and 1 of the data set 11, and exact
results. -/
noncomputable def site1 : Site where
  host := c!"feynman"
  absolute := fun r => r.dropLast
  texts := ⟨[paper.serverRoot], fun _ => some c!"{}"⟩
  hash := fun _ => c!"h"
  results := ⟨[resultFile 0, resultFile 1],
    fun _ => some [(c!"Z", .num (some 3)), (c!"Z error", .num (some 1)), (c!"hash_vib", .text c!"h"),
      (c!"hash_rho", .text c!"h")],
    fun _ => .dict fun _ => some (.entry fun _ => some 5)⟩
  dims := fun _ => .ok (2, 2)
  model := fun _ => .ok ⟨2, 2, some fun _ _ => some 0, some fun _ _ _ => some 0, none⟩

theorem site1_server : OnServer paper site1 paper.serverRoot.dropLast :=
  ⟨.inr rfl, rfl, by unfold RootOk; decide, by
    have : (⟨[paper.serverRoot], fun _ => some c!"{}"⟩ : FileStructure.Disk).isDir paper.serverRoot = true := by decide
    exact this⟩

theorem site1_ready (r : Nat) (hr : r = 0 ∨ r = 1) :
    Ready site1 (initFS paper.serverRoot paper.serverRoot.dropLast 11 r) := by
  have hlist : ∀ path ∈ site1.results.listing,
      (initFS paper.serverRoot paper.serverRoot.dropLast 11 r).pathRhoResults <+: path → path = resultFile r := by
    intro path hp hpre
    have hp : path = resultFile 0 ∨ path = resultFile 1 := by simpa [site1] using hp
    rcases hr with rfl | rfl
    · rcases hp with rfl | rfl
      · rfl
      · exact absurd hpre (by decide +kernel)
    · rcases hp with rfl | rfl
      · exact absurd hpre (by decide +kernel)
      · rfl
  have hmem : resultFile r ∈ site1.results.listing := by
    have : resultFile r ∈ [resultFile 0, resultFile 1] := by rcases hr with rfl | rfl <;> simp
    exact this
  have hinj : ∀ P T X, thermoFile (initFS paper.serverRoot paper.serverRoot.dropLast 11 r) P T X = resultFile r → T = 30000 := by
    intro P T X h
    unfold resultFile at h
    rw [thermoFile_eq, thermoFile_eq] at h
    exact (Pibronic.Props.Postprocessing.C13_thermo_injective _ h).2.1
  refine ⟨⟨?_, ?_, ?_, ?_, ?_, ?_⟩, fun path _ _ _ => ⟨_, rfl⟩, ⟨c!"{}", c!"{}", rfl, rfl, ?_, ?_⟩, ?_, ?_⟩
  · rcases hr with rfl | rfl <;> decide +kernel
  · rcases hr with rfl | rfl <;> decide +kernel
  · rcases hr with rfl | rfl <;> decide +kernel
  · rcases hr with rfl | rfl <;> decide +kernel
  · intro path hp hpre _
    exact ⟨12, 30000, 100, hlist path hp hpre⟩
  · intro path d hd
    cases hd
    decide
  · rintro P T X d ⟨h1, h2, -⟩
    cases h2
    refine ⟨?_, hinj P T X (hlist _ h1 (List.prefix_append _ _))⟩
    intro q hq
    simp only [List.mem_cons, List.not_mem_nil, or_false] at hq
    rcases hq with rfl | rfl | rfl | rfl <;> simp
  · exact ⟨12, 100, _, hmem, rfl, by simp [HasHashes, site1]⟩
  · exact ⟨5, _, _, rfl, rfl, rfl⟩
  · exact ⟨5, _, _, rfl, rfl, rfl⟩

/-- The comparison of the data set 11 is drawn although the other data sets have no results. -/
example : ∃ figs done, automateVersus paper site1 c!"superimposed" = ((figs, done), none) ∧ (11, 1) ∈ done ∧
    c!"/work/ngraymon/pimc/paper_2018/data_set_11/plots/Z_orig_D11_R0_R1.pdf" ∈ figs.map (·.path) := by
  obtain ⟨l, hl, -, hm⟩ := (C121_visits_paper c!"superimposed").1 0 (by decide) rfl
  obtain ⟨figs, done, h1, h2, h3⟩ := C133_versus_saved (.inr rfl) site1_server hl (d := 11) (r := 1)
    ((hm 11 1).2 (by omega)) (by decide) (site1_ready 0 (.inl rfl)) (site1_ready 1 (.inr rfl)) (fun _ => ⟨_, rfl⟩)
  have hpath : versusFile paper.serverRoot.dropLast 11 1 =
      c!"/work/ngraymon/pimc/paper_2018/data_set_11/plots/Z_orig_D11_R0_R1.pdf" := by decide +kernel
  exact ⟨figs, done, h1, h2, hpath ▸ h3⟩

/-- The raw results of the data set 11 are drawn. -/
example : ∃ figs done, automateTest paper site1 c!"superimposed" = ((figs, done), none) ∧
    c!"/work/ngraymon/pimc/paper_2018/data_set_11/rho_1/plots/E_D11_R1.pdf" ∈ figs.map (·.path) := by
  obtain ⟨l, hl, -, hm⟩ := (C121_visits_paper c!"superimposed").1 0 (by decide) rfl
  obtain ⟨figs, done, h1, h2⟩ := C133_test_saved site1_server hl (d := 11) (r := 1)
    ((hm 11 1).2 (by omega)) (site1_ready 1 (.inr rfl))
  refine ⟨figs, done, h1, ?_⟩
  have := h2 c!"E" (by simp)
  have hpath : rhoDir paper.serverRoot.dropLast 11 1 ++ c!"plots/" ++ c!"E" ++ c!"_D" ++ natStr 11 ++ c!"_R" ++ natStr 1 ++
      c!".pdf" = c!"/work/ngraymon/pimc/paper_2018/data_set_11/rho_1/plots/E_D11_R1.pdf" := by decide +kernel
  rwa [hpath] at this

/-- Both files of the data set 11 have been written when the heat capacity fails. -/
example : (testPair site1 paper.serverRoot 11 1).2 ≠ none := by
  obtain ⟨ht, -, ⟨tv, tr, h1, h2, -, P, X, dc, hc⟩, -⟩ := site1_ready 1 (.inr rfl)
  exact (C133_heat_capacity_refuted site1_server ht h1 h2 hc).1

/-- A server on which the comparison of the distribution 11 is left out. -/
example : ∃ figs done, automateVersus paper site1 c!"superimposed" = ((figs, done), none) ∧ (11, 11) ∉ done := by
  obtain ⟨l, hl, -, hm⟩ := (C121_visits_paper c!"superimposed").1 0 (by decide) rfl
  obtain ⟨figs, done, h1, h2, -⟩ := C133_iterative_refuted site1_server hl (d := 11) ((hm 11 11).2 (by omega))
  exact ⟨figs, done, h1, h2⟩

/-- The grids of every data set are drawn. -/
example : (automateGrids paper site1 c!"superimposed").2 = none ∧
    (automateGrids paper site1 c!"superimposed").1.2 = [11, 12, 13, 14, 15, 16] := by
  have h := (C133_grids (.inr rfl) site1_server (name := c!"superimposed") (ids := [11, 12, 13, 14, 15, 16])
    (by simp [paper, range]; decide)).1 fun d _ => (C133_grids_saved site1_server (A := 2) (N := 2) rfl rfl rfl ⟨rfl, rfl⟩
      ⟨rfl, rfl⟩ ⟨by simp, by simp⟩ ⟨by simp, by simp⟩).1
  rw [h]
  exact ⟨rfl, rfl⟩

/-- Exact results written by the programs of this package, none of which has the names that are looked for. -/
example : ∃ (x : Site) (float : Str → Except Err ℝ), OnServer artificial x artificial.serverRoot.dropLast ∧
    ∀ d r T c e, x.results.results (initFS artificial.serverRoot artificial.serverRoot.dropLast d r).pathAnalyticRho = .dict c →
      c (tempStr T) = some (.entry e) → ∃ killed out, Pibronic.Analytic.compute float killed out = .ok (some e) := by
  have h : Pibronic.Analytic.parseOutput (Pibronic.Props.Analytic.printLines [(c!"Z_analytical", c!"1")]) =
      .ok [(c!"Z_analytical", c!"1")] :=
    Pibronic.Props.Analytic.C51_reads_printed_lines [(c!"Z_analytical", c!"1")] (by decide)
  obtain ⟨e, he⟩ : ∃ e, Pibronic.Analytic.compute (fun _ => .ok (1 : ℝ)) false
      (Pibronic.Props.Analytic.printLines [(c!"Z_analytical", c!"1")]) = .ok (some e) := by
    simp only [Pibronic.Analytic.compute, h, Bool.false_eq_true, if_false, bind, Except.bind]
    exact ⟨_, rfl⟩
  refine ⟨⟨c!"feynman", fun r => r.dropLast, ⟨[artificial.serverRoot], fun _ => some c!"{}"⟩, fun _ => c!"h",
    ⟨[], fun _ => none, fun _ => .dict fun _ => some (.entry e)⟩, fun _ => .ok (2, 2), fun _ => .error .os⟩,
    fun _ => .ok 1, ⟨.inr rfl, rfl, by unfold RootOk; decide, ?_⟩, ?_⟩
  · have : (⟨[artificial.serverRoot], fun _ => some c!"{}"⟩ : FileStructure.Disk).isDir artificial.serverRoot = true := by
      decide
    exact this
  · intro d r T c e' hc he'
    cases hc
    cases he'
    exact ⟨_, _, he⟩

end Pibronic.Props.ExamplesPlots
