import Verif.Model.ExamplesSubmit
import Verif.Props.Examples

set_option autoImplicit false

/-!
C132: the sum over states, Trotter and iterative calculations that are submitted for a system.
-/
namespace Pibronic.Props.ExamplesSubmit
open Pibronic.Py Pibronic.FileName Pibronic.FileStructure Pibronic.Analytic Pibronic.Examples Pibronic.ExamplesSubmit
open Pibronic.Analysis (PyStr)
open Spec.FileStructure Spec.Shell Pibronic.Props.Examples
variable {V : Type}

/-! ### What the statements are about -/

/-- The program runs on the server, whose root is usable. -/
structure OnServer (p : Project) (x : Site V) (absRoot : Str) : Prop where
  host : x.host = c!"nlogn" ∨ x.host = c!"feynman"
  absolute : x.absolute p.serverRoot = absRoot
  root : RootOk p.serverRoot absRoot
  harmless : Harmless absRoot
  isDir : x.disk.isDir p.serverRoot = true

/-- The data set has a coupled model, whose text is `vib`, and a sampling model 0. -/
def HasModels (x : Site V) (absRoot : Str) (d : Nat) (vib : Str) : Prop :=
  x.disk.files (dataDir absRoot d ++ c!"parameters/coupled_model.json") = some vib ∧
  x.disk.files (rhoDir absRoot d 0 ++ c!"parameters/sampling_model.json") ≠ none

/-- The results files of the data set that exist can be read. -/
def AllReadable (x : Site V) (d : Nat) : Prop :=
  Readable (x.sosFile d ⟨80, 30000, 0⟩) ∧
  ∀ P ∈ [50, 100, 150, 200, 300, 400, 500], Readable (x.trotterFile d ⟨80, 30000, P⟩)

open Classical in
/-- The sum over states of a data set with the basis size 80 at 300 K, unless its result is there. -/
noncomputable def sosJobs (x : Site V) (absRoot : Str) (d : Nat) (vib : Str) : List (Option (List Str)) :=
  if Done (x.hash vib) 30000 (x.sosFile d ⟨80, 30000, 0⟩) then [] else
    [some (srun (c!"sos_D" ++ natStr d ++ c!"_T300.00") (sosProgram absRoot d 80 30000))]

open Classical in
/-- The numbers of beads for which the data set has no Trotter result at 300 K with the basis size 80. -/
noncomputable def missingBeads (x : Site V) (d : Nat) (vib : Str) : List Nat :=
  [50, 100, 150, 200, 300, 400, 500].filter fun P => ¬ Done (x.hash vib) 30000 (x.trotterFile d ⟨80, 30000, P⟩)

/-- The Trotter calculation of a data set with a number of beads. -/
def trotterOf (absRoot : Str) (d P : Nat) : Option (List Str) :=
  some (srun (c!"trotter_D" ++ natStr d ++ c!"_P" ++ natStr P ++ c!"_T300.00") (trotterProgram absRoot d 80 30000 P))

/-! ### The loop -/

theorem eachSet_append (one : Nat → Submitted) (a b : List Nat) (h : ∀ d ∈ a, (one d).2 = none) :
    eachSet one (a ++ b) = ((a.flatMap fun d => (one d).1) ++ (eachSet one b).1, (eachSet one b).2) := by
  induction a with
  | nil => rfl
  | cons d a ih =>
    have hd : one d = ((one d).1, none) := Prod.ext rfl (h d (by simp))
    rw [List.cons_append, eachSet, ih fun x hx => h x (List.mem_cons_of_mem _ hx), hd]
    simp [andAlso]

theorem eachSet_all (one : Nat → Submitted) (a : List Nat) (h : ∀ d ∈ a, (one d).2 = none) :
    eachSet one a = (a.flatMap fun d => (one d).1, none) := by
  have := eachSet_append one a [] h
  simpa [eachSet] using this

theorem eachSet_stops (one : Nat → Submitted) (a b : List Nat) (d : Nat) (h : ∀ d ∈ a, (one d).2 = none) {e : Err}
    (hd : (one d).2 = some e) : eachSet one (a ++ d :: b) = ((a.flatMap fun d => (one d).1) ++ (one d).1, some e) := by
  have hd' : one d = ((one d).1, some e) := Prod.ext rfl hd
  rw [eachSet_append one a _ h, eachSet, hd']
  rfl

theorem find_ne_none (p a b : Str) : find p (a ++ p ++ b) ≠ none := by
  induction a with
  | nil =>
    have h := dropPrefix_append p b
    simp only [List.nil_append]
    generalize p ++ b = s at h
    cases s <;> simp [find, h]
  | cons c a ih =>
    rw [List.cons_append, List.cons_append, find]
    split
    · simp
    · simpa using ih

theorem tempStr_300 : tempStr 30000 = c!"300.00" := by decide +kernel

section
variable {p : Project} {x : Site V} {absRoot : Str} {d : Nat} {vib : Str}

theorem opened (hx : OnServer p x absRoot) : openProject p x.hash x.host none x.absolute x.disk d =
    openProject p x.hash x.host (some (p.serverRoot, absRoot)) x.absolute x.disk d := by
  rw [(C122_root p x.hash x.host x.absolute x.disk d).1 hx.host, hx.absolute]

/-- The sum over states. -/
theorem sos_part (hx : OnServer p x absRoot) (hv : p.assertId d = .ok ()) (hm : HasModels x absRoot d vib)
    (hr : Readable (x.sosFile d ⟨80, 30000, 0⟩)) :
    ∃ cmds, wrapper (fun s h => generateSos s h (x.sosFile d) temps bases)
        (openProject p x.hash x.host none x.absolute x.disk d) = (cmds, none) ∧
      cmds.map words = sosJobs x absRoot d vib := by
  obtain ⟨rho, h2⟩ := Option.ne_none_iff_exists'.mp hm.2
  obtain ⟨cmds, h, hw⟩ := C122_sos hx.root hx.harmless hv x.hash x.host x.absolute hx.isDir hm.1 h2 (x.sosFile d) bases temps
    (by simpa [bases, temps] using hr)
  refine ⟨cmds, by rw [opened hx]; exact h, hw.trans ?_⟩
  simp only [bases, temps, List.flatMap_cons, List.flatMap_nil, List.map_cons, List.map_nil, List.append_nil, sosJobs]
  by_cases hd : Done (x.hash vib) 30000 (x.sosFile d ⟨80, 30000, 0⟩)
  · simp [hd]
  · simp [hd, tempStr_300]

theorem trotter_part (hx : OnServer p x absRoot) (hv : p.assertId d = .ok ()) (hm : HasModels x absRoot d vib)
    (hr : ∀ P ∈ beads, Readable (x.trotterFile d ⟨80, 30000, P⟩)) :
    ∃ cmds, wrapper (fun s h => generateTrotterPaper s h (x.trotterFile d) temps bases beads)
        (openProject p x.hash x.host none x.absolute x.disk d) = (cmds, none) ∧
      cmds.map words = (missingBeads x d vib).map (trotterOf absRoot d) := by
  obtain ⟨rho, h2⟩ := Option.ne_none_iff_exists'.mp hm.2
  obtain ⟨cmds, h, hw⟩ := C122_trotter hx.root hx.harmless hv x.hash x.host x.absolute hx.isDir hm.1 h2 (x.trotterFile d) bases
    temps beads (by simpa [bases, temps] using hr)
  refine ⟨cmds, by rw [opened hx]; exact h, hw.trans ?_⟩
  have e : (bases.flatMap fun B => temps.flatMap fun T => beads.map fun P => (⟨B, T, P⟩ : Calc)) =
      beads.map fun P => ⟨80, 30000, P⟩ := by simp [bases, temps]
  rw [e, List.filter_map, List.map_map]
  simp only [missingBeads, beads, Function.comp_def, tempStr_300]
  refine List.map_congr_left fun P _ => ?_
  simp [trotterOf]

theorem trotter_part_artificial (hx : OnServer p x absRoot) (hv : p.assertId d = .ok ()) (hm : HasModels x absRoot d vib)
    (hr : ∀ P ∈ beads, Readable (x.trotterFile d ⟨80, 30000, P⟩)) {before : List Nat} {P : Nat}
    (hP : missingBeads x d vib = before ++ [P]) :
    ∃ cmds, wrapper (fun s h => generateTrotterArtificial s h (x.trotterFile d) temps bases beads)
        (openProject p x.hash x.host none x.absolute x.disk d) = (cmds, none) ∧
      cmds.map words = [trotterOf absRoot d P] := by
  classical
  obtain ⟨rho, h2⟩ := Option.ne_none_iff_exists'.mp hm.2
  have hlast : ∃ b a, beads = b ++ P :: a ∧ ¬ Done (x.hash vib) 30000 (x.trotterFile d ⟨80, 30000, P⟩) ∧
      ∀ Q ∈ a, Done (x.hash vib) 30000 (x.trotterFile d ⟨80, 30000, Q⟩) := by
    have : beads.filter (fun P => ¬ Done (x.hash vib) 30000 (x.trotterFile d ⟨80, 30000, P⟩)) = before ++ [P] := by
      simpa only [missingBeads, beads] using hP
    obtain ⟨l₁, l₂, h3, h4, h5⟩ := List.filter_eq_append_iff.mp this
    obtain ⟨l₃, l₄, h6, h7, h8, h9⟩ := List.filter_eq_cons_iff.mp h5
    refine ⟨l₁ ++ l₃, l₄, by rw [h3, h6]; simp, by simpa using h8, fun Q hQ => ?_⟩
    have := List.filter_eq_nil_iff.mp h9 Q hQ
    simpa using this
  obtain ⟨cmds, h, hw⟩ := C122_artificial_trotter_partial hx.root hx.harmless hv x.hash x.host x.absolute hx.isDir hm.1 h2
    (x.trotterFile d) bases temps beads (by simpa [bases, temps] using hr) (fun _ _ => P) (by
      intro B hB T hT
      simp only [bases, temps, List.mem_singleton] at hB hT
      subst hB hT
      exact hlast)
  refine ⟨cmds, by rw [opened hx]; exact h, hw.trans ?_⟩
  simp [bases, temps, trotterJob, trotterOf, tempStr_300]

end

theorem systems_entry {p : Project} {name : Str} {ids : List Nat} (hp : p = artificial ∨ p = paper)
    (h : (name, ids) ∈ p.systems) :
    (do p.assertName name; dictItem p.systems name : Except Err (List Nat)) = .ok ids ∧
      ∀ d ∈ ids, p.assertId d = .ok () := by
  rcases hp with rfl | rfl
  · simp only [artificial, List.mem_cons, List.not_mem_nil, or_false, Prod.mk.injEq] at h
    rcases h with ⟨rfl, rfl⟩ | ⟨rfl, rfl⟩ | ⟨rfl, rfl⟩ <;> exact ⟨rfl, by decide⟩
  · simp only [paper, List.mem_cons, List.not_mem_nil, or_false, Prod.mk.injEq] at h
    rcases h with ⟨rfl, rfl⟩ | ⟨rfl, rfl⟩ | ⟨rfl, rfl⟩ | ⟨rfl, rfl⟩ <;> exact ⟨rfl, by decide⟩

/-! ### C132 -/

/-- C132: for every data set of the system of the paper, in order, the sum over states is submitted if its result is
missing, then the Trotter calculation with each number of beads whose result is missing, and nothing else. -/
theorem C132_paper {x : Site V} {absRoot : Str} (hx : OnServer paper x absRoot) {name : Str} {ids : List Nat}
    (hn : (name, ids) ∈ paper.systems) (vib : Nat → Str) (hm : ∀ d ∈ ids, HasModels x absRoot d (vib d))
    (hr : ∀ d ∈ ids, AllReadable x d) :
    ∃ cmds, automatePaper x name = (cmds, none) ∧
      cmds.map words = ids.flatMap fun d => sosJobs x absRoot d (vib d) ++
        (missingBeads x d (vib d)).map (trotterOf absRoot d) := by
  obtain ⟨h1, h2⟩ := systems_entry (.inr rfl) hn
  have hone : ∀ d ∈ ids, (sosTrotter paper x generateTrotterPaper d).2 = none ∧
      (sosTrotter paper x generateTrotterPaper d).1.map words = sosJobs x absRoot d (vib d) ++
        (missingBeads x d (vib d)).map (trotterOf absRoot d) := by
    intro d hd
    obtain ⟨a, ha, hwa⟩ := sos_part hx (h2 d hd) (hm d hd) (hr d hd).1
    obtain ⟨b, hb, hwb⟩ := trotter_part hx (h2 d hd) (hm d hd) (hr d hd).2
    simp only [sosTrotter, ha, hb, andAlso, List.map_append, hwa, hwb, and_self]
  unfold automatePaper
  rw [h1]
  simp only
  rw [eachSet_all _ _ fun d hd => (hone d hd).1]
  refine ⟨_, rfl, ?_⟩
  rw [List.map_flatMap]
  exact List.flatMap_congr fun d hd => (hone d hd).2

/-- C132: for the artificial systems, if every data set misses some Trotter result: the sum over states if it is
missing, and one Trotter calculation, that of the last number of beads whose result is missing. -/
theorem C132_artificial_partial {x : Site V} {absRoot : Str} (hx : OnServer artificial x absRoot) (vib : Nat → Str)
    (last : Nat → Nat) (hm : ∀ d ∈ [11, 12, 13, 14, 15], HasModels x absRoot d (vib d))
    (hr : ∀ d ∈ [11, 12, 13, 14, 15], AllReadable x d)
    (hl : ∀ d ∈ [11, 12, 13, 14, 15], ∃ before, missingBeads x d (vib d) = before ++ [last d]) :
    ∃ cmds, automateArtificial x ⟨c!"2x2", true⟩ = (cmds, none) ∧
      cmds.map words = [11, 12, 13, 14, 15].flatMap fun d => sosJobs x absRoot d (vib d) ++
        [trotterOf absRoot d (last d)] := by
  have h2 : ∀ d ∈ [11, 12, 13, 14, 15], artificial.assertId d = .ok () := by decide
  have hone : ∀ d ∈ [11, 12, 13, 14, 15], (sosTrotter artificial x generateTrotterArtificial d).2 = none ∧
      (sosTrotter artificial x generateTrotterArtificial d).1.map words = sosJobs x absRoot d (vib d) ++
        [trotterOf absRoot d (last d)] := by
    intro d hd
    obtain ⟨before, hb⟩ := hl d hd
    obtain ⟨a, ha, hwa⟩ := sos_part hx (h2 d hd) (hm d hd) (hr d hd).1
    obtain ⟨b, hb, hwb⟩ := trotter_part_artificial hx (h2 d hd) (hm d hd) (hr d hd).2 hb
    simp only [sosTrotter, ha, hb, andAlso, List.map_append, hwa, hwb, and_self]
  have e : automateArtificial x ⟨c!"2x2", true⟩ =
    eachSet (sosTrotter artificial x generateTrotterArtificial) [11, 12, 13, 14, 15] := rfl
  rw [e, eachSet_all _ _ fun d hd => (hone d hd).1]
  refine ⟨_, rfl, ?_⟩
  rw [List.map_flatMap]
  exact List.flatMap_congr fun d hd => (hone d hd).2

/-- C132 fails: a system name that is not the literal of a source file (read from the command line, say) is refused
even if it is "2x2". -/
theorem C132_name_refuted (x : Site V) : automateArtificial x ⟨c!"2x2", false⟩ = ([], some .assertion) := rfl

/-- C132: every other name is refused, and nothing is submitted. -/
theorem C132_other_systems (x : Site V) (name : PyStr) (h : name.text ≠ c!"2x2") :
    automateArtificial x name = ([], some .assertion) := by
  have hl : name.isLit c!"2x2" = false := by
    simp [PyStr.isLit, h]
  unfold automateArtificial
  rw [hl]
  unfold Project.assertName
  split
  · next e he =>
    split at he <;> (simp only [bind, Except.bind, Bool.false_eq_true, if_false, Except.error.injEq] at he; rw [← he])
  · next ids he =>
    exfalso
    split at he <;> simp [bind, Except.bind] at he

/-- C132 fails: once a data set of the artificial systems has all its Trotter results the program ends there with
UnboundLocalError, and nothing is submitted for the data sets after it, whatever they miss. -/
theorem C132_finished_set_refuted {x : Site V} {absRoot : Str} (hx : OnServer artificial x absRoot) {vib : Str}
    (hm : HasModels x absRoot 11 vib) (hr : AllReadable x 11) (hd : missingBeads x 11 vib = []) :
    ∃ cmds, automateArtificial x ⟨c!"2x2", true⟩ = (cmds, some .unbound) ∧ cmds.map words = sosJobs x absRoot 11 vib := by
  obtain ⟨a, ha, hwa⟩ := sos_part hx (show artificial.assertId 11 = .ok () from rfl) hm hr.1
  obtain ⟨rho, h2⟩ := Option.ne_none_iff_exists'.mp hm.2
  have hb := C122_nothing_missing_refuted hx.root hx.harmless (show artificial.assertId 11 = .ok () from rfl) x.hash x.host
    x.absolute hx.isDir hm.1 h2 (x.trotterFile 11) 80 30000 [] [] beads (by
      intro P hP
      by_contra hc
      have : P ∈ missingBeads x 11 vib := by
        unfold missingBeads
        exact List.mem_filter.mpr ⟨hP, by simpa using hc⟩
      rw [hd] at this
      cases this)
  rw [← opened hx] at hb
  have hone : sosTrotter artificial x generateTrotterArtificial 11 = (a, some .unbound) := by
    have hb' : wrapper (fun s h => generateTrotterArtificial s h (x.trotterFile 11) temps bases beads)
      (openProject artificial x.hash x.host none x.absolute x.disk 11) = ([], some .unbound) := hb
    simp only [sosTrotter, ha, hb', andAlso, List.append_nil]
  have e : automateArtificial x ⟨c!"2x2", true⟩ =
    eachSet (sosTrotter artificial x generateTrotterArtificial) ([] ++ 11 :: [12, 13, 14, 15]) := rfl
  rw [e, eachSet_stops _ [] _ 11 (by simp) (by rw [hone])]
  exact ⟨a, by rw [hone]; rfl, hwa⟩

/-- C132: a data set without its coupled model ends the program with AssertionError; the data sets before it get their
calculations, the ones after it nothing. -/
theorem C132_missing_model {x : Site V} {absRoot : Str} (hx : OnServer paper x absRoot) {name : Str} {ids before after : List Nat}
    {d : Nat} (hn : (name, ids) ∈ paper.systems) (hi : ids = before ++ d :: after) (vib : Nat → Str)
    (hm : ∀ d ∈ before, HasModels x absRoot d (vib d)) (hr : ∀ d ∈ before, AllReadable x d)
    (hno : x.disk.files (dataDir absRoot d ++ c!"parameters/coupled_model.json") = none) :
    ∃ cmds, automatePaper x name = (cmds, some .assertion) ∧
      cmds.map words = before.flatMap fun d => sosJobs x absRoot d (vib d) ++
        (missingBeads x d (vib d)).map (trotterOf absRoot d) := by
  obtain ⟨h1, h2⟩ := systems_entry (.inr rfl) hn
  have hv : ∀ d ∈ before, paper.assertId d = .ok () := fun d hd => h2 d (by rw [hi]; simp [hd])
  have hone : ∀ d ∈ before, (sosTrotter paper x generateTrotterPaper d).2 = none ∧
      (sosTrotter paper x generateTrotterPaper d).1.map words = sosJobs x absRoot d (vib d) ++
        (missingBeads x d (vib d)).map (trotterOf absRoot d) := by
    intro d hd
    obtain ⟨a, ha, hwa⟩ := sos_part hx (hv d hd) (hm d hd) (hr d hd).1
    obtain ⟨b, hb, hwb⟩ := trotter_part hx (hv d hd) (hm d hd) (hr d hd).2
    simp only [sosTrotter, ha, hb, andAlso, List.map_append, hwa, hwb, and_self]
  have hfail : openProject paper x.hash x.host none x.absolute x.disk d = .error .assertion := by
    rw [opened hx]
    have hf : ∀ l : List Str, (l.foldl Disk.makedirs x.disk).files = x.disk.files := by
      intro l
      generalize x.disk = k
      induction l generalizing k with
      | nil => rfl
      | cons p l ih => rw [List.foldl_cons, ih]; rfl
    have hf' : ((initFS paper.serverRoot absRoot d 0).makeDirectories x.disk).files = x.disk.files := hf _
    have hno' : x.disk.files (initFS paper.serverRoot absRoot d 0).pathVibModel = none := by
      simpa [initFS_eq hx.root] using hno
    unfold openProject
    rw [h2 d (by rw [hi]; simp)]
    have hh : (initFS paper.serverRoot absRoot d 0).hashVib.isSome = false := rfl
    simp only [bind, Except.bind, construct, hx.isDir, Bool.true_or, Bool.true_eq_false, if_false, new,
      Bool.false_eq_true, FS.generateModelHashes, hashOfFile, hf', hno', hh, Bool.false_and]
  unfold automatePaper
  rw [h1, hi]
  simp only
  have hlast : sosTrotter paper x generateTrotterPaper d = ([], some .assertion) := by
    simp only [sosTrotter, hfail, wrapper, andAlso]
  rw [eachSet_stops _ before after d (fun d hd => (hone d hd).1) (by rw [hlast]), hlast]
  refine ⟨_, by rw [List.append_nil], ?_⟩
  rw [List.map_flatMap]
  exact List.flatMap_congr fun d hd => (hone d hd).2

/-- C132: on any other machine nothing is submitted. -/
theorem C132_elsewhere {p : Project} (hp : p = artificial ∨ p = paper) (x : Site V) (stderr : Nat → Str) {name : Str}
    {ids : List Nat} (hn : (name, ids) ∈ p.systems) (h1 : x.host ≠ c!"nlogn") (h2 : x.host ≠ c!"feynman") :
    (p = paper → automatePaper x name = ([], some .exception)) ∧
    automateArtificial x ⟨c!"2x2", true⟩ = ([], some .exception) ∧
    automateIterative p x stderr name = ([], some .exception) := by
  have hno : ∀ (q : Project) (d : Nat), q.assertId d = .ok () →
      openProject q x.hash x.host none x.absolute x.disk d = .error .exception := by
    intro q d hq
    simp [openProject, hq, Project.chooseRoot, h1, h2, bind, Except.bind]
  obtain ⟨h3, h4⟩ := systems_entry hp hn
  obtain ⟨d, rest, rfl⟩ : ∃ d rest, ids = d :: rest := by
    have hne : ∀ e ∈ p.systems, e.2 ≠ [] := by rcases hp with rfl | rfl <;> decide
    exact List.exists_cons_of_ne_nil (hne _ hn)
  refine ⟨?_, ?_, ?_⟩
  · rintro rfl
    unfold automatePaper
    rw [h3]
    simp only
    have hlast : sosTrotter paper x generateTrotterPaper d = ([], some .exception) := by
      simp only [sosTrotter, hno paper d (h4 d (by simp)), wrapper, andAlso]
    have := eachSet_stops (sosTrotter paper x generateTrotterPaper) [] rest d (by simp) (e := .exception) (by rw [hlast])
    rw [hlast] at this
    exact this
  · have e : automateArtificial x ⟨c!"2x2", true⟩ =
      eachSet (sosTrotter artificial x generateTrotterArtificial) ([] ++ 11 :: [12, 13, 14, 15]) := rfl
    have hlast : sosTrotter artificial x generateTrotterArtificial 11 = ([], some .exception) := by
      simp only [sosTrotter, hno artificial 11 rfl, wrapper, andAlso]
    rw [e, eachSet_stops _ [] _ 11 (by simp) (by rw [hlast]), hlast]
    rfl
  · unfold automateIterative
    rw [h3]
    simp only
    have hlast : iterativeOne p x stderr d = ([], some .exception) := by
      simp [iterativeOne, h4 d (by simp), Project.chooseRoot, h1, h2, bind, Except.bind]
    have := eachSet_stops (iterativeOne p x stderr) [] rest d (by simp) (e := .exception) (by rw [hlast])
    rw [hlast] at this
    exact this

/-- The Python program of the iterative method of a data set, with 50 iterations. -/
def iterativeProgram (absRoot : Str) (d : Nat) : Str :=
  c!"import pibronic;from pibronic.data import file_structure as fs;from pibronic import julia_wrapper as jw;from pibronic.constants import beta;n_iter = 50;FS = fs.FileStructure(\"" ++
    absRoot ++ c!"\", " ++ natStr d ++
    c!", 0);jw.prepare_julia();pibronic.julia_wrapper.iterate_method(FS, n_iterations=n_iter);"

/-- The command that runs the iterative method of a data set on the cluster. -/
def iterativeJob (absRoot : Str) (d : Nat) : Option (List Str) :=
  some [c!"srun", c!"--pty", c!"--job-name=iterative_D" ++ natStr d, c!"--mem=20GB", c!"python3", c!"-c",
    iterativeProgram absRoot d]

theorem words_iterative {root absRoot : Str} (hr : RootOk root absRoot) (hh : Harmless absRoot) (d : Nat) :
    words (iterativeCommand (initFS root absRoot d 0)) = iterativeJob absRoot d := by
  have hn : natStr 50 = c!"50" := by decide +kernel
  have h0 : natStr 0 = c!"0" := by decide +kernel
  have ep : jlImport ++ c!"n_iter = " ++ natStr 50 ++ c!";" ++ makeFS (initFS root absRoot d 0) ++
      c!"jw.prepare_julia();pibronic.julia_wrapper.iterate_method(FS, n_iterations=n_iter);" =
      iterativeProgram absRoot d := by
    have h1 : (initFS root absRoot d 0).pathRoot = absRoot := rfl
    have h2 : (initFS root absRoot d 0).idData = d := rfl
    have h3 : (initFS root absRoot d 0).idRho = 0 := rfl
    have a : c!"import pibronic;from pibronic.data import file_structure as fs;from pibronic import julia_wrapper as jw;from pibronic.constants import beta;n_iter = 50;FS = fs.FileStructure(\"" =
      jlImport ++ (c!"n_iter = " ++ (c!"50" ++ (c!";" ++ c!"FS = fs.FileStructure(\""))) := by decide +kernel
    have b : c!", 0);jw.prepare_julia();pibronic.julia_wrapper.iterate_method(FS, n_iterations=n_iter);" =
      c!", " ++ (c!"0" ++ (c!");" ++
        c!"jw.prepare_julia();pibronic.julia_wrapper.iterate_method(FS, n_iterations=n_iter);")) := by decide +kernel
    rw [iterativeProgram, a, b]
    simp only [makeFS, hn, h0, h1, h2, h3, List.append_assoc]
  have e : iterativeCommand (initFS root absRoot d 0) = c!"srun" ++ (' ' :: (c!"--pty" ++ (' ' ::
      ((c!"--job-name=iterative_D" ++ natStr d) ++ (' ' :: (c!"--mem=20GB" ++ (' ' :: (c!"python3" ++ (' ' ::
      (c!"-c" ++ (' ' :: '\'' :: (iterativeProgram absRoot d ++ '\'' :: [])))))))))))) := by
    have h2 : (initFS root absRoot d 0).idData = d := rfl
    rw [iterativeCommand, ep, h2]
    simp
  have hq : '\'' ∉ iterativeProgram absRoot d := by
    have a2 : '\'' ∉ natStr d := notMem_of_plain (plain_natStr _) (by decide)
    have a4 : '\'' ∉ absRoot := harmless_notMem hh (by decide)
    simp only [iterativeProgram, List.mem_append, not_or]
    exact ⟨⟨⟨⟨by decide, a4⟩, by decide⟩, a2⟩, by decide⟩
  have hp : ∀ c ∈ c!"--job-name=iterative_D" ++ natStr d, plain c = true := by
    intro c hc
    rcases List.mem_append.mp hc with hc | hc
    · exact (by decide : ∀ c ∈ c!"--job-name=iterative_D", plain c = true) c hc
    · exact plain_natStr _ c hc
  rw [e, words, lex_plain _ _ _ (by decide) (by decide), lex_blank, lex_plain _ _ _ (by decide) (by decide), lex_blank,
    lex_plain _ _ _ hp (by simp), lex_blank, lex_plain _ _ _ (by decide) (by decide), lex_blank,
    lex_plain _ _ _ (by decide) (by decide), lex_blank, lex_plain _ _ _ (by decide) (by decide), lex_blank]
  rw [lex, if_pos rfl, Option.getD_none, lex_quoted _ _ _ hq]
  simp [lex, iterativeJob]

/-- C132: the iterative method is run for one data set of the system after the other, until the first one whose
messages say that its memory ran out: that ends the program with an exception. -/
theorem C132_iterative {p : Project} (hp : p = artificial ∨ p = paper) {x : Site V} {absRoot : Str}
    (hx : OnServer p x absRoot) (stderr : Nat → Str) {name : Str} {ids : List Nat} (hn : (name, ids) ∈ p.systems) :
    ((∀ d ∈ ids, ¬ c!"Out Of Memory" <:+: stderr d) →
      ∃ cmds, automateIterative p x stderr name = (cmds, none) ∧ cmds.map words = ids.map (iterativeJob absRoot)) ∧
    ∀ before d after, ids = before ++ d :: after → (∀ d ∈ before, ¬ c!"Out Of Memory" <:+: stderr d) →
      c!"Out Of Memory" <:+: stderr d →
      ∃ cmds, automateIterative p x stderr name = (cmds, some .exception) ∧
        cmds.map words = (before ++ [d]).map (iterativeJob absRoot) := by
  obtain ⟨h1, h2⟩ := systems_entry hp hn
  have hone : ∀ d ∈ ids, iterativeOne p x stderr d =
      executeWaiting (iterativeCommand (initFS p.serverRoot absRoot d 0)) (stderr d) := by
    intro d hd
    simp [iterativeOne, h2 d hd, Project.chooseRoot, hx.host, bind, Except.bind, construct, hx.isDir, new, hx.absolute]
  have hgood : ∀ d ∈ ids, ¬ c!"Out Of Memory" <:+: stderr d → iterativeOne p x stderr d =
      ([iterativeCommand (initFS p.serverRoot absRoot d 0)], none) := by
    intro d hd hs
    rw [hone d hd, executeWaiting, find_none_of_not_infix _ _ hs]
    simp
  have hbad : ∀ d ∈ ids, c!"Out Of Memory" <:+: stderr d → iterativeOne p x stderr d =
      ([iterativeCommand (initFS p.serverRoot absRoot d 0)], some .exception) := by
    intro d hd hs
    have hne : stderr d ≠ [] := by
      rintro h
      rw [h] at hs
      exact absurd (List.infix_nil.mp hs) (by decide)
    rw [hone d hd, executeWaiting, if_pos]
    refine ⟨hne, ?_⟩
    cases hf : find c!"Out Of Memory" (stderr d) with
    | some r => rfl
    | none =>
      obtain ⟨a, b, hs⟩ := hs
      exact absurd hf (by rw [← hs]; exact find_ne_none _ _ _)
  unfold automateIterative
  rw [h1]
  simp only
  refine ⟨fun hs => ?_, fun before d after hi hb hd => ?_⟩
  · rw [eachSet_all _ _ fun d hd => by rw [hgood d hd (hs d hd)]]
    refine ⟨_, rfl, ?_⟩
    rw [List.map_flatMap, ← List.flatMap_singleton' (ids.map _), List.flatMap_map]
    refine List.flatMap_congr fun d hd => ?_
    rw [hgood d hd (hs d hd)]
    simp [words_iterative hx.root hx.harmless]
  · subst hi
    rw [eachSet_stops _ before after d (fun d hd => by rw [hgood d (by simp [hd]) (hb d hd)]) (by rw [hbad d (by simp) hd])]
    refine ⟨_, rfl, ?_⟩
    rw [hbad d (by simp) hd, List.map_append, List.map_append, List.map_flatMap, ← List.flatMap_singleton' (before.map _),
      List.flatMap_map]
    congr 1
    · refine List.flatMap_congr fun d hd => ?_
      rw [hgood d (by simp [hd]) (hb d hd)]
      simp [words_iterative hx.root hx.harmless]
    · simp [words_iterative hx.root hx.harmless]

/-- C132: a name that is not a system of the project is refused. -/
theorem C132_unknown_system (x : Site V) (stderr : Nat → Str) (p : Project) (name : Str)
    (h : ∀ ids, (name, ids) ∉ p.systems) :
    automateIterative p x stderr name = ([], some .assertion) ∧
    (p = paper → automatePaper x name = ([], some .assertion)) := by
  have hv : p.assertName name = .error .assertion := by
    have : p.nameValid name = false := by
      simp only [Project.nameValid, List.contains_eq_mem, decide_eq_false_iff_not, List.mem_map]
      rintro ⟨⟨n, ids⟩, hm, rfl⟩
      exact h ids hm
    simp [Project.assertName, this]
  refine ⟨?_, ?_⟩
  · unfold automateIterative
    rw [hv]
    rfl
  · rintro rfl
    unfold automatePaper
    rw [hv]
    rfl

/-! ### The hypotheses can be met -/

/-- A server: every model is there; the sum over states of the data set 12 is done, and every Trotter calculation with
50 beads. -/
def site0 (p : Project) : Site Nat where
  host := c!"nlogn"
  absolute := fun r => r.dropLast
  disk := ⟨[p.serverRoot], fun _ => some c!"m"⟩
  hash := fun _ => c!"x"
  sosFile := fun d _ => if d = 12 then file0 else .absent
  trotterFile := fun _ c => if c.beads = 50 then file0 else .absent

theorem file0_done : Readable file0 ∧ Done c!"x" 30000 file0 :=
  ⟨Or.inr ⟨_, rfl, by simp⟩, ⟨_, rfl, by simp, by simp only; split <;> simp⟩⟩

example (p : Project) (hp : p = artificial ∨ p = paper) : OnServer p (site0 p) p.serverRoot.dropLast ∧
    (∀ d, HasModels (site0 p) p.serverRoot.dropLast d c!"m") ∧ (∀ d, AllReadable (site0 p) d) ∧
    (∀ absRoot, sosJobs (site0 p) absRoot 12 c!"m" = []) ∧
    (∀ absRoot, sosJobs (site0 p) absRoot 11 c!"m" =
      [some (srun c!"sos_D11_T300.00" (sosProgram absRoot 11 80 30000))]) ∧
    ∀ d, missingBeads (site0 p) d c!"m" = [100, 150, 200, 300, 400] ++ [500] := by
  have h11 : natStr 11 = c!"11" := by decide +kernel
  refine ⟨?_, fun d => ⟨rfl, by simp [site0]⟩, fun d => ⟨?_, ?_⟩, fun a => ?_, fun a => ?_, fun d => ?_⟩
  · rcases hp with rfl | rfl <;>
      exact ⟨.inl rfl, rfl, by unfold RootOk; decide, by unfold Harmless; decide, by decide⟩
  · unfold site0
    by_cases h : d = 12
    · simpa [h] using file0_done.1
    · simp [h, Readable]
  · intro P _
    unfold site0
    by_cases h : P = 50
    · simpa [h] using file0_done.1
    · simp [h, Readable]
  · exact if_pos (by simpa [site0] using file0_done.2)
  · rw [sosJobs, if_neg (by simp [site0, not_done_absent]), h11]
    rfl
  · simp [missingBeads, site0, file0_done.2, not_done_absent]

/-- A server where everything has been calculated. -/
example : ∃ x : Site Nat, OnServer artificial x artificial.serverRoot.dropLast ∧
    HasModels x artificial.serverRoot.dropLast 11 c!"m" ∧ AllReadable x 11 ∧ missingBeads x 11 c!"m" = [] := by
  refine ⟨{ site0 artificial with trotterFile := fun _ _ => file0 }, ?_, ⟨rfl, by simp [site0]⟩, ⟨?_, ?_⟩, ?_⟩
  · exact ⟨.inl rfl, rfl, by unfold RootOk; decide, by unfold Harmless; decide, by decide⟩
  · simp [site0, Readable]
  · exact fun _ _ => file0_done.1
  · simp [missingBeads, site0, file0_done.2]

/-- A message of the cluster that says that the memory ran out, and one that does not. -/
example : c!"Out Of Memory" <:+: c!"slurmstepd: error: Out Of Memory" ∧
    ¬ c!"Out Of Memory" <:+: c!"srun: job 17 queued" := by decide

end Pibronic.Props.ExamplesSubmit
