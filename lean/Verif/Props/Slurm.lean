import Verif.Model.Slurm
import Verif.Props.JobBoss
import Verif.Lemmas.Molecule

set_option autoImplicit false

/-!
Properties C90 (stages of the electronic structure calculations), C91 (failures are noticed), C92
(cluster and partition), C93 (progress report).
-/
namespace Pibronic.Props.Slurm
open Pibronic.Py Pibronic.Buffer Pibronic.JobBoss Pibronic.Slurm Pibronic.Molecule
  Pibronic.Props.JobBoss

/-! ### C90: a stage submits its calculation and waits for it -/

/-- With the names that `job_boss` defines, no calculation is ever submitted: the stage ends with an
`AttributeError` whatever Slurm would answer. -/
theorem C90_nothing_submitted_refuted (writes : Bool) (r : Completed)
    (rest : Option Nat → Except Err Unit) :
    Effect.submitted ∉ (stage jobBossNames writes r rest).1 ∧
    (stage jobBossNames writes r rest).2 = .error .attribute := by
  have h : moduleAttr jobBossNames c!"partition" = .error .attribute := by decide +kernel
  cases writes <;> simp [stage, h, bind, Except.bind]

/-- what `sbatch` prints when it accepts a job -/
def accepted (id : Nat) : Str := c!"Submitted batch job " ++ natStr id ++ c!"\n"

theorem extract_accepted (id : Nat) : extractIdJob (accepted id) = .ok (some id) :=
  C49_job_id id c!"\n" (by simp)

/-- Were the missing names defined, an accepted submission would still end with an `AttributeError`:
the job is in the queue, its id is lost and nobody waits for it. -/
theorem C90_accepted_refuted (names : List Str) (h1 : c!"partition" ∈ names)
    (h2 : c!"hostname" ∈ names) (writes : Bool) (id : Nat) (err : Str)
    (rest : Option Nat → Except Err Unit) :
    let r : Completed := ⟨0, accepted id, err⟩
    Effect.submitted ∈ (stage names writes r rest).1 ∧
    (stage names writes r rest).2 = .error .attribute := by
  have hes : esSubmitJob ⟨0, accepted id, err⟩
      = .error .attribute := by
    simp [esSubmitJob, submitJob, extract_accepted, bind, Except.bind, Output.decode]
  simp [stage, moduleAttr, h1, h2, hes, bind, Except.bind]

/-- What does hold: a submission that Slurm refuses is reported, and nothing counts as submitted. -/
theorem C90_refusal_reported_partial (names : List Str) (h1 : c!"partition" ∈ names)
    (h2 : c!"hostname" ∈ names) (writes : Bool) (r : Completed) (hr : r.code ≠ 0)
    (rest : Option Nat → Except Err Unit) :
    Effect.submitted ∉ (stage names writes r rest).1 ∧
    (stage names writes r rest).2 = .error .exception := by
  cases writes <;>
    simp [stage, moduleAttr, h1, h2, esSubmitJob, submitJob, hr, bind, Except.bind]

/-- The input file is written before anything else, by the calculations that write one. -/
theorem C90_input_written (names : List Str) (writes : Bool) (r : Completed)
    (rest : Option Nat → Except Err Unit) :
    Effect.wroteInput ∈ (stage names writes r rest).1 ↔ writes = true := by
  unfold stage
  generalize (do moduleAttr names c!"partition"; moduleAttr names c!"hostname") = q
  rcases q with e | _
  · cases writes <;> simp
  · cases esSubmitJob r <;> cases writes <;> by_cases hr : r.code = 0 <;> simp [hr]

/-- The function of `job_boss` itself returns the id of an accepted job, with both outputs, and
raises when Slurm refuses. -/
theorem C90_submission (r : Completed) :
    (∀ id err, r = ⟨0, accepted id, err⟩ →
      submitJob r = .ok (some id, r.out, err)) ∧
    (r.code ≠ 0 → submitJob r = .error .exception) := by
  constructor
  · rintro id err rfl
    simp [submitJob, extract_accepted, bind, Except.bind]
  · intro h
    simp [submitJob, h]

example : (stage [c!"partition", c!"hostname"] true ⟨1, [], c!"no such partition"⟩ fun _ => .ok ()).2
    = .error .exception := by decide +kernel

/-! ### C91: failures are noticed -/

/-- Waiting for a calculation ends well only if the job left the queue as completed and its recorded
state says completed and not failed. -/
theorem C91_waiting_ends_well_partial (answers : List (Str × Str)) (woken : Bool) (state : Str) :
    waitOnResults (synchronize answers woken) state = some (.ok ()) ↔
      synchronize answers woken = .returned ∧ c!"COMPLETED" <:+: state ∧
        ¬ c!"FAILED" <:+: state := by
  unfold waitOnResults
  have hc := contains_iff c!"COMPLETED" state
  have hf := contains_iff c!"FAILED" state
  cases synchronize answers woken with
  | stillWaiting => simp
  | raised => simp
  | returned =>
    by_cases h1 : c!"FAILED" <:+: state
    · simp [hf.2 h1, h1]
    · have h1' : contains c!"FAILED" state = false := by
        simpa using fun h => h1 (hf.1 h)
      by_cases h2 : c!"COMPLETED" <:+: state
      · simp [h1', hc.2 h2, h1, h2]
      · have h2' : contains c!"COMPLETED" state = false := by
          simpa using fun h => h2 (hc.1 h)
        simp [h1', h2', h2]

/-- A recorded failure always ends the wait with an exception. -/
theorem C91_failed_raises (answers : List (Str × Str)) (woken : Bool) (state : Str)
    (h : synchronize answers woken = .returned) (hf : c!"FAILED" <:+: state) :
    waitOnResults (synchronize answers woken) state = some (.error .exception) := by
  simp [waitOnResults, h, (contains_iff c!"FAILED" state).2 hf]

/-- Whatever else ends the wait raises as well: a query that fails, and a state that does not say that
anything was completed. -/
theorem C91_raises (answers : List (Str × Str)) (woken : Bool) (state : Str) :
    waitOnResults (synchronize answers woken) state = some (.error .exception) ↔
      synchronize answers woken = .raised ∨
      (synchronize answers woken = .returned ∧
        (c!"FAILED" <:+: state ∨ ¬ c!"COMPLETED" <:+: state)) := by
  have hc := contains_iff c!"COMPLETED" state
  have hf := contains_iff c!"FAILED" state
  unfold waitOnResults
  rw [← hc, ← hf]
  cases synchronize answers woken <;> simp
  cases contains c!"FAILED" state <;> simp

example : waitOnResults (synchronize [([], []), (c!"COMPLETED", [])] true) c!"CANCELLED\n"
    = some (.error .exception) :=
  (C91_raises _ _ _).2 (.inr ⟨by decide +kernel, .inr (by decide +kernel)⟩)

/-- The recorded state has one line per step: a job that ran out of memory or time passes when any
of its steps was completed. -/
theorem C91_other_failures_refuted (answers : List (Str × Str)) (woken : Bool)
    (h : synchronize answers woken = .returned) :
    waitOnResults (synchronize answers woken) c!"OUT_OF_ME+\n COMPLETED\n" = some (.ok ()) ∧
    waitOnResults (synchronize answers woken) c!"TIMEOUT\n COMPLETED\n" = some (.ok ()) := by
  have h1 : contains c!"FAILED" c!"OUT_OF_ME+\n COMPLETED\n" = false := by decide +kernel
  have h2 : contains c!"COMPLETED" c!"OUT_OF_ME+\n COMPLETED\n" = true := by decide +kernel
  have h3 : contains c!"FAILED" c!"TIMEOUT\n COMPLETED\n" = false := by decide +kernel
  have h4 : contains c!"COMPLETED" c!"TIMEOUT\n COMPLETED\n" = true := by decide +kernel
  simp only [waitOnResults, h, h1, h2, h3, h4]
  simp

example : synchronize [(c!"JobState=RUNNING", []), (c!"JobState=COMPLETED", [])] true = .returned := by
  decide +kernel

theorem inFile_open (x : Str) (hx : '\n' ∉ x) (hne : x ≠ []) : ∀ s : Str,
    (inFile x (keepLines s)).1 = true → (inFile x (keepLines s)).2 = [] := by
  -- every line but the last ends with a newline
  have key : ∀ s : Str, ∀ l ls, keepLines s = l :: ls → ls ≠ [] → '\n' ∈ l := by
    intro s
    induction s with
    | nil => intro l ls h; cases h
    | cons c s ih =>
      intro l ls h hls
      rw [keepLines] at h
      split at h
      · next hc => cases h; simp [hc]
      · cases hk : keepLines s with
        | nil => rw [hk] at h; cases h; exact absurd rfl hls
        | cons l' ls' =>
          rw [hk] at h
          cases h
          exact List.mem_cons_of_mem _ (ih l' ls hk hls)
  have tail : ∀ s : Str, ∀ l ls, keepLines s = l :: ls → ∃ t, ls = keepLines t := by
    intro s
    induction s with
    | nil => intro l ls h; cases h
    | cons c s ih =>
      intro l ls h
      rw [keepLines] at h
      split at h
      · cases h; exact ⟨s, rfl⟩
      · cases hk : keepLines s with
        | nil => rw [hk] at h; cases h; exact ⟨[], rfl⟩
        | cons l' ls' => rw [hk] at h; cases h; exact ih l' ls hk
  have main : ∀ ls : List Str, (∃ s, ls = keepLines s) → (inFile x ls).1 = true →
      (inFile x ls).2 = [] := by
    intro ls
    induction ls with
    | nil => intro _ h; simp [inFile] at h
    | cons l ls ih =>
      rintro ⟨s, hs⟩ h
      rw [inFile] at h ⊢
      split
      · next hl =>
        by_cases hls : ls = []
        · simpa using hls
        · exact absurd (key s l ls hs.symm hls) (hl ▸ hx)
      · next hl =>
        rw [if_neg hl] at h
        exact ih (tail s l ls hs.symm) h
  exact fun s => main _ ⟨s, rfl⟩

/-- The check of the output file never objects: whatever Slurm wrote - a segmentation fault, a
killed job, not enough memory - the function returns. -/
theorem C91_output_file_refuted (text : Str) : checkSlurmOutput (some text) = .ok () := by
  unfold checkSlurmOutput slurmVerdict
  by_cases h : (inFile c!"Finished" (keepLines text)).1 = true
  · have := inFile_open c!"Finished" (by decide) (by decide) text h
    simp [h, this, inFile]
  · simp [h]

/-- The only thing that is noticed is that there is no output file. -/
theorem C91_missing_output_raises : checkSlurmOutput none = .error .os := rfl

example : checkSlurmOutput (some c!"Finished\nSIGSEGV\n") = .ok () ∧
    checkSlurmOutput (some c!"Killed\nExceeded step memory limit\nFinished") = .ok () :=
  ⟨C91_output_file_refuted _, C91_output_file_refuted _⟩

/-! ### C92: the cluster and the partition -/

theorem chomp_line {l : Str} (h : '\n' ∉ l) : chomp (l ++ ['\n']) = l := by
  simp only [chomp, ne_eq, decide_not, List.filter_append]
  rw [List.filter_eq_self.2 (by intro c hc; simp; exact fun e => h (e ▸ hc))]
  simp

/-- The name of the cluster is what stands behind the equals sign of the first line that mentions
it, without the white space around it. -/
theorem C92_cluster_name (before after : List Str) (key value : Str) (a v b : Str)
    (hb : ∀ l ∈ before, '\n' ∉ l ∧ ¬ c!"ClusterName" <:+: l) (ha : ∀ l ∈ after, '\n' ∉ l)
    (hk : c!"ClusterName" <:+: key) (hke : '=' ∉ key) (hkn : '\n' ∉ key)
    (hv : value = a ++ v ++ b) (hve : '=' ∉ value) (hvn : '\n' ∉ value)
    (hsa : ∀ c ∈ a, isWs c = true) (hsb : ∀ c ∈ b, isWs c = true) (ht : Trimmed v) :
    getHostname (terminated (before ++ (key ++ '=' :: value) :: after)) = .ok v := by
  have hlines : ∀ l ∈ before ++ (key ++ '=' :: value) :: after, '\n' ∉ l := by
    intro l hl
    rcases List.mem_append.1 hl with h | h
    · exact (hb l h).1
    · rcases List.mem_cons.1 h with rfl | h
      · simp [hkn, hvn]
      · exact ha l h
  have hmap : ((keepLines (terminated (before ++ (key ++ '=' :: value) :: after))).map chomp)
      = before ++ (key ++ '=' :: value) :: after := by
    rw [keepLines_terminated _ hlines, List.map_map]
    conv_rhs => rw [← List.map_id (before ++ (key ++ '=' :: value) :: after)]
    exact List.map_congr_left fun l hl => chomp_line (hlines l hl)
  rw [getHostname, hmap]
  clear hmap hlines
  induction before with
  | nil =>
    have hc : contains c!"ClusterName" (key ++ '=' :: value) = true := by
      rw [contains_iff]
      obtain ⟨p, q, rfl⟩ := hk
      exact ⟨p, q ++ '=' :: value, by simp⟩
    have hf := find_of_notMem '=' [] key value hke
    have hsp : item (split ['='] (key ++ '=' :: value)) 1 = .ok value := by
      have hf' : find ['='] (key ++ '=' :: value) = some (key, value) := by simpa using hf
      rw [split_second _ _ _ _ _ hf', split_head, find_none_of_notMem _ _ _ hve]
    rw [List.nil_append, clusterName, if_pos hc, hsp]
    simp only [bind, Except.bind]
    rw [hv, strip_spaced hsa hsb ht]
  | cons l before ih =>
    have hl : contains c!"ClusterName" l ≠ true := by
      rw [Ne, contains_iff]
      exact (hb l (by simp)).2
    rw [List.cons_append, clusterName, if_neg hl]
    exact ih fun x hx => hb x (by simp [hx])

/-- When no line mentions the cluster, an exception is raised. -/
theorem C92_no_cluster_raises (lines : List Str)
    (h : ∀ l ∈ lines, '\n' ∉ l ∧ ¬ c!"ClusterName" <:+: l) :
    getHostname (terminated lines) = .error .exception := by
  have hmap : (keepLines (terminated lines)).map chomp = lines := by
    rw [keepLines_terminated _ fun l hl => (h l hl).1, List.map_map]
    conv_rhs => rw [← List.map_id lines]
    exact List.map_congr_left fun l hl => chomp_line (h l hl).1
  rw [getHostname, hmap]
  clear hmap
  induction lines with
  | nil => rfl
  | cons l ls ih =>
    have hl : contains c!"ClusterName" l ≠ true := by
      rw [Ne, contains_iff]
      exact (h l (by simp)).2
    rw [clusterName, if_neg hl]
    exact ih fun x hx => h x (by simp [hx])

/-- Every partition that is listed is accepted, and a name that occurs nowhere in the listing is
rejected. -/
theorem C92_partition_partial (names : List Str) (n : Str) :
    (n ∈ names → assertPartitionExists (terminated names) (some n) = .ok ()) ∧
    (¬ n <:+: terminated names → assertPartitionExists (terminated names) (some n)
      = .error .assertion) ∧
    assertPartitionExists (terminated names) none = .error .assertion := by
  refine ⟨fun h => ?_, fun h => ?_, rfl⟩
  · have : n <:+: terminated names := by
      obtain ⟨p, q, rfl⟩ := List.append_of_mem h
      exact ⟨terminated p, '\n' :: terminated q, by simp [terminated]⟩
    simp [assertPartitionExists, (contains_iff n _).2 this]
  · have hc : contains n (terminated names) = false := by
      simpa using fun hc => h ((contains_iff n _).1 hc)
    simp [assertPartitionExists, hc]

/-- A partition that does not exist is accepted as soon as its name is part of the name of one that
does: any piece of a listed name passes. -/
theorem C92_partition_refuted (names : List Str) (p n q : Str) (h : p ++ n ++ q ∈ names) :
    assertPartitionExists (terminated names) (some n) = .ok () := by
  have : n <:+: terminated names := by
    obtain ⟨a, b, rfl⟩ := List.append_of_mem h
    exact ⟨terminated a ++ p, q ++ '\n' :: terminated b, by simp [terminated]⟩
  simp [assertPartitionExists, (contains_iff n _).2 this]

example : assertPartitionExists (terminated [c!"PARTITION", c!"highmem", c!"serial"])
    (some c!"high") = .ok () := C92_partition_refuted _ [] c!"high" c!"mem" (by decide)

/-- what Slurm prints for a cluster named `nlogn` -/
example : getHostname (terminated [c!"AuthType = auth/munge", c!"ClusterName             = nlogn",
    c!"CompleteWait = 0 sec"]) = .ok c!"nlogn" :=
  C92_cluster_name [c!"AuthType = auth/munge"] [c!"CompleteWait = 0 sec"]
    c!"ClusterName             " c!" nlogn" c!" " c!"nlogn" [] (by decide +kernel) (by decide)
    ⟨[], c!"             ", by decide⟩ (by decide) (by decide) (by decide) (by decide) (by decide)
    (by decide) (by decide) ⟨by decide, by simp [Space], by simp [Space]⟩

/-! ### C93: the progress report -/

/-- A state file whose last line is `s`. -/
def EndsWith (text s : Str) : Prop :=
  ∃ ls : List Str, (∀ l ∈ ls, '\n' ∉ l) ∧ s ≠ [] ∧ Trimmed s ∧ text = terminated (ls ++ [s])

theorem lastState_of (before : Option Str) {text s : Str} (h : EndsWith text s) :
    lastState before (keepLines text).reverse = some s := by
  obtain ⟨ls, hls, hne, ht, rfl⟩ := h
  have hall : ∀ l ∈ ls ++ [s], '\n' ∉ l := by
    intro l hl
    rcases List.mem_append.1 hl with hl | hl
    · exact hls l hl
    · rw [List.mem_singleton.1 hl]
      exact ht.1
  rw [keepLines_terminated _ hall, List.map_append, List.reverse_append]
  have hs : Workflow.strip (s ++ ['\n']) = s := by
    have := strip_spaced (a := []) (v := s) (b := ['\n']) (by simp) (by decide) ht
    simpa using this
  have hnot : ¬ (s ++ ['\n'] = [] ∨ s ++ ['\n'] = ['\n']) := by
    rintro (h | h)
    · simp at h
    · exact hne (by simpa using h)
  simp only [List.map_cons, List.map_nil, List.reverse_cons, List.reverse_nil, List.nil_append,
    List.cons_append, lastState]
  rw [if_neg hnot, hs]

/-- When every state file holds at least one state, the report has one line for each molecule, in
order: the last state in its own file, or that it has none. -/
theorem C93_own_state_partial (files : Nat → Option Str) (last : Nat → Str)
    (h : ∀ m ∈ molecules, ∀ text, files m.2 = some text → EndsWith text (last m.2)) :
    report files = (molecules.map fun m =>
      if (files m.2).isSome then .state m.1 m.2 (last m.2) else .noFile m.1 m.2, none) := by
  have key : ∀ (ms : List (Str × Nat)) (b : Option Str),
      (∀ m ∈ ms, ∀ text, files m.2 = some text → EndsWith text (last m.2)) →
      reportLoop files b ms = (ms.map fun m =>
        if (files m.2).isSome then .state m.1 m.2 (last m.2) else .noFile m.1 m.2, none) := by
    intro ms
    induction ms with
    | nil => intro b _; rfl
    | cons m ms ih =>
      intro b hm
      obtain ⟨name, id⟩ := m
      cases hf : files id with
      | none =>
        simp only [reportLoop, hf, ih b fun x hx => hm x (by simp [hx])]
        simp [hf]
      | some text =>
        have hl := lastState_of b (hm (name, id) (by simp) text hf)
        simp only [reportLoop, hf, hl, ih _ fun x hx => hm x (by simp [hx])]
        simp [hf]
  exact key molecules none h

/-- A calculation that has just started has an empty state file.  If it is the first molecule with
a state file the report stops with an `UnboundLocalError`, without a line for it or for any molecule
after it. -/
theorem C93_started_refuted (files : Nat → Option Str) (before after : List (Str × Nat))
    (name : Str) (id : Nat) (h : molecules = before ++ (name, id) :: after)
    (hb : ∀ m ∈ before, files m.2 = none) (hf : files id = some []) :
    report files = (before.map fun m => .noFile m.1 m.2, some .unbound) := by
  have key : ∀ ms : List (Str × Nat), (∀ m ∈ ms, files m.2 = none) →
      reportLoop files none (ms ++ (name, id) :: after)
        = (ms.map fun m => .noFile m.1 m.2, some .unbound) := by
    intro ms
    induction ms with
    | nil => intro _; simp [reportLoop, hf, keepLines, lastState]
    | cons m ms ih =>
      intro hm
      obtain ⟨n, i⟩ := m
      have h1 : files i = none := hm (n, i) (by simp)
      simp [reportLoop, h1, ih fun x hx => hm x (by simp [hx])]
  rw [report, h, key before hb]

/-- And if an earlier molecule has a state, that state is reported for the calculation that has just
started. -/
theorem C93_stale_state_refuted (files : Nat → Option Str) (s : Str) (text : Str)
    (h : files 200 = some text) (hs : EndsWith text s) (hf : files 201 = some []) :
    Report.state c!"ammonia" 201 s ∈ (report files).1 := by
  have h1 := lastState_of none hs
  have : ∃ rest, molecules = (c!"acetonitrile", 200) :: (c!"ammonia", 201) :: rest :=
    ⟨molecules.drop 2, by decide⟩
  obtain ⟨rest, hr⟩ := this
  simp [report, hr, reportLoop, h, h1, hf, keepLines, lastState]

example : EndsWith c!"OPT\nNIP\n" c!"NIP" :=
  ⟨[c!"OPT"], by decide, by decide, ⟨by decide, by simp [Space], by simp [Space]⟩, rfl⟩

/-- C93: before any calculation was started the report has exactly these lines. -/
theorem C93_nothing_started : report (fun _ => none) =
    ([(c!"acetonitrile", 200), (c!"ammonia", 201), (c!"boron_trifluoride", 202),
      (c!"formaldehyde", 203), (c!"methane", 204), (c!"formamide", 205), (c!"formic_acid", 206),
      (c!"hydrogen_peroxide", 207), (c!"water", 208), (c!"pyridine", 209), (c!"furan", 210),
      (c!"trichloroethylene", 211), (c!"chloroethylene", 212), (c!"acrolein", 213),
      (c!"acrylonitrile", 214), (c!"cis_12_dichloroethylene", 215),
      (c!"trans_12_dichloroethylene", 216), (c!"11_dichloroethylene", 217)].map
        fun e => .noFile e.1 e.2, none) := by
  unfold report
  generalize hm : molecules = l
  have h : ∀ (ms : List (Str × Nat)) (last : Option Str), reportLoop (fun _ => none) last ms =
      (ms.map fun e => .noFile e.1 e.2, none) := by
    intro ms
    induction ms with
    | nil => intro last; rfl
    | cons e ms ih => intro last; simp [reportLoop, ih]
  rw [h, ← hm]
  rfl

end Pibronic.Props.Slurm
