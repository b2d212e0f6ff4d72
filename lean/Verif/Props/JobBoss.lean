import Verif.Model.JobBoss
import Verif.Lemmas.Str

set_option autoImplicit false

/-!
Theorems about `pibronic/server/job_boss.py`: C45 (jobs cover the samples), C46 (one batch per bead
number and temperature), C47 (independence of submission objects), C48 (waiting), C49 (job id),
C63 (signals).
-/
namespace Pibronic.Props.JobBoss
open Pibronic.Py Pibronic.JobBoss

/-! ### C45 -/

/-- A dictionary that asks for `n` samples in blocks of `b`, `overall` samples in total. -/
structure Asks (d : Dict) (n b overall : Nat) : Prop where
  n : d c!"number_of_samples" = some (.int n)
  b : d c!"block_size" = some (.int b)
  overall : d c!"number_of_samples_overall" = some (.int overall)

/-- What was set up: every one of `jobs` jobs computes `blocks` blocks of `b` samples and its
arrays have room for `perJob`. -/
structure SetUp (d : Dict) (perJob blocks : Nat) : Prop where
  samples : d c!"number_of_samples" = some (.int perJob)
  samplesPerJob : d c!"number_of_samples_per_job" = some (.int perJob)
  numBlocks : d c!"number_of_blocks" = some (.int blocks)

/-- The keys the set-up may change. -/
def setupKeys : List Str := [c!"number_of_samples", c!"number_of_samples_per_job",
  c!"number_of_blocks", c!"number_of_samples_overall"]

theorem setup_of_ok {d d' : Dict} {n : Nat} (h : setupBlocksAndJobs d = .ok (d', n)) :
    setup d = (d', .ok n) := by
  unfold setupBlocksAndJobs at h
  split at h
  · next e => simp only [Except.ok.injEq, Prod.mk.injEq] at h; rw [e, h.1, h.2]
  · cases h

/-- The set-up succeeds for every block size between 1 and the two limits. -/
theorem setup_ok (d : Dict) (n b overall : Nat) (h : Asks d n b overall) (hb : 0 < b) (hbn : b ≤ n)
    (hbm : b ≤ 100000) :
    ∃ d', setupBlocksAndJobs d =
        .ok (d', max 1 ((if overall = 0 then n else overall) / 100000)) ∧
      SetUp d' (min n 100000) (min n 100000 / b) ∧
      d' c!"number_of_samples_overall" = some (.int (if overall = 0 then n else overall)) ∧
      ∀ k, k ∉ setupKeys → d' k = d k := by
  have hb0 : b ≠ 0 := by omega
  by_cases ho : overall = 0
  · subst ho
    refine ⟨((((d.set c!"number_of_samples_per_job" (.int (min n 100000))).set c!"number_of_samples"
      (.int (min n 100000))).set c!"number_of_blocks" (.int (min n 100000 / b))).set
      c!"number_of_samples_overall" (.int n)), ?_, ?_, ?_, ?_⟩
    · simp [setupBlocksAndJobs, setup, Dict.get, Dict.set, h.n, h.b, h.overall, hbn,
        hb0, maxSamplesPerJob, not_lt.2 hbm]
    · constructor <;> simp [Dict.set]
    · simp [Dict.set]
    · intro k hk
      simp only [setupKeys, List.mem_cons, List.not_mem_nil, or_false, not_or] at hk
      simp [Dict.set, hk.1, hk.2.1, hk.2.2.1, hk.2.2.2]
  · refine ⟨((d.set c!"number_of_samples_per_job" (.int (min n 100000))).set c!"number_of_samples"
      (.int (min n 100000))).set c!"number_of_blocks" (.int (min n 100000 / b)), ?_, ?_, ?_, ?_⟩
    · simp [setupBlocksAndJobs, setup, Dict.get, Dict.set, h.n, h.b, h.overall, hbn,
        hb0, maxSamplesPerJob, not_lt.2 hbm, ho]
    · constructor <;> simp [Dict.set]
    · simp [Dict.set, h.overall, ho]
    · intro k hk
      simp only [setupKeys, List.mem_cons, List.not_mem_nil, or_false, not_or] at hk
      simp [Dict.set, hk.1, hk.2.1, hk.2.2.1]

/-- C45 (what always holds): at least one job, no job computes more than 100000 samples, every job
has at least one block, and its blocks stay inside its arrays. -/
theorem C45_limits_partial (d : Dict) (n b overall : Nat) (h : Asks d n b overall) (hb : 0 < b)
    (hbn : b ≤ n) (hbm : b ≤ 100000) :
    ∃ d' jobs perJob blocks, setupBlocksAndJobs d = .ok (d', jobs) ∧ SetUp d' perJob blocks ∧
      1 ≤ jobs ∧ perJob ≤ 100000 ∧ 1 ≤ blocks ∧ blocks * b ≤ perJob ∧
      perJob < (blocks + 1) * b := by
  obtain ⟨d', e, s, _, _⟩ := setup_ok d n b overall h hb hbn hbm
  refine ⟨d', _, _, _, e, s, by omega, by omega, ?_, Nat.div_mul_le_self _ _, ?_⟩
  · exact (Nat.le_div_iff_mul_le hb).2 (by omega)
  · exact (Nat.div_lt_iff_lt_mul hb).1 (by omega)

/-- C45 (positive case): if the block size divides the samples of a job and the total is either at
most 100000 or a multiple of 100000, the jobs compute exactly the requested number. -/
theorem C45_exact_partial (d : Dict) (n b : Nat) (h : Asks d n b 0) (hb : 0 < b)
    (hbn : b ≤ n) (hbm : b ≤ 100000) (hdiv : b ∣ min n 100000) (hn : n ≤ 100000 ∨ 100000 ∣ n) :
    ∃ d' jobs perJob blocks, setupBlocksAndJobs d = .ok (d', jobs) ∧ SetUp d' perJob blocks ∧
      blocks * b = perJob ∧ jobs * (blocks * b) = n := by
  obtain ⟨d', e, s, _, _⟩ := setup_ok d n b 0 h hb hbn hbm
  have h1 : min n 100000 / b * b = min n 100000 := Nat.div_mul_cancel hdiv
  refine ⟨d', _, _, _, e, s, h1, ?_⟩
  rw [h1]
  simp only [if_true]
  rcases hn with hn | ⟨k, rfl⟩
  · have : n / 100000 = 0 ∨ n = 100000 := by omega
    rcases this with h0 | rfl
    · rw [h0, Nat.max_eq_left (Nat.zero_le 1), Nat.one_mul]; omega
    · simp
  · have hk : 0 < k := by omega
    rw [Nat.mul_div_cancel_left _ (by decide)]
    have : min (100000 * k) 100000 = 100000 := by omega
    rw [this, Nat.max_eq_right hk, Nat.mul_comm]

/-- C45 is false: a number of samples above 100000 that is not a multiple of 100000 is not covered:
the jobs together compute fewer samples than requested, whatever the block size. -/
theorem C45_total_refuted (d : Dict) (n b : Nat) (h : Asks d n b 0) (hb : 0 < b)
    (hbm : b ≤ 100000) (hn : 100000 < n) (hnd : ¬ 100000 ∣ n) :
    ∃ d' jobs perJob blocks, setupBlocksAndJobs d = .ok (d', jobs) ∧ SetUp d' perJob blocks ∧
      jobs * (blocks * b) < n := by
  obtain ⟨d', e, s, _, _⟩ := setup_ok d n b 0 h hb (by omega) hbm
  refine ⟨d', _, _, _, e, s, ?_⟩
  simp only [if_true]
  have h1 : min n 100000 = 100000 := by omega
  rw [h1]
  have h2 : 1 ≤ n / 100000 := by omega
  rw [Nat.max_eq_right h2]
  have h3 := Nat.mul_le_mul_left (n / 100000) (Nat.div_mul_le_self 100000 b)
  have h4 : n / 100000 * 100000 ≠ n := fun h => hnd ⟨n / 100000, by omega⟩
  omega

/-- ... and so is a block size that does not divide the samples of a job. -/
theorem C45_remainder_refuted (d : Dict) (n b : Nat) (h : Asks d n b 0) (hb : 0 < b)
    (hbn : b ≤ n) (hn : n ≤ 100000) (hdiv : ¬ b ∣ n) :
    ∃ d' jobs perJob blocks, setupBlocksAndJobs d = .ok (d', jobs) ∧ SetUp d' perJob blocks ∧
      jobs * (blocks * b) < n := by
  obtain ⟨d', e, s, _, _⟩ := setup_ok d n b 0 h hb hbn (by omega)
  refine ⟨d', _, _, _, e, s, ?_⟩
  simp only [if_true]
  have h1 : min n 100000 = n := by omega
  have h2 : max 1 (n / 100000) = 1 := by omega
  rw [h1, h2, Nat.one_mul]
  have h3 := Nat.div_mul_le_self n b
  have h4 : n / b * b ≠ n := fun h => hdiv ⟨n / b, by rw [Nat.mul_comm]; exact h.symm⟩
  omega

/-- C45: a separate overall number is not covered either when it exceeds the samples per job but
not 100000: one job is submitted. -/
theorem C45_overall_refuted (d : Dict) (n b overall : Nat) (h : Asks d n b overall) (hb : 0 < b)
    (hbn : b ≤ n) (hno : n < overall) (ho : overall < 200000) (hn : n ≤ 100000) :
    ∃ d' perJob blocks, setupBlocksAndJobs d = .ok (d', 1) ∧ SetUp d' perJob blocks ∧
      1 * (blocks * b) < overall := by
  obtain ⟨d', e, s, _, _⟩ := setup_ok d n b overall h hb hbn (by omega)
  have ho' : overall ≠ 0 := by omega
  have h1 : max 1 (overall / 100000) = 1 := by omega
  rw [if_neg ho', h1] at e
  refine ⟨d', _, _, e, s, ?_⟩
  have h2 : min n 100000 = n := by omega
  rw [h2]
  have := Nat.div_mul_le_self n b
  omega

/-- C45: too large blocks are refused before anything is submitted. -/
theorem C45_large_block_refused (d : Dict) (n b overall : Nat) (h : Asks d n b overall)
    (hb : n < b ∨ 100000 < b) : setupBlocksAndJobs d = .error .assertion := by
  rcases Nat.lt_or_ge n b with h1 | h1
  · simp [setupBlocksAndJobs, setup, Dict.get, h.n, h.b, not_le.2 h1]
  · have h2 : 100000 < b := by omega
    simp [setupBlocksAndJobs, setup, Dict.get, h.n, h.b, h1, maxSamplesPerJob, h2]

/-- 250000 samples in blocks of 1000: 200000 are computed. -/
example : ∃ d : Dict, Asks d 250000 1000 0 :=
  ⟨((Dict.set (fun _ => none) c!"number_of_samples" (.int 250000)).set c!"block_size"
    (.int 1000)).set c!"number_of_samples_overall" (.int 0), ⟨by simp [Dict.set],
    by simp [Dict.set], by simp [Dict.set]⟩⟩

/-! ### C46 -/

/-- A submission object as the scripts configure it. -/
structure Ready (d : Dict) (n b overall idData idRho : Nat) (ts ps : List Nat) : Prop where
  asks : Asks d n b overall
  ts : d c!"temperature_list" = some (.floats ts)
  ps : d c!"bead_list" = some (.ints ps)
  idData : d c!"id_data" = some (.int idData)
  idRho : d c!"id_rho" = some (.int idRho)
  /-- no partition was chosen -/
  part : d c!"partition" = some .none
  hb : 0 < b
  hbn : b ≤ n
  hbm : b ≤ 100000

/-- The name of a job. -/
def nameOf (idData idRho P T : Nat) : Str :=
  c!"D" ++ natStr idData ++ c!"_R" ++ natStr idRho ++ c!"_P" ++ natStr P ++ c!"_T" ++ tempStr T

/-- The keys that differ from job to job. -/
def jobKeys : List Str := [c!"number_of_beads", c!"number_of_links", c!"temperature",
  c!"hostname", c!"partition", c!"job_name"]

/-- `job` is a job for `P` beads at temperature `T`, otherwise with the parameters `d`. -/
structure IsJob (d : Dict) (idData idRho T P : Nat) (job : Job) : Prop where
  name : job.name = nameOf idData idRho P T
  beads : job.params c!"number_of_beads" = some (.int P)
  links : job.params c!"number_of_links" = some (.int P)
  temperature : job.params c!"temperature" = some (.float T)
  rest : ∀ k, k ∉ jobKeys → job.params k = d k

/-- The hosts for which a preparing function exists. -/
def KnownHost (host : Str) : Prop :=
  host = c!"feynman" ∨ host = c!"nlogn" ∨ host = c!"graham" ∨ host = c!"orca"

/-- The machine on which the jobs that are submitted from `host` run. -/
def machine (host : Str) : Str := if host = c!"feynman" then c!"nlogn" else host

/-- The partition that is chosen when none was asked for. -/
def chosenPartition (host : Str) : PVal :=
  if host = c!"feynman" then .str c!"highmem" else if host = c!"nlogn" then .str c!"serial" else .none

theorem prepareJob_ok (host : Str) (hh : KnownHost host) (partitions : Str → Bool)
    (hp : ∀ s, partitions s = true) (d : Dict) (idData idRho T P : Nat)
    (h1 : d c!"id_data" = some (.int idData)) (h2 : d c!"id_rho" = some (.int idRho))
    (h3 : d c!"partition" = some .none) :
    ∃ job, prepareJob host partitions d (.float T) (.int P) = .ok job ∧
      IsJob d idData idRho T P job := by
  rcases hh with rfl | rfl | rfl | rfl <;>
  · simp [prepareJob, bind, Except.bind, Dict.get, Dict.set, h1, h2, h3, hp, nodeHost, jobName,
      fieldInt, fieldFloat]
    refine ⟨?_, ?_, ?_, ?_, ?_⟩
    · simp [nameOf]
    · simp [Dict.set]
    · simp [Dict.set]
    · simp [Dict.set]
    · intro k hk
      simp only [jobKeys, List.mem_cons, List.not_mem_nil, or_false, not_or] at hk
      obtain ⟨a1, a2, a3, a4, a5, a6⟩ := hk
      simp [Dict.set, a1, a2, a3, a4, a5, a6]

theorem submitMany_ok (reply : Replies) (hr : ∀ k, ∃ out id, reply k = some out ∧
    extractIdJob out = .ok id) (job : Job) (n : Nat) : ∀ log,
    submitMany reply job n log = (log ++ List.replicate n job, none) := by
  induction n with
  | zero => intro log; simp [submitMany]
  | succ n ih =>
    intro log
    obtain ⟨out, id, h1, h2⟩ := hr log.length
    simp [submitMany, h1, h2, ih, List.replicate_succ]

theorem submitPairs_ok (host : Str) (partitions : Str → Bool) (reply : Replies) (d : Dict)
    (n : Nat) (hr : ∀ k, ∃ out id, reply k = some out ∧ extractIdJob out = .ok id)
    (jobOf : PVal × PVal → Job) (pairs : List (PVal × PVal))
    (hj : ∀ p ∈ pairs, prepareJob host partitions d p.1 p.2 = .ok (jobOf p)) : ∀ log,
    submitPairs host partitions reply d n pairs log =
      (log ++ pairs.flatMap fun p => List.replicate n (jobOf p), none) := by
  induction pairs with
  | nil => intro log; simp [submitPairs]
  | cons p rest ih =>
    intro log
    obtain ⟨T, P⟩ := p
    simp [submitPairs, hj (T, P) List.mem_cons_self, submitMany_ok reply hr,
      ih fun q hq => hj q (List.mem_cons_of_mem _ hq)]

/-- C46: a job is addressed to the machine the host belongs to, with the partition of the host when none was asked for,
and its name has the same two decimals whether the temperature is a float or a whole number. -/
theorem C46_addressed (host : Str) (hh : KnownHost host) (partitions : Str → Bool)
    (hp : ∀ s, partitions s = true) (d : Dict) (idData idRho T P : Nat)
    (h1 : d c!"id_data" = some (.int idData)) (h2 : d c!"id_rho" = some (.int idRho))
    (h3 : d c!"partition" = some .none) (temperature : PVal)
    (hT : temperature = .float (100 * T) ∨ temperature = .int T) :
    ∃ job, prepareJob host partitions d temperature (.int P) = .ok job ∧
      job.params c!"hostname" = some (.str (machine host)) ∧
      job.params c!"partition" = some (chosenPartition host) ∧
      job.params c!"temperature" = some temperature ∧
      job.params c!"job_name" = some (.str job.name) ∧ job.name = nameOf idData idRho P (100 * T) := by
  rcases hh with rfl | rfl | rfl | rfl <;> rcases hT with rfl | rfl <;>
  simp [prepareJob, bind, Except.bind, Dict.get, Dict.set, h1, h2, h3, hp, nodeHost, jobName,
      fieldInt, fieldFloat, machine, chosenPartition, nameOf]

/-- C46: a partition that was asked for is used on feynman and nlogn if Slurm has it, and refused with an
`AssertionError` if not; the jobs for graham and orca have no partition, whatever was asked for. -/
theorem C46_requested_partition (host : Str) (partitions : Str → Bool) (d : Dict)
    (idData idRho T P : Nat) (s : Str)
    (h1 : d c!"id_data" = some (.int idData)) (h2 : d c!"id_rho" = some (.int idRho))
    (h3 : d c!"partition" = some (.str s)) :
    (host = c!"feynman" ∨ host = c!"nlogn" →
      (partitions s = false → prepareJob host partitions d (.float T) (.int P) = .error .assertion) ∧
      (partitions s = true → ∃ job, prepareJob host partitions d (.float T) (.int P) = .ok job ∧
        job.params c!"partition" = some (.str s))) ∧
    (host = c!"graham" ∨ host = c!"orca" →
      ∃ job, prepareJob host partitions d (.float T) (.int P) = .ok job ∧
        job.params c!"partition" = some .none) := by
  refine ⟨?_, ?_⟩
  · rintro (rfl | rfl) <;> refine ⟨fun hs => ?_, fun hs => ?_⟩ <;>
      simp [prepareJob, bind, Except.bind, Dict.get, Dict.set, h1, h2, h3, hs, nodeHost, jobName,
        fieldInt, fieldFloat]
  · rintro (rfl | rfl) <;>
      simp [prepareJob, bind, Except.bind, Dict.get, Dict.set, h1, h2, h3, nodeHost, jobName,
        fieldInt, fieldFloat]

/-- C46: no job is made for a host that is not known. -/
theorem C46_unknown_host (host : Str) (hh : ¬ KnownHost host) (partitions : Str → Bool) (d : Dict) (T P : PVal) :
    prepareJob host partitions d T P = .error (match d c!"partition" with
      | none => .key
      | some .none => .exception
      | some (.str s) => if partitions s = true then .exception else .assertion
      | some _ => .type) := by
  simp only [KnownHost, not_or] at hh
  cases h : d c!"partition" with
  | none => simp [prepareJob, bind, Except.bind, Dict.get, Dict.set, h]
  | some v =>
    cases v with
    | str s =>
      cases hs : partitions s <;>
        simp [prepareJob, bind, Except.bind, Dict.get, Dict.set, h, nodeHost, hh, hs]
    | none => simp [prepareJob, bind, Except.bind, Dict.get, Dict.set, h, nodeHost, hh, pure, Except.pure]
    | _ => simp [prepareJob, bind, Except.bind, Dict.get, Dict.set, h, hh]

/-- C46: no job is made when a number in its name is missing or not a number: texts (and floats where a
whole number is needed) are a `ValueError`, everything else is a `TypeError`. -/
theorem C46_bad_number (host : Str) (hh : KnownHost host) (partitions : Str → Bool)
    (hp : ∀ s, partitions s = true) (d : Dict) (idData idRho : Nat) (v T : PVal) (P : Nat)
    (h3 : d c!"partition" = some .none) (hv : ∀ n, v ≠ .int n) :
    let kind : PVal → Err := fun v => match v with
      | .str _ => .value
      | .float _ => .value
      | _ => .type
    (d c!"id_data" = none → prepareJob host partitions d T (.int P) = .error .key) ∧
    (d c!"id_data" = some v → prepareJob host partitions d T (.int P) = .error (kind v)) ∧
    (d c!"id_data" = some (.int idData) → d c!"id_rho" = none →
      prepareJob host partitions d T (.int P) = .error .key) ∧
    (d c!"id_data" = some (.int idData) → d c!"id_rho" = some v →
      prepareJob host partitions d T (.int P) = .error (kind v)) ∧
    (d c!"id_data" = some (.int idData) → d c!"id_rho" = some (.int idRho) →
      prepareJob host partitions d T v = .error (kind v) ∧
      ((∀ t, v ≠ .float t) → prepareJob host partitions d v (.int P) = .error (kind v))) := by
  intro kind
  have hk : fieldInt v = .error (kind v) := by
    cases v <;> first | exact absurd rfl (hv _) | rfl
  have hkf : (∀ t, v ≠ .float t) → fieldFloat v = .error (kind v) := by
    intro hf
    cases v <;> first | exact absurd rfl (hv _) | exact absurd rfl (hf _) | rfl
  refine ⟨fun h1 => ?_, fun h1 => ?_, fun h1 h2 => ?_, fun h1 h2 => ?_, fun h1 h2 => ⟨?_, fun hf => ?_⟩⟩
  all_goals
    rcases hh with rfl | rfl | rfl | rfl <;>
    simp [prepareJob, bind, Except.bind, Dict.get, Dict.set, h1, h3, hp, nodeHost, jobName, hk,
      pure, Except.pure, *] <;> simp [fieldInt, *]

example : prepareJob c!"feynman" (fun _ => true) (fun k => if k = c!"id_data" then some (.str c!"7")
    else if k = c!"partition" then some .none else none) (.float 30000) (.int 12) = .error .value :=
  (C46_bad_number c!"feynman" (.inl rfl) _ (fun _ => rfl) _ 0 0 (.str c!"7") _ _ (by decide)
    (by simp)).2.1 (by decide)

/-- C46: when Slurm accepts every submission, exactly `n_jobs` jobs are submitted for each pair of a
temperature and a bead number, in the order of the lists, each with the parameters of its pair and
otherwise those of the object; the object keeps the parameters of the set-up. -/
theorem C46_one_batch_per_pair (d : Dict) (n b overall idData idRho : Nat) (ts ps : List Nat)
    (h : Ready d n b overall idData idRho ts ps) (host : Str) (hh : KnownHost host)
    (partitions : Str → Bool) (hp : ∀ s, partitions s = true) (reply : Replies)
    (hr : ∀ k, ∃ out id, reply k = some out ∧ extractIdJob out = .ok id) :
    ∃ d' jobs, setupBlocksAndJobs d = .ok (d', jobs) ∧ ∃ jobOf : Nat → Nat → Job,
      (∀ T P, IsJob d' idData idRho T P (jobOf T P)) ∧
      submitJobs host partitions reply d =
        (d', ts.flatMap fun T => ps.flatMap fun P => List.replicate jobs (jobOf T P), none) := by
  obtain ⟨d', e, _, _, hk⟩ := setup_ok d n b overall h.asks h.hb h.hbn h.hbm
  refine ⟨d', _, e, ?_⟩
  have g : ∀ k v, k ∉ setupKeys → d k = some v → d' k = some v :=
    fun k v h1 h2 => by rw [hk k h1, h2]
  have h1 := g _ _ (by decide) h.idData
  have h2 := g _ _ (by decide) h.idRho
  have h3 := g _ _ (by decide) h.part
  have h4 := g _ _ (by decide) h.ts
  have h5 := g _ _ (by decide) h.ps
  choose jobOf hjob using fun T P => prepareJob_ok host hh partitions hp d' idData idRho T P h1 h2 h3
  refine ⟨jobOf, fun T P => (hjob T P).2, ?_⟩
  set pairs := ts.flatMap fun T => ps.map fun P => (PVal.float T, PVal.int P) with hpairs
  let jp : PVal × PVal → Job := fun p => match p with
    | (.float T, .int P) => jobOf T P
    | _ => jobOf 0 0
  have hj : ∀ p ∈ pairs, prepareJob host partitions d' p.1 p.2 = .ok (jp p) := by
    intro p hp
    simp only [hpairs, List.mem_flatMap, List.mem_map] at hp
    obtain ⟨T, _, P, _, rfl⟩ := hp
    exact (hjob T P).1
  have := submitPairs_ok host partitions reply d'
    (max 1 ((if overall = 0 then n else overall) / 100000)) hr jp pairs hj []
  simp only [submitJobs, setup_of_ok e, Dict.get, h4, h5, ← hpairs, this, List.nil_append]
  rw [hpairs, List.flatMap_assoc]
  simp only [List.flatMap_map, jp]

/-- The number of submissions. -/
theorem C46_number_of_jobs (d : Dict) (n b overall idData idRho : Nat) (ts ps : List Nat)
    (h : Ready d n b overall idData idRho ts ps) (host : Str) (hh : KnownHost host)
    (partitions : Str → Bool) (hp : ∀ s, partitions s = true) (reply : Replies)
    (hr : ∀ k, ∃ out id, reply k = some out ∧ extractIdJob out = .ok id) :
    ∃ d' jobs, setupBlocksAndJobs d = .ok (d', jobs) ∧
      (submitJobs host partitions reply d).2.1.length = ts.length * (ps.length * jobs) := by
  obtain ⟨d', jobs, e, jobOf, _, h'⟩ :=
    C46_one_batch_per_pair d n b overall idData idRho ts ps h host hh partitions hp reply hr
  refine ⟨d', jobs, e, ?_⟩
  rw [h']
  simp [List.length_flatMap]

theorem submitMany_prefix (reply : Replies) (job : Job) (n : Nat) : ∀ log, ∃ k, k ≤ n ∧
    (submitMany reply job n log).1 = log ++ List.replicate k job ∧
      ((submitMany reply job n log).2 = none → k = n) := by
  induction n with
  | zero => intro log; exact ⟨0, le_rfl, by simp [submitMany], fun _ => rfl⟩
  | succ n ih =>
    intro log
    cases h1 : reply log.length with
    | none => exact ⟨0, by omega, by simp [submitMany, h1], by simp [submitMany, h1]⟩
    | some out =>
      cases h2 : extractIdJob out with
      | error e => exact ⟨1, by omega, by simp [submitMany, h1, h2], by simp [submitMany, h1, h2]⟩
      | ok id =>
        obtain ⟨k, hk, h3, h4⟩ := ih (log ++ [job])
        refine ⟨k + 1, by omega, ?_, ?_⟩
        · simp [submitMany, h1, h2, h3, List.replicate_succ]
        · intro h5
          simp only [submitMany, h1, h2] at h5
          rw [h4 h5]

theorem submitPairs_prefix (host : Str) (partitions : Str → Bool) (reply : Replies) (d : Dict)
    (n : Nat) (jobOf : PVal × PVal → Job) (pairs : List (PVal × PVal))
    (hj : ∀ p ∈ pairs, prepareJob host partitions d p.1 p.2 = .ok (jobOf p)) : ∀ log,
    ∃ t, (submitPairs host partitions reply d n pairs log).1 = log ++ t ∧
      t <+: pairs.flatMap fun p => List.replicate n (jobOf p) := by
  induction pairs with
  | nil => intro log; exact ⟨[], by simp [submitPairs], by simp⟩
  | cons p rest ih =>
    intro log
    obtain ⟨T, P⟩ := p
    have h0 := hj (T, P) List.mem_cons_self
    obtain ⟨k, hk, h1, h2⟩ := submitMany_prefix reply (jobOf (T, P)) n log
    simp only [submitPairs, h0]
    cases hm : submitMany reply (jobOf (T, P)) n log with
    | mk log' r =>
      rw [hm] at h1 h2
      simp only at h1 h2
      cases r with
      | some e =>
        refine ⟨List.replicate k (jobOf (T, P)), h1, ?_⟩
        rw [List.flatMap_cons]
        refine List.IsPrefix.trans ?_ (List.prefix_append _ _)
        exact ⟨List.replicate (n - k) (jobOf (T, P)), by
          rw [List.replicate_append_replicate]; congr 1; omega⟩
      | none =>
        obtain ⟨t, h3, h4⟩ := ih (fun q hq => hj q (List.mem_cons_of_mem _ hq)) log'
        refine ⟨List.replicate n (jobOf (T, P)) ++ t, ?_, ?_⟩
        · rw [h3, h1, h2 rfl, List.append_assoc]
        · rw [List.flatMap_cons]; exact (List.prefix_append_right_inj _).2 h4

/-- C46: whatever Slurm answers (also when a submission fails on the way), the accepted jobs are an
initial part of the planned ones: no pair is submitted more often than planned, none out of order. -/
theorem C46_failure_keeps_prefix (d : Dict) (n b overall idData idRho : Nat) (ts ps : List Nat)
    (h : Ready d n b overall idData idRho ts ps) (host : Str) (hh : KnownHost host)
    (partitions : Str → Bool) (hp : ∀ s, partitions s = true) (reply : Replies) :
    ∃ d' jobs, setupBlocksAndJobs d = .ok (d', jobs) ∧ ∃ jobOf : Nat → Nat → Job,
      (∀ T P, IsJob d' idData idRho T P (jobOf T P)) ∧
      (submitJobs host partitions reply d).1 = d' ∧
      (submitJobs host partitions reply d).2.1 <+:
        ts.flatMap fun T => ps.flatMap fun P => List.replicate jobs (jobOf T P) := by
  obtain ⟨d', e, _, _, hk⟩ := setup_ok d n b overall h.asks h.hb h.hbn h.hbm
  refine ⟨d', _, e, ?_⟩
  have g : ∀ k v, k ∉ setupKeys → d k = some v → d' k = some v :=
    fun k v h1 h2 => by rw [hk k h1, h2]
  have h1 := g _ _ (by decide) h.idData
  have h2 := g _ _ (by decide) h.idRho
  have h3 := g _ _ (by decide) h.part
  have h4 := g _ _ (by decide) h.ts
  have h5 := g _ _ (by decide) h.ps
  choose jobOf hjob using fun T P => prepareJob_ok host hh partitions hp d' idData idRho T P h1 h2 h3
  refine ⟨jobOf, fun T P => (hjob T P).2, ?_, ?_⟩
  · simp only [submitJobs, setup_of_ok e, Dict.get, h4, h5]
  set pairs := ts.flatMap fun T => ps.map fun P => (PVal.float T, PVal.int P) with hpairs
  let jp : PVal × PVal → Job := fun p => match p with
    | (.float T, .int P) => jobOf T P
    | _ => jobOf 0 0
  have hj : ∀ p ∈ pairs, prepareJob host partitions d' p.1 p.2 = .ok (jp p) := by
    intro p hp
    simp only [hpairs, List.mem_flatMap, List.mem_map] at hp
    obtain ⟨T, _, P, _, rfl⟩ := hp
    exact (hjob T P).1
  obtain ⟨t, h6, h7⟩ := submitPairs_prefix host partitions reply d'
    (max 1 ((if overall = 0 then n else overall) / 100000)) jp pairs hj []
  simp only [submitJobs, setup_of_ok e, Dict.get, h4, h5, ← hpairs, h6, List.nil_append]
  rw [hpairs, List.flatMap_assoc] at h7
  simpa only [List.flatMap_map, jp] using h7

/-- A configured object exists, with two temperatures and three bead numbers. -/
example : ∃ d : Dict, Ready d 10000 1000 0 11 0 [25000, 30000] [8, 16, 32] := by
  refine ⟨fun k => if k = c!"number_of_samples" then some (.int 10000)
    else if k = c!"block_size" then some (.int 1000)
    else if k = c!"number_of_samples_overall" then some (.int 0)
    else if k = c!"temperature_list" then some (.floats [25000, 30000])
    else if k = c!"bead_list" then some (.ints [8, 16, 32])
    else if k = c!"id_data" then some (.int 11)
    else if k = c!"id_rho" then some (.int 0)
    else if k = c!"partition" then some .none else none, ⟨⟨?_, ?_, ?_⟩, ?_, ?_, ?_, ?_, ?_, ?_, ?_, ?_⟩⟩ <;>
    simp

/-- Replies of the required kind exist (`C49_job_id`). -/
example : ∀ k : Nat, ∃ out id, (fun _ => some c!"Submitted batch job 7\n" : Replies) k = some out ∧
    extractIdJob out = .ok id := fun _ => ⟨_, some 7, rfl, by
      decide +kernel⟩

/-! ### C47 -/

/-- C47 is false: creating a second object of the same class replaces the parameters of the first:
afterwards both have the same parameters. -/
theorem C47_shared_parameters (h : Heap) (o : Obj) (host : Str) (input paths : Dict) :
    o.params (createObj h o.cls host input paths).1 =
      (createObj h o.cls host input paths).2.params (createObj h o.cls host input paths).1 := rfl

/-- The value of a key the second object sets is lost for the first one. -/
theorem C47_independence_refuted (h : Heap) (cls : SubCls) (host : Str) (in1 in2 paths : Dict)
    (n1 n2 : Nat) (hne : n1 ≠ n2) (h1 : in1 c!"number_of_samples" = some (.int n1))
    (h2 : in2 c!"number_of_samples" = some (.int n2)) (hp : paths c!"number_of_samples" = none) :
    let (h', o1) := createObj h cls host in1 paths
    let (h'', _) := createObj h' cls host in2 paths
    o1.params h' c!"number_of_samples" = some (.int n1) ∧
      o1.params h'' c!"number_of_samples" ≠ some (.int n1) := by
  refine ⟨?_, ?_⟩
  · simp [createObj, Obj.params, Dict.update, hp, h1]
  · simp [createObj, Obj.params, Dict.update, hp, h2, hne.symm]

/-- The same for the directories: the first object's jobs would run in the second one's. -/
theorem C47_paths_refuted (h : Heap) (cls : SubCls) (host : Str) (in1 in2 paths1 paths2 : Dict)
    (p1 p2 : Str) (hne : p1 ≠ p2) (h1 : paths1 c!"path_rho" = some (.str p1))
    (h2 : paths2 c!"path_rho" = some (.str p2)) :
    let (h', o1) := createObj h cls host in1 paths1
    let (h'', _) := createObj h' cls host in2 paths2
    o1.params h' c!"path_rho" = some (.str p1) ∧
      o1.params h'' c!"path_rho" = some (.str p2) ∧ p2 ≠ p1 := by
  refine ⟨?_, ?_, hne.symm⟩
  · simp [createObj, Obj.params, Dict.update, h1]
  · simp [createObj, Obj.params, Dict.update, h2]

/-- C47 (what does hold): objects of the other class are not affected, and neither is a key that
the second object does not set (the host name is always set). -/
theorem C47_untouched_keys_partial (h : Heap) (o : Obj) (cls : SubCls) (host : Str)
    (input paths : Dict) (k : Str) :
    (o.cls ≠ cls ∨ (input k = none ∧ paths k = none ∧ k ≠ c!"hostname")) →
    o.params (createObj h cls host input paths).1 k = o.params h k := by
  rintro (hc | ⟨h1, h2, h3⟩)
  · simp [createObj, Obj.params, hc]
  · by_cases hc : o.cls = cls
    · simp [createObj, Obj.params, hc, Dict.update, Dict.set, h1, h2, h3]
    · simp [createObj, Obj.params, hc]

/-! ### C48 -/

/-- The scheduler's record contains COMPLETED. -/
def SaysCompleted (a : Str × Str) : Prop := c!"COMPLETED" <:+: a.1

theorem contains_iff (needle s : Str) : contains needle s = true ↔ needle <:+: s := by
  rw [contains]
  constructor
  · intro h
    obtain ⟨⟨a, b⟩, hab⟩ := Option.isSome_iff_exists.1 h
    exact ⟨a, b, (find_eq hab).symm⟩
  · intro h
    by_contra hn
    simp only [Bool.not_eq_true, Option.isSome_eq_false_iff, Option.isNone_iff_eq_none] at hn
    exact absurd h (by
      intro ⟨a, b, e⟩
      subst e
      clear h
      induction a with
      | nil =>
        simp only [List.nil_append] at hn
        cases hs : needle ++ b with
        | nil =>
          obtain ⟨rfl, rfl⟩ := List.append_eq_nil_iff.1 hs
          simp [find, dropPrefix] at hn
        | cons c s =>
          rw [hs, find, ← hs, dropPrefix_append] at hn
          simp at hn
      | cons c a ih =>
        simp only [List.cons_append, find] at hn
        split at hn
        · simp at hn
        · simp only [Option.map_eq_none_iff] at hn
          exact ih hn)

theorem poll_returned (l : List (Str × Str)) : pollLoop l = .returned ↔
    ∃ before a after, l = before ++ a :: after ∧ SaysCompleted a ∧
      ∀ x ∈ before, x.2 = [] ∧ ¬ SaysCompleted x := by
  induction l with
  | nil => simp [pollLoop]
  | cons a l ih =>
    obtain ⟨out, err⟩ := a
    simp only [pollLoop]
    by_cases hc : contains c!"COMPLETED" out = true
    · rw [if_pos hc]
      simp only [true_iff]
      exact ⟨[], _, l, rfl, (contains_iff _ _).1 hc, by simp⟩
    · rw [if_neg hc]
      have hc' : ¬ SaysCompleted (out, err) := fun h => hc ((contains_iff _ _).2 h)
      by_cases he : err = []
      · rw [if_pos he, ih]
        constructor
        · rintro ⟨b, a, t, rfl, h1, h2⟩
          refine ⟨(out, err) :: b, a, t, rfl, h1, ?_⟩
          intro x hx
          rcases List.mem_cons.1 hx with rfl | hx
          · exact ⟨he, hc'⟩
          · exact h2 x hx
        · rintro ⟨b, a, t, h0, h1, h2⟩
          cases b with
          | nil =>
            simp only [List.nil_append, List.cons.injEq] at h0
            exact absurd (h0.1 ▸ h1) hc'
          | cons x b =>
            simp only [List.cons_append, List.cons.injEq] at h0
            exact ⟨b, a, t, h0.2, h1, fun y hy => h2 y (List.mem_cons_of_mem _ hy)⟩
      · rw [if_neg he]
        simp only [reduceCtorEq, false_iff]
        rintro ⟨b, a, t, h0, h1, h2⟩
        cases b with
        | nil =>
          simp only [List.nil_append, List.cons.injEq] at h0
          exact hc' (h0.1 ▸ h1)
        | cons x b =>
          simp only [List.cons_append, List.cons.injEq] at h0
          have := (h2 x List.mem_cons_self).1
          rw [← h0.1] at this
          exact he this

/-- C48: the call returns exactly when the first answer had no error, the wait for the signal is
over, and a later answer says COMPLETED while all answers in between had no error. -/
theorem C48_returns_only_when_completed (answers : List (Str × Str)) (woken : Bool) :
    synchronize answers woken = .returned ↔
      woken = true ∧ ∃ first before a after, answers = first :: before ++ a :: after ∧
        first.2 = [] ∧ SaysCompleted a ∧ ∀ x ∈ before, x.2 = [] ∧ ¬ SaysCompleted x := by
  cases answers with
  | nil => simp [synchronize]
  | cons x rest =>
    obtain ⟨o, e⟩ := x
    simp only [synchronize]
    by_cases he : e = []
    · rw [if_pos he]
      cases woken with
      | false => simp
      | true =>
        simp only [if_true, true_and, poll_returned]
        constructor
        · rintro ⟨b, a, t, rfl, h1, h2⟩; exact ⟨(o, e), b, a, t, rfl, he, h1, h2⟩
        · rintro ⟨f, b, a, t, h0, _, h1, h2⟩
          simp only [List.cons_append, List.cons.injEq] at h0
          exact ⟨b, a, t, h0.2, h1, h2⟩
    · rw [if_neg he]
      simp only [reduceCtorEq, false_iff]
      rintro ⟨_, f, b, a, t, h0, h1, _⟩
      simp only [List.cons_append, List.cons.injEq] at h0
      rw [← h0.1] at h1; exact he h1

theorem poll_raised (l : List (Str × Str)) : pollLoop l = .raised ↔
    ∃ before a after, l = before ++ a :: after ∧ a.2 ≠ [] ∧ ¬ SaysCompleted a ∧
      ∀ x ∈ before, x.2 = [] ∧ ¬ SaysCompleted x := by
  induction l with
  | nil => simp [pollLoop]
  | cons a l ih =>
    obtain ⟨out, err⟩ := a
    simp only [pollLoop]
    by_cases hc : contains c!"COMPLETED" out = true
    · rw [if_pos hc]
      have hc' : SaysCompleted (out, err) := (contains_iff _ _).1 hc
      simp only [reduceCtorEq, false_iff]
      rintro ⟨b, a, t, h0, h1, h2, h3⟩
      cases b with
      | nil =>
        simp only [List.nil_append, List.cons.injEq] at h0
        exact h2 (h0.1 ▸ hc')
      | cons x b =>
        simp only [List.cons_append, List.cons.injEq] at h0
        exact (h3 x List.mem_cons_self).2 (h0.1 ▸ hc')
    · rw [if_neg hc]
      have hc' : ¬ SaysCompleted (out, err) := fun h => hc ((contains_iff _ _).2 h)
      by_cases he : err = []
      · rw [if_pos he, ih]
        constructor
        · rintro ⟨b, a, t, rfl, h1, h2, h3⟩
          refine ⟨(out, err) :: b, a, t, rfl, h1, h2, ?_⟩
          intro x hx
          rcases List.mem_cons.1 hx with rfl | hx
          · exact ⟨he, hc'⟩
          · exact h3 x hx
        · rintro ⟨b, a, t, h0, h1, h2, h3⟩
          cases b with
          | nil =>
            simp only [List.nil_append, List.cons.injEq] at h0
            rw [← h0.1] at h1
            exact absurd he h1
          | cons x b =>
            simp only [List.cons_append, List.cons.injEq] at h0
            exact ⟨b, a, t, h0.2, h1, h2, fun y hy => h3 y (List.mem_cons_of_mem _ hy)⟩
      · rw [if_neg he]
        simp only [true_iff]
        exact ⟨[], (out, err), l, rfl, he, hc', by simp⟩

/-- C48: an error reported before COMPLETED is seen raises. -/
theorem C48_raises_on_error (answers : List (Str × Str)) (woken : Bool) :
    synchronize answers woken = .raised ↔
      ∃ first rest, answers = first :: rest ∧ (first.2 ≠ [] ∨ (woken = true ∧
        ∃ before a after, rest = before ++ a :: after ∧ a.2 ≠ [] ∧ ¬ SaysCompleted a ∧
          ∀ x ∈ before, x.2 = [] ∧ ¬ SaysCompleted x)) := by
  cases answers with
  | nil => simp [synchronize]
  | cons x rest =>
    obtain ⟨o, e⟩ := x
    simp only [synchronize]
    by_cases he : e = []
    · rw [if_pos he]
      cases woken with
      | false =>
        simp [he]
      | true =>
        simp only [if_true, poll_raised]
        constructor
        · intro h; exact ⟨_, _, rfl, .inr ⟨trivial, h⟩⟩
        · rintro ⟨f, r, h0, h1⟩
          simp only [List.cons.injEq] at h0
          obtain ⟨rfl, rfl⟩ := h0
          rcases h1 with h1 | ⟨_, h1⟩
          · exact absurd he h1
          · exact h1
    · rw [if_neg he]
      simp only [true_iff]
      exact ⟨_, _, rfl, .inl he⟩

/-- Any other history keeps waiting: for instance as long as the record shows RUNNING. -/
theorem C48_keeps_waiting (answers : List (Str × Str)) (woken : Bool)
    (h : ∀ a ∈ answers, a.2 = [] ∧ ¬ SaysCompleted a) :
    synchronize answers woken = .stillWaiting := by
  match hs : synchronize answers woken with
  | .stillWaiting => rfl
  | .returned =>
    obtain ⟨_, f, b, a, t, rfl, _, h1, _⟩ := (C48_returns_only_when_completed _ _).1 hs
    exact absurd h1 (h a (by simp)).2
  | .raised =>
    obtain ⟨f, r, rfl, h1⟩ := (C48_raises_on_error _ _).1 hs
    rcases h1 with h1 | ⟨_, b, a, t, rfl, h1, _⟩
    · exact absurd (h f List.mem_cons_self).1 h1
    · exact absurd (h a (by simp)).1 h1

example : synchronize [(c!"JobState=PENDING", []), (c!"JobState=RUNNING", []),
    (c!"JobState=COMPLETED Reason=None", [])] true = .returned := by decide
example : synchronize [(c!"JobState=PENDING", []), (c!"JobState=RUNNING", [])] true
    = .stillWaiting := by decide

/-! ### C49 -/

/-- C49: the id is read from Slurm's message, with or without trailing line ends. -/
theorem C49_job_id (n : Nat) (tail : Str) (ht : ∀ c ∈ tail, c = '\n' ∨ c = '\r' ∨ c = ' ') :
    extractIdJob (c!"Submitted batch job " ++ natStr n ++ tail) = .ok (some n) := by
  have hl : (natStr n).length ≠ 0 := by simp [natStr_ne_nil]
  have hlen : (c!"Submitted batch job " ++ natStr n ++ tail).length ≥ 21 := by
    simp only [List.length_append, List.length_cons, List.length_nil]; omega
  have hdrop : (c!"Submitted batch job " ++ natStr n ++ tail).drop 20 = natStr n ++ tail := by
    simp
  have := (pyInt_natStr_spaces n tail (fun c hc => by
    rcases ht c hc with rfl | rfl | rfl <;> decide)).2
  rw [extractIdJob, if_pos hlen, hdrop, this]; rfl

/-- C49: shorter texts give no id. -/
theorem C49_short_message (out : Str) (h : out.length < 21) : extractIdJob out = .ok none := by
  rw [extractIdJob, if_neg (by omega)]

/-- C49: the multi-cluster form of the message (`... on cluster X`) raises instead. -/
theorem C49_cluster_suffix_raises (n : Nat) (name : Str) :
    extractIdJob (c!"Submitted batch job " ++ natStr n ++ c!" on cluster " ++ name)
      = .error .value := by
  have hlen : (c!"Submitted batch job " ++ natStr n ++ c!" on cluster " ++ name).length ≥ 21 := by
    simp only [List.length_append, List.length_cons, List.length_nil]; omega
  have hdrop : (c!"Submitted batch job " ++ natStr n ++ c!" on cluster " ++ name).drop 20 =
      natStr n ++ c!" on cluster " ++ name := by simp
  rw [extractIdJob, if_pos hlen, hdrop, pyInt_error (c := 'o') (by simp) (by decide)]
  rfl

example : extractIdJob c!"Submitted batch job 4711\n" = .ok (some 4711) := by
  have := C49_job_id 4711 ['\n'] (by simp)
  simpa [natStr, digit] using this

/-! ### C63 -/

/-- The handler runs at once when the signal arrives outside `sigwait`. -/
def stepAtomic (s : Sync) : Ev → Option Sync
  | .signal => (step s .signal).bind fun s => if s.tripped then step s .handle else some s
  | .handle => none
  | e => step s e

/-- A run with handlers that run at once. -/
def runAtomic (s : Sync) : List Ev → Option Sync
  | [] => some s
  | e :: es => (stepAtomic s e).bind fun s => runAtomic s es

/-- Invariant of such runs: once the flag is set, whoever waits has an alarm pending. -/
theorem atomic_inv (es : List Ev) : ∀ (s s' : Sync), s.tripped = false →
    ((s.flag = true ∧ (s.pc = .aboutToWait ∨ s.pc = .waiting)) → s.alarm = true) →
    runAtomic s es = some s' →
    s'.tripped = false ∧
      ((s'.flag = true ∧ (s'.pc = .aboutToWait ∨ s'.pc = .waiting)) → s'.alarm = true) ∧
      (s.flag = true → s'.flag = true) ∧
      (.signal ∈ es → s'.pc = .waiting → s'.flag = true) ∧
      ((s.pc = .woken ∨ s.pc = .polling ∨ s.pc = .killed) →
        s'.pc = .woken ∨ s'.pc = .polling ∨ s'.pc = .killed) := by
  induction es with
  | nil =>
    intro s s' h1 h2 h3
    simp only [runAtomic, Option.some.injEq] at h3
    subst h3
    exact ⟨h1, h2, id, by simp, id⟩
  | cons e es ih =>
    intro s s' h1 h2 h3
    obtain ⟨pc, flag, alarm, tripped⟩ := s
    simp only at h1
    subst h1
    simp only [runAtomic, Option.bind_eq_some_iff] at h3
    obtain ⟨s1, h4, h5⟩ := h3
    cases e with
    | handle => simp [stepAtomic] at h4
    | signal =>
      cases pc <;> simp [stepAtomic, step, runHandler, Sync.locked] at h4 <;> subst h4 <;>
      · obtain ⟨i1, i2, i3, i4, i5⟩ := ih _ s' rfl (by simp) h5
        refine ⟨i1, i2, ?_, ?_, ?_⟩
        · intro hf; exact i3 (by simpa using hf)
        · intro _ hw
          first
            | exact i3 rfl
            | (rcases i5 (by simp) with h | h | h <;> rw [hw] at h <;> cases h)
        · intro hp; first | exact i5 hp | (simp at hp)
    | alarm =>
      cases alarm <;> cases pc <;> simp [stepAtomic, step] at h4 <;> subst h4 <;>
      · obtain ⟨i1, i2, i3, i4, i5⟩ := ih _ s' rfl (by simp) h5
        refine ⟨i1, i2, i3, ?_, ?_⟩
        · intro hm hw
          rcases List.mem_cons.1 hm with h | hm
          · cases h
          · exact i4 hm hw
        · intro hp; first | exact i5 (by simp) | (simp at hp)
    | main =>
      cases pc <;> simp [stepAtomic, step] at h4
      · subst h4
        obtain ⟨i1, i2, i3, i4, i5⟩ := ih _ s' rfl (by simp) h5
        refine ⟨i1, i2, i3, ?_, by simp⟩
        intro hm hw
        rcases List.mem_cons.1 hm with h | hm
        · cases h
        · exact i4 hm hw
      · cases flag
        · simp only [Bool.false_eq_true, if_false] at h4
          subst h4
          obtain ⟨i1, i2, i3, i4, i5⟩ := ih _ s' rfl (by simp) h5
          refine ⟨i1, i2, i3, ?_, by simp⟩
          intro hm hw
          rcases List.mem_cons.1 hm with h | hm
          · cases h
          · exact i4 hm hw
        · simp only [if_true] at h4
          subst h4
          obtain ⟨i1, i2, i3, i4, i5⟩ := ih _ s' rfl (by simp) h5
          refine ⟨i1, i2, i3, ?_, by simp⟩
          intro hm hw
          rcases List.mem_cons.1 hm with h | hm
          · cases h
          · exact i4 hm hw
      · subst h4
        obtain ⟨i1, i2, i3, i4, i5⟩ := ih _ s' rfl (by simpa using h2) h5
        refine ⟨i1, i2, i3, ?_, by simp⟩
        intro hm hw
        rcases List.mem_cons.1 hm with h | hm
        · cases h
        · exact i4 hm hw
      · subst h4
        obtain ⟨i1, i2, i3, i4, i5⟩ := ih _ s' rfl (by simp) h5
        refine ⟨i1, i2, i3, ?_, fun _ => i5 (by simp)⟩
        intro hm hw
        rcases List.mem_cons.1 hm with h | hm
        · cases h
        · exact i4 hm hw

/-- C63 (under the assumption that Python handlers run at once): for every schedule in which the
signal has arrived at some time, a main thread found in `sigwait` has an alarm pending that will
wake it: the signal is not lost. -/
theorem C63_signal_not_lost_partial (es : List Ev) (s : Sync) (h : runAtomic Sync.init es = some s)
    (hsig : .signal ∈ es) (hw : s.pc = .waiting) : s.alarm = true := by
  obtain ⟨_, i2, _, i4, _⟩ := atomic_inv es Sync.init s rfl (by simp [Sync.init]) h
  exact i2 ⟨i4 hsig hw, .inr hw⟩

/-- C63 is false for the interpreter as it is: a signal that arrives after the last bytecode
boundary before `sigwait` is only marked; the main thread then waits and nothing but another signal
can wake it. -/
theorem C63_lost_signal_refuted :
    ∃ es s, run Sync.init es = some s ∧ .signal ∈ es ∧ s.pc = .waiting ∧
      ∀ e s', step s e = some s' → e = .signal := by
  refine ⟨[.main, .main, .signal, .main], ⟨.waiting, false, false, true⟩, by decide, by decide, rfl,
    ?_⟩
  intro e s' h
  cases e <;> simp [step] at h ⊢

/-- C63: even one signal with an immediate handler can end the process: if it arrives between
taking the lock and testing the flag, an alarm is set, the wait is skipped, and the alarm expires
while the main thread polls; `SIGALRM` has no handler. -/
theorem C63_alarm_kills_refuted :
    ∃ es s, runAtomic Sync.init es = some s ∧ es.count .signal = 1 ∧ s.pc = .killed :=
  ⟨[.main, .signal, .main, .main, .alarm], ⟨.killed, true, false, false⟩, by decide, by decide, rfl⟩

/-- C63: a signal that arrives before the critical section and is handled at once is harmless: the
flag makes the main thread skip the wait, no alarm is set and the process is not killed, whatever the
schedule. -/
theorem C63_early_signal (es : List Ev) (s : Sync) (hes : .signal ∉ es)
    (h : runAtomic Sync.init (.signal :: es) = some s) :
    s.flag = true ∧ s.alarm = false ∧ s.pc ≠ .aboutToWait ∧ s.pc ≠ .waiting ∧ s.pc ≠ .killed := by
  have inv : ∀ (es : List Ev) (a b : Sync), .signal ∉ es → a.tripped = false → a.flag = true →
      a.alarm = false → a.pc ≠ .aboutToWait → a.pc ≠ .waiting → a.pc ≠ .killed →
      runAtomic a es = some b →
      b.flag = true ∧ b.alarm = false ∧ b.pc ≠ .aboutToWait ∧ b.pc ≠ .waiting ∧ b.pc ≠ .killed := by
    intro es
    induction es with
    | nil =>
      intro a b _ _ h1 h2 h3 h4 h5 h6
      simp only [runAtomic, Option.some.injEq] at h6
      subst h6
      exact ⟨h1, h2, h3, h4, h5⟩
    | cons e es ih =>
      intro a b hs h0 h1 h2 h3 h4 h5 h6
      obtain ⟨pc, flag, alarm, tripped⟩ := a
      simp only at h0 h1 h2 h3 h4 h5
      subst h0; subst h1; subst h2
      simp only [runAtomic, Option.bind_eq_some_iff] at h6
      obtain ⟨s1, h6, h7⟩ := h6
      have hs' : .signal ∉ es := fun hm => hs (List.mem_cons_of_mem _ hm)
      cases e with
      | signal => exact absurd List.mem_cons_self hs
      | handle => simp [stepAtomic] at h6
      | alarm => simp [stepAtomic, step] at h6
      | main =>
        cases pc <;> simp [stepAtomic, step] at h6 h3 h4 h5 <;> subst h6 <;>
          exact ih _ b hs' rfl rfl rfl (by simp) (by simp) (by simp) h7
  have h1 : stepAtomic Sync.init .signal = some ⟨.before, true, false, false⟩ := by decide
  simp only [runAtomic, h1, Option.bind_some] at h
  exact inv es _ s hes rfl rfl rfl (by simp) (by simp) (by simp) h

/-- C63: the alarm that wakes the waiting main thread is used up: without a further signal the
process is not killed afterwards, whatever the schedule. -/
theorem C63_woken_by_alarm (a s s' : Sync) (es : List Ev) (hw : a.pc = .waiting)
    (ht : a.tripped = false) (ha : step a .alarm = some s) (hes : .signal ∉ es)
    (h : run s es = some s') : s.pc = .woken ∧ s'.pc ≠ .killed := by
  have inv : ∀ (es : List Ev) (a b : Sync), .signal ∉ es → a.tripped = false → a.alarm = false →
      a.pc ≠ .killed → run a es = some b → b.pc ≠ .killed := by
    intro es
    induction es with
    | nil =>
      intro a b _ _ _ h1 h2
      simp only [run, Option.some.injEq] at h2
      exact h2 ▸ h1
    | cons e es ih =>
      intro a b hs h0 h1 h2 h3
      obtain ⟨pc, flag, alarm, tripped⟩ := a
      simp only at h0 h1 h2
      subst h0; subst h1
      simp only [run, Option.bind_eq_some_iff] at h3
      obtain ⟨s1, h3, h4⟩ := h3
      have hs' : .signal ∉ es := fun hm => hs (List.mem_cons_of_mem _ hm)
      cases e with
      | signal => exact absurd List.mem_cons_self hs
      | handle => simp [step] at h3
      | alarm => simp [step] at h3
      | main =>
        cases pc <;> simp [step] at h3 h2 <;> subst h3 <;>
          refine ih _ b hs' rfl rfl ?_ h4 <;> first | (cases flag <;> simp; done) | simp
  obtain ⟨pc, flag, alarm, tripped⟩ := a
  simp only at hw ht
  subst hw; subst ht
  cases alarm with
  | false => simp [step] at ha
  | true =>
    simp only [step, ne_eq, reduceCtorEq, not_false_eq_true, and_self, if_true,
      Option.some.injEq] at ha
    subst ha
    exact ⟨rfl, inv es _ s' hes rfl rfl (by simp) h⟩

/-- Its hypotheses are met: a signal just before `sigwait`, the alarm, then the end of the critical
section. -/
example : ∃ a s s', runAtomic Sync.init [.main, .main, .signal, .main] = some a ∧ a.pc = .waiting ∧
    a.tripped = false ∧ step a .alarm = some s ∧ run s [.main] = some s' ∧ s'.pc = .polling :=
  ⟨⟨.waiting, true, true, false⟩, ⟨.woken, true, false, false⟩, ⟨.polling, true, false, false⟩,
    by decide, rfl, rfl, by decide, by decide, rfl⟩

/-- The hypotheses of the positive theorem are met: signal just before `sigwait`. -/
example : ∃ s, runAtomic Sync.init [.main, .main, .signal, .main] = some s ∧ s.pc = .waiting ∧
    s.alarm = true := ⟨⟨.waiting, true, true, false⟩, by decide, rfl, rfl⟩

end Pibronic.Props.JobBoss
