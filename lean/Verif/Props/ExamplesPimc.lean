import Verif.Model.ExamplesPimc
import Verif.Props.Examples
import Verif.Props.JobBoss
import Verif.Props.JobScript

set_option autoImplicit false

/-!
Theorems about the programs in `examples` that submit path integral Monte Carlo jobs: C129 (which jobs a system gets,
with which parameters, and which analytical calculations are started before).
-/
namespace Pibronic.Props.ExamplesPimc
open Pibronic.Py Pibronic.FileName Pibronic.FileStructure Pibronic.Analytic Pibronic.Examples Pibronic.ExamplesPimc
open Pibronic.JobBoss Pibronic.Spec.FileStructure Pibronic.Spec.Shell Pibronic.Postprocessing
open Pibronic.Props.Analytic Pibronic.Props.Examples Pibronic.Props.JobBoss
open Pibronic.JobScript (pathScratch)
open Pibronic.Props.JobScript (IsRoot)

/-! ### What is expected -/

/-- The Python program of an analytical calculation. -/
def analyticProgram (absRoot function : Str) (d r T : Nat) : Str :=
  c!"import pibronic;from pibronic.data import file_structure as fs;from pibronic import julia_wrapper as jw;from pibronic.constants import beta;b = beta(" ++
    tempStr T ++ c!");FS = fs.FileStructure(\"" ++ absRoot ++ c!"\", " ++ natStr d ++ c!", " ++ natStr r ++
    c!");FS.generate_model_hashes();jw.prepare_julia();pibronic.julia_wrapper." ++ function ++ c!"(FS, b);"

/-- The words of the command that runs a program on the cluster. -/
def srunPlain (name program : Str) : List Str :=
  [c!"srun", c!"--job-name=" ++ name, c!"python3", c!"-c", program]

/-- The analytical calculations of one data set and sampling distribution: the original model (if asked for) at every
temperature, then the sampling model at every temperature. -/
def analyticJobs (q : Setting) (absRoot : Str) (d r : Nat) : List (List Str) :=
  (if q.coupledToo then q.temps.map fun T => srunPlain (c!"analytic_D" ++ natStr d ++ c!"_T" ++ tempStr T)
      (analyticProgram absRoot c!"analytic_of_coupled_model" d r T) else []) ++
  q.temps.map fun T => srunPlain
    (c!"analytic_D" ++ natStr d ++ (if q.rhoInName then c!"_R" ++ natStr r else []) ++ c!"_T" ++ tempStr T)
    (analyticProgram absRoot c!"analytic_of_sampling_model" d r T)

/-- A job does what the user asks for: `n` samples in blocks of 1000 for the model with `A` surfaces and `N`
modes of the data set `d`, with the sampling distribution `r`, at the temperature `T` with `P` beads, below the root,
with the resources of every PIMC job. -/
structure Describes (n : Nat) (absRoot : Str) (deltaBeta : PVal) (A N d r T P : Nat) (job : Job) : Prop where
  name : job.name = c!"D" ++ natStr d ++ c!"_R" ++ natStr r ++ c!"_P" ++ natStr P ++ c!"_T" ++ tempStr T
  idData : job.params c!"id_data" = some (.int d)
  idRho : job.params c!"id_rho" = some (.int r)
  states : job.params c!"number_of_states" = some (.int A)
  modes : job.params c!"number_of_modes" = some (.int N)
  beads : job.params c!"number_of_beads" = some (.int P)
  temperature : job.params c!"temperature" = some (.float T)
  samples : job.params c!"number_of_samples" = some (.int n)
  blocks : job.params c!"number_of_blocks" = some (.int (n / 1000))
  blockSize : job.params c!"block_size" = some (.int 1000)
  deltaBeta : job.params c!"delta_beta" = some deltaBeta
  root : job.params c!"path_root" = some (.str absRoot)
  data : job.params c!"path_data" = some (.str (dataDir absRoot d))
  rho : job.params c!"path_rho" = some (.str (rhoDir absRoot d r))
  scratch : job.params c!"path_scratch" = some (.str (rhoDir (pathScratch absRoot) d r))
  vibModel : job.params c!"path_vib_model" = some (.str (dataDir absRoot d ++ c!"parameters/coupled_model.json"))
  rhoModel : job.params c!"path_rho_model" = some (.str (rhoDir absRoot d r ++ c!"parameters/sampling_model.json"))
  script : job.params c!"script_name" = some (.str c!"pimc.py")
  memory : job.params c!"memory_per_node" = some (.int 20)
  cpus : job.params c!"cpus_per_task" = some (.int 4)
  cores : job.params c!"cores_per_socket" = some (.int 4)
  wait : job.params c!"wait_param" = some (.str [])

/-- The jobs of one data set and sampling distribution: the temperatures and numbers of beads. -/
def pairs (q : Setting) : List (Nat × Nat) := q.temps.flatMap fun T => q.beads.map fun P => (T, P)

/-! ### The analytical calculations -/

theorem words_srunPlain (name program : Str) (h1 : ∀ c ∈ name, plain c = true) (h2 : '\'' ∉ program) :
    words (c!"srun --job-name=" ++ name ++ c!" python3 -c '" ++ program ++ c!"'")
      = some (srunPlain name program) := by
  have e : c!"srun --job-name=" ++ name ++ c!" python3 -c '" ++ program ++ c!"'" =
      c!"srun" ++ ' ' :: ((c!"--job-name=" ++ name) ++ ' ' :: (c!"python3" ++ ' ' ::
        (c!"-c" ++ ' ' :: '\'' :: (program ++ '\'' :: [])))) := by simp
  have hj : ∀ c ∈ c!"--job-name=" ++ name, plain c = true := by
    intro c hc
    rcases List.mem_append.1 hc with hc | hc
    · exact (by decide : ∀ c ∈ c!"--job-name=", plain c = true) c hc
    · exact h1 c hc
  unfold words srunPlain
  rw [e, lex_plain _ _ _ (by decide) (by decide), lex_blank, lex_plain _ _ _ hj (by simp), lex_blank,
    lex_plain _ _ _ (by decide) (by decide), lex_blank, lex_plain _ _ _ (by decide) (by decide), lex_blank]
  rw [lex, if_pos rfl, Option.getD_none, lex_quoted _ _ _ h2]
  simp [lex]

/-- The name of an analytical job. -/
def analyticName (withRho : Bool) (d r T : Nat) : Str :=
  c!"analytic_D" ++ natStr d ++ (if withRho then c!"_R" ++ natStr r else []) ++ c!"_T" ++ tempStr T

section
variable {root absRoot : Str} {d r : Nat}

theorem analyticCommand_words (hh : Harmless absRoot) (function : Str) (withRho : Bool) (T : Nat)
    (hf : ∀ c ∈ function, plain c = true) :
    ∃ cmd, analyticCommand (initFS root absRoot d r) function withRho T = .ok cmd ∧
      words cmd = some (srunPlain (analyticName withRho d r T) (analyticProgram absRoot function d r T)) := by
  have f1 : '{' ∉ function := notMem_of_plain hf (by decide)
  have f2 : '}' ∉ function := notMem_of_plain hf (by decide)
  have f3 : '\'' ∉ function := notMem_of_plain hf (by decide)
  have e : analyticTemplate (initFS root absRoot d r) function =
      (jlImport ++ c!"b = beta(") ++ ('{' :: (c!"temperature" ++ ':' :: c!".2f" ++ '}' :: (c!");" ++
        makeFS (initFS root absRoot d r) ++
        c!"FS.generate_model_hashes();jw.prepare_julia();pibronic.julia_wrapper." ++ function ++ c!"(FS, b);"))) := by
    simp [analyticTemplate]
  have n1 := makeFS_notMem (root := root) hh d '{' (by simp) r
  have n2 := makeFS_notMem (root := root) hh d '}' (by simp) r
  refine ⟨c!"srun --job-name=" ++ analyticName withRho d r T ++ c!" python3 -c '" ++
    analyticProgram absRoot function d r T ++ c!"'", ?_, ?_⟩
  · unfold analyticCommand
    rw [e, format_literal _ _ _ (by decide) (by decide),
      format_field _ c!"temperature" c!".2f" _ (.float T) (tempStr T) (by decide) (by decide) (by decide) rfl rfl,
      format_end]
    · cases withRho <;>
      simp only [Except.map, bind, Except.bind, analyticProgram, analyticName, makeFS, initFS, List.append_assoc,
        if_true, Bool.false_eq_true, if_false, List.nil_append] <;> rfl
    · simp only [List.mem_append, not_or]; exact ⟨⟨⟨⟨by decide, n1⟩, by decide⟩, f1⟩, by decide⟩
    · simp only [List.mem_append, not_or]; exact ⟨⟨⟨⟨by decide, n2⟩, by decide⟩, f2⟩, by decide⟩
  · apply words_srunPlain
    · intro x hx
      unfold analyticName at hx
      simp only [List.mem_append] at hx
      rcases hx with (((hx | hx) | hx) | hx) | hx
      · exact (by decide : ∀ x ∈ c!"analytic_D", plain x = true) x hx
      · exact plain_natStr _ x hx
      · cases withRho with
        | false => simp at hx
        | true =>
          simp only [if_true, List.mem_append] at hx
          rcases hx with hx | hx
          · exact (by decide : ∀ x ∈ c!"_R", plain x = true) x hx
          · exact plain_natStr _ x hx
      · exact (by decide : ∀ x ∈ c!"_T", plain x = true) x hx
      · exact plain_tempStr _ x hx
    · have a1 : '\'' ∉ natStr r := notMem_of_plain (plain_natStr _) (by decide)
      have a2 : '\'' ∉ natStr d := notMem_of_plain (plain_natStr _) (by decide)
      have a3 : '\'' ∉ tempStr T := notMem_of_plain (plain_tempStr _) (by decide)
      have a4 : '\'' ∉ absRoot := harmless_notMem hh (by decide)
      simp only [analyticProgram, List.mem_append, not_or]
      exact ⟨⟨⟨⟨⟨⟨⟨⟨⟨⟨by decide, a3⟩, by decide⟩, a4⟩, by decide⟩, a2⟩, by decide⟩, a1⟩, by decide⟩, f3⟩, by decide⟩

theorem analyticLoop_words (hh : Harmless absRoot) (function : Str) (withRho : Bool) (temps : List Nat)
    (hf : ∀ c ∈ function, plain c = true) :
    ∃ cmds, analyticLoop (initFS root absRoot d r) function withRho temps = (cmds, none) ∧
      cmds.map words = temps.map fun T =>
        some (srunPlain (analyticName withRho d r T) (analyticProgram absRoot function d r T)) := by
  induction temps with
  | nil => exact ⟨[], rfl, rfl⟩
  | cons T temps ih =>
    obtain ⟨cmds, h1, h2⟩ := ih
    obtain ⟨cmd, h3, h4⟩ := analyticCommand_words (root := root) (d := d) (r := r) hh function withRho T hf
    exact ⟨cmd :: cmds, by simp [analyticLoop, h3, h1], by simp [h2, h4]⟩

theorem analytic_words {p : Project} (q : Setting) (hv : p.assertId d = .ok ()) (hh : Harmless absRoot) :
    ∃ cmds, analytic q p (initFS root absRoot d r) q.temps = (cmds, none) ∧
      cmds.map words = (analyticJobs q absRoot d r).map some := by
  obtain ⟨c1, h1, h2⟩ := analyticLoop_words (root := root) (d := d) (r := r) hh c!"analytic_of_coupled_model" false
    q.temps (by decide)
  obtain ⟨c2, h3, h4⟩ := analyticLoop_words (root := root) (d := d) (r := r) hh c!"analytic_of_sampling_model"
    q.rhoInName q.temps (by decide)
  have hv' : p.assertId (initFS root absRoot d r).idData = .ok () := hv
  unfold analytic
  rw [hv']
  cases hc : q.coupledToo with
  | false =>
    refine ⟨c2, by simp only [samplingAnalytic, h3, Bool.false_eq_true, if_false], ?_⟩
    rw [h4]
    simp [analyticJobs, hc, analyticName, Function.comp_def]
  | true =>
    refine ⟨c1 ++ c2, by simp only [samplingAnalytic, originalAnalytic, h1, h3, if_true], ?_⟩
    rw [List.map_append, h2, h4]
    simp [analyticJobs, hc, analyticName, Function.comp_def]

end

/-! ### The Monte Carlo jobs -/

/-- What earlier submissions of the same program leave in the class: the number of samples overall is the default or
the one that was asked for, the resources are the defaults. -/
structure Fit (n : Nat) (d : JobBoss.Dict) : Prop where
  overall : d c!"number_of_samples_overall" = some (.int 0) ∨ d c!"number_of_samples_overall" = some (.int n)
  block : d c!"block_size" = some (.int 1000)
  part : d c!"partition" = some .none
  script : d c!"script_name" = some (.str c!"pimc.py")
  memory : d c!"memory_per_node" = some (.int 20)
  cpus : d c!"cpus_per_task" = some (.int 4)
  cores : d c!"cores_per_socket" = some (.int 4)
  wait : d c!"wait_param" = some (.str [])

theorem fit_defaults (n : Nat) : Fit n pimcDefaults :=
  ⟨.inl (by decide +kernel), by decide +kernel, by decide +kernel, by decide +kernel, by decide +kernel,
    by decide +kernel, by decide +kernel, by decide +kernel⟩

section
variable {q : Setting} {p : Project} {m : Machine} {absRoot : Str}

/-- The parameters of a submission object that was made for a data set and a sampling distribution. -/
def made (q : Setting) (m : Machine) (s : FS) (h : Heap) (A N d r : Nat) : JobBoss.Dict :=
  (((h .pimc).set c!"hostname" (.str m.slurmHost)).update (parameters q A N d r m.deltaBeta)).update (pathsOf s)

theorem made_ready {s : FS} {h : Heap} (A N d r : Nat) (hf : Fit q.samples (h .pimc)) (h1 : 1000 ≤ q.samples) :
    ∃ overall, (overall = 0 ∨ overall = q.samples) ∧
      Ready (made q m s h A N d r) q.samples 1000 overall d r q.temps q.beads := by
  rcases hf.overall with ho | ho
  · exact ⟨0, .inl rfl, ⟨rfl, hf.block, ho⟩, rfl, rfl, rfl, rfl, hf.part, by decide, h1, by decide⟩
  · exact ⟨_, .inr rfl, ⟨rfl, hf.block, ho⟩, rfl, rfl, rfl, rfl, hf.part, by decide, h1, by decide⟩

/-- The parameters after the set-up. -/
theorem made_setup {s : FS} {h : Heap} (A N d r : Nat) (hf : Fit q.samples (h .pimc)) (h1 : 1000 ≤ q.samples)
    (h2 : q.samples ≤ 100000) :
    ∃ d', setupBlocksAndJobs (made q m s h A N d r) = .ok (d', 1) ∧ Fit q.samples d' ∧
      d' c!"number_of_samples" = some (.int q.samples) ∧
      d' c!"number_of_blocks" = some (.int (q.samples / 1000)) ∧
      ∀ k, k ∉ setupKeys → d' k = made q m s h A N d r k := by
  obtain ⟨overall, ho, hr⟩ := made_ready (m := m) (s := s) A N d r hf h1
  obtain ⟨d', e, su, so, sk⟩ := setup_ok _ _ _ _ hr.asks hr.hb hr.hbn hr.hbm
  have hm : min q.samples 100000 = q.samples := by omega
  rw [hm] at su
  have ht : (if overall = 0 then q.samples else overall) = q.samples := by
    rcases ho with rfl | rfl <;> simp
  rw [ht] at e so
  have hj : max 1 (q.samples / 100000) = 1 := by
    have : q.samples / 100000 ≤ 1 := by omega
    omega
  rw [hj] at e
  refine ⟨d', e, ⟨.inr so, ?_, ?_, ?_, ?_, ?_, ?_, ?_⟩, su.samples, su.numBlocks, sk⟩
  · rw [sk _ (by decide)]; exact hf.block
  · rw [sk _ (by decide)]; exact hf.part
  · rw [sk _ (by decide)]; exact hf.script
  · rw [sk _ (by decide)]; exact hf.memory
  · rw [sk _ (by decide)]; exact hf.cpus
  · rw [sk _ (by decide)]; exact hf.cores
  · rw [sk _ (by decide)]; exact hf.wait

theorem describes_of_isJob {root : Str} {h : Heap} {A N d r T P : Nat} {d' : JobBoss.Dict} {job : Job}
    (hr : RootOk root absRoot) (hi : IsRoot absRoot)
    (hf : Fit q.samples d') (hs : d' c!"number_of_samples" = some (.int q.samples))
    (hb : d' c!"number_of_blocks" = some (.int (q.samples / 1000)))
    (hk : ∀ k, k ∉ setupKeys → d' k = made q m (initFS root absRoot d r) h A N d r k)
    (hj : IsJob d' d r T P job) : Describes q.samples absRoot m.deltaBeta A N d r T P job := by
  have g : ∀ k, k ∉ jobKeys → k ∉ setupKeys → job.params k = made q m (initFS root absRoot d r) h A N d r k :=
    fun k a b => by rw [hj.rest k a, hk k b]
  have hrho : (initFS root absRoot d r).pathRho = JobScript.pathRho absRoot d r := by
    rw [initFS_eq hr]; simp [JobScript.pathRho, rhoDir, dataDir]
  constructor
  · exact hj.name
  · rw [g _ (by decide) (by decide)]; rfl
  · rw [g _ (by decide) (by decide)]; rfl
  · rw [g _ (by decide) (by decide)]; rfl
  · rw [g _ (by decide) (by decide)]; rfl
  · exact hj.beads
  · exact hj.temperature
  · rw [hj.rest _ (by decide)]; exact hs
  · rw [hj.rest _ (by decide)]; exact hb
  · rw [hj.rest _ (by decide)]; exact hf.block
  · rw [g _ (by decide) (by decide)]; rfl
  · rw [g _ (by decide) (by decide)]; rfl
  · rw [g _ (by decide) (by decide)]
    exact congrArg (fun x : Str => some (PVal.str x))
      (show (initFS root absRoot d r).pathData = _ by rw [initFS_eq hr])
  · rw [g _ (by decide) (by decide)]
    exact congrArg (fun x : Str => some (PVal.str x))
      (show (initFS root absRoot d r).pathRho = _ by rw [initFS_eq hr])
  · rw [g _ (by decide) (by decide)]
    refine congrArg (fun x : Str => some (PVal.str x))
      (show pathScratch (initFS root absRoot d r).pathRho = _ from ?_)
    rw [hrho, (Pibronic.Props.JobScript.scratch_pathRho hi d r).1]
    simp [JobScript.pathRho, rhoDir, dataDir]
  · rw [g _ (by decide) (by decide)]
    exact congrArg (fun x : Str => some (PVal.str x))
      (show (initFS root absRoot d r).pathVibModel = _ by rw [initFS_eq hr]; simp)
  · rw [g _ (by decide) (by decide)]
    exact congrArg (fun x : Str => some (PVal.str x))
      (show (initFS root absRoot d r).pathRhoModel = _ by rw [initFS_eq hr]; simp)
  · rw [hj.rest _ (by decide)]; exact hf.script
  · rw [hj.rest _ (by decide)]; exact hf.memory
  · rw [hj.rest _ (by decide)]; exact hf.cpus
  · rw [hj.rest _ (by decide)]; exact hf.cores
  · rw [hj.rest _ (by decide)]; exact hf.wait

/-- Slurm accepts every job of the given data sets and sampling distributions and answers with its number. -/
def Accepts (m : Machine) (l : List (Nat × Nat)) : Prop :=
  ∀ x ∈ l, ∀ k, ∃ n : Nat, m.reply x.1 x.2 k = some (c!"Submitted batch job " ++ natStr n ++ c!"\n")

/-- The machine is one of the two servers, and the directory of the project is there. -/
structure OnServer (p : Project) (m : Machine) (absRoot : Str) : Prop where
  host : m.host = c!"nlogn" ∨ m.host = c!"feynman"
  slurm : KnownHost m.slurmHost
  partitions : ∀ s, m.partitions s = true
  absolute : m.absolute p.serverRoot = absRoot
  root : RootOk p.serverRoot absRoot
  isRoot : IsRoot absRoot
  harmless : Harmless absRoot

theorem job_exists (ho : OnServer p m absRoot) {d' : JobBoss.Dict} {d r : Nat}
    (h1 : d' c!"id_data" = some (.int d)) (h2 : d' c!"id_rho" = some (.int r)) (h3 : d' c!"partition" = some .none) :
    ∃ jobOf : Nat × Nat → Job, ∀ x, prepareJob m.slurmHost m.partitions d' (.float x.1) (.int x.2) = .ok (jobOf x) ∧
      IsJob d' d r x.1 x.2 (jobOf x) :=
  ⟨fun x => (prepareJob_ok m.slurmHost ho.slurm m.partitions ho.partitions d' d r x.1 x.2 h1 h2 h3).choose,
   fun x => (prepareJob_ok m.slurmHost ho.slurm m.partitions ho.partitions d' d r x.1 x.2 h1 h2 h3).choose_spec⟩

theorem submitPairs_all {host : Str} {partitions : Str → Bool} {reply : Replies} {d' : JobBoss.Dict}
    {jobOf : Nat × Nat → Job}
    (hj : ∀ x, prepareJob host partitions d' (.float x.1) (.int x.2) = .ok (jobOf x))
    (hr : ∀ k, ∃ n : Nat, reply k = some (c!"Submitted batch job " ++ natStr n ++ c!"\n")) :
    ∀ (xs : List (Nat × Nat)) (log : List Job),
      submitPairs host partitions reply d' 1 (xs.map fun x => (PVal.float x.1, PVal.int x.2)) log =
        (log ++ xs.map jobOf, none) := by
  intro xs
  induction xs with
  | nil => intro log; simp [submitPairs]
  | cons x xs ih =>
    intro log
    obtain ⟨n, hn⟩ := hr log.length
    have he : extractIdJob (c!"Submitted batch job " ++ natStr n ++ c!"\n") = .ok (some n) :=
      C49_job_id n c!"\n" (by decide)
    rw [List.map_cons, submitPairs, hj x]
    simp only [submitMany, hn, he]
    rw [ih]
    simp

theorem submitPairs_refused {host : Str} {partitions : Str → Bool} {reply : Replies} {d' : JobBoss.Dict}
    {jobOf : Nat × Nat → Job}
    (hj : ∀ x, prepareJob host partitions d' (.float x.1) (.int x.2) = .ok (jobOf x)) (K : Nat)
    (hr : ∀ k < K, ∃ n : Nat, reply k = some (c!"Submitted batch job " ++ natStr n ++ c!"\n"))
    (hK : reply K = none) :
    ∀ (xs : List (Nat × Nat)) (log : List Job), log.length ≤ K → K < log.length + xs.length →
      submitPairs host partitions reply d' 1 (xs.map fun x => (PVal.float x.1, PVal.int x.2)) log =
        (log ++ (xs.take (K - log.length)).map jobOf, some .exception) := by
  intro xs
  induction xs with
  | nil => intro log h1 h2; simp at h2; omega
  | cons x xs ih =>
    intro log h1 h2
    rw [List.map_cons, submitPairs, hj x]
    by_cases hl : log.length = K
    · simp [submitMany, hl, hK]
    · obtain ⟨n, hn⟩ := hr log.length (by omega)
      have he : extractIdJob (c!"Submitted batch job " ++ natStr n ++ c!"\n") = .ok (some n) :=
        C49_job_id n c!"\n" (by decide)
      simp only [submitMany, hn, he]
      rw [ih _ (by simp; omega) (by simp at h2 ⊢; omega)]
      have : K - log.length = (K - (log.length + 1)) + 1 := by omega
      rw [this, List.take_succ_cons]
      simp

/-- The call for one data set and sampling distribution up to the submission. -/
theorem simplePimc_eq (ho : OnServer p m absRoot) {h : Heap} {k : FileStructure.Disk} {d r : Nat} (hv : p.assertId d = .ok ())
    (hk : k.isDir p.serverRoot = true) :
    simplePimc q p m none h k d r = submitFrom q p m h (initFS p.serverRoot absRoot d r)
      ((initFS p.serverRoot absRoot d r).makeDirectories k) d r := by
  unfold simplePimc
  rw [hv]
  simp only [Project.chooseRoot, if_pos ho.host, Except.map, ho.absolute, construct, hk, Bool.true_or,
    Bool.true_eq_false, if_false, new, Bool.false_eq_true]

theorem isDir_foldl (root : Str) (l : List Str) (k : FileStructure.Disk) (h : k.isDir root = true) :
    (l.foldl FileStructure.Disk.makedirs k).isDir root = true := by
  induction l generalizing k with
  | nil => exact h
  | cons x l ih =>
    rw [List.foldl_cons]
    apply ih
    unfold FileStructure.Disk.isDir FileStructure.Disk.makedirs at *
    grind

/-- The parameters of the class after a submission, and the jobs it makes. -/
theorem submitFrom_eq (ho : OnServer p m absRoot) {h : Heap} {k : FileStructure.Disk} {d r A N : Nat}
    (hv : p.assertId d = .ok ())
    (hf : Fit q.samples (h .pimc)) (h1 : 1000 ≤ q.samples) (h2 : q.samples ≤ 100000)
    (hd : Prepare.extractDims (dataDir absRoot d ++ c!"parameters/coupled_model.json") m.models = .ok (A, N)) :
    ∃ (cmds : List Str) (h' : Heap) (jobOf : Nat × Nat → Job), cmds.map words = (analyticJobs q absRoot d r).map some ∧ Fit q.samples (h' .pimc) ∧
      (∀ x : Nat × Nat, Describes q.samples absRoot m.deltaBeta A N d r x.1 x.2 (jobOf x)) ∧
      (∀ x : Nat × Nat, prepareJob m.slurmHost m.partitions (h' .pimc) (.float x.1) (.int x.2) = .ok (jobOf x)) ∧
      submitFrom q p m h (initFS p.serverRoot absRoot d r) k d r =
        ⟨h', k, cmds,
          (submitPairs m.slurmHost m.partitions (m.reply d r) (h' .pimc) 1
            ((pairs q).map fun x => (PVal.float x.1, PVal.int x.2)) []).1,
          (submitPairs m.slurmHost m.partitions (m.reply d r) (h' .pimc) 1
            ((pairs q).map fun x => (PVal.float x.1, PVal.int x.2)) []).2⟩ := by
  obtain ⟨cmds, ha, hw⟩ := analytic_words (root := p.serverRoot) (r := r) q hv ho.harmless
  obtain ⟨d', hs, hf', hn, hb, hkeys⟩ := made_setup (m := m) (s := initFS p.serverRoot absRoot d r) A N d r hf h1 h2
  have g : ∀ key v, key ∉ setupKeys → made q m (initFS p.serverRoot absRoot d r) h A N d r key = some v →
      d' key = some v := fun key v a b => by rw [hkeys key a, b]
  obtain ⟨jobOf, hj⟩ := job_exists ho (g c!"id_data" (.int d) (by decide) rfl) (g c!"id_rho" (.int r) (by decide) rfl)
    hf'.part
  refine ⟨cmds, fun c => if c = .pimc then d' else h c, jobOf, hw, hf', fun x =>
    describes_of_isJob ho.root ho.isRoot hf' hn hb hkeys (hj x).2, fun x => (hj x).1, ?_⟩
  have hd' : Prepare.extractDims (initFS p.serverRoot absRoot d r).pathVibModel m.models = .ok (A, N) := by
    rw [← hd, initFS_eq ho.root]; simp
  have ht : d' c!"temperature_list" = some (.floats q.temps) := g _ _ (by decide) rfl
  have hp : d' c!"bead_list" = some (.ints q.beads) := g _ _ (by decide) rfl
  have hpairs : (q.temps.flatMap fun T => q.beads.map fun P => (PVal.float T, PVal.int P)) =
      (pairs q).map fun x => (PVal.float x.1, PVal.int x.2) := by
    simp [pairs, List.map_flatMap, Function.comp_def]
  have hsub : submitJobs m.slurmHost m.partitions (m.reply d r) (made q m (initFS p.serverRoot absRoot d r) h A N d r) =
      (d', submitPairs m.slurmHost m.partitions (m.reply d r) d' 1
            ((pairs q).map fun x => (PVal.float x.1, PVal.int x.2)) []) := by
    unfold submitJobs
    rw [setup_of_ok hs]
    simp only [Dict.get, ht, hp, hpairs]
  unfold submitFrom
  rw [ha]
  simp only [hd', createObj, submitObj]
  have e : (((h .pimc).set c!"hostname" (.str m.slurmHost)).update (parameters q A N d r m.deltaBeta)).update
      (pathsOf (initFS p.serverRoot absRoot d r)) = made q m (initFS p.serverRoot absRoot d r) h A N d r := rfl
  simp only [if_true, e, hsub]
  congr 1
  funext c
  by_cases hc : c = .pimc <;> simp [hc]

/-- The models of the data sets: the file is there and says how many surfaces and modes it has. -/
def Models (m : Machine) (absRoot : Str) (A N : Nat → Nat) (l : List (Nat × Nat)) : Prop :=
  ∀ x ∈ l, Prepare.extractDims (dataDir absRoot x.1 ++ c!"parameters/coupled_model.json") m.models
    = .ok (A x.1, N x.1)

/-- The jobs of a list of data sets and sampling distributions: one for each of them, each temperature and each number
of beads. -/
def wanted (q : Setting) (l : List (Nat × Nat)) : List (Nat × Nat × Nat × Nat) :=
  l.flatMap fun x => (pairs q).map fun y => (x.1, x.2, y.1, y.2)

/-- A list of jobs that are the wanted ones, in this order. -/
def AsWanted (q : Setting) (m : Machine) (absRoot : Str) (A N : Nat → Nat) (w : List (Nat × Nat × Nat × Nat))
    (jobs : List Job) : Prop :=
  List.Forall₂ (fun (x : Nat × Nat × Nat × Nat) job =>
    Describes q.samples absRoot m.deltaBeta (A x.1) (N x.1) x.1 x.2.1 x.2.2.1 x.2.2.2 job) w jobs

/-- The analytical calculations of a list of data sets and sampling distributions. -/
def calculations (q : Setting) (absRoot : Str) (l : List (Nat × Nat)) : List (Option (List Str)) :=
  l.flatMap fun x => (analyticJobs q absRoot x.1 x.2).map some

theorem asWanted_map {A N : Nat → Nat} {d r : Nat} {jobOf : Nat × Nat → Job} (l : List (Nat × Nat))
    (h : ∀ x : Nat × Nat, Describes q.samples absRoot m.deltaBeta (A d) (N d) d r x.1 x.2 (jobOf x)) :
    AsWanted q m absRoot A N (l.map fun y => (d, r, y.1, y.2)) (l.map jobOf) := by
  unfold AsWanted
  rw [List.forall₂_map_left_iff, List.forall₂_map_right_iff]
  exact List.forall₂_same.2 fun x _ => h x

theorem loop_append (ho : OnServer p m absRoot) (h1 : 1000 ≤ q.samples) (h2 : q.samples ≤ 100000) {A N : Nat → Nat}
    (rest : List (Nat × Nat)) : ∀ (before : List (Nat × Nat)) (h : Heap) (k : FileStructure.Disk),
    (∀ x ∈ before, p.assertId x.1 = .ok ()) → Models m absRoot A N before → Accepts m before →
    Fit q.samples (h .pimc) → k.isDir p.serverRoot = true →
    ∃ h' k' cmds jobs, Fit q.samples (h' .pimc) ∧ k'.isDir p.serverRoot = true ∧
      cmds.map words = calculations q absRoot before ∧ AsWanted q m absRoot A N (wanted q before) jobs ∧
      pimcLoop q p m (before ++ rest) h k =
        { pimcLoop q p m rest h' k' with
          commands := cmds ++ (pimcLoop q p m rest h' k').commands
          jobs := jobs ++ (pimcLoop q p m rest h' k').jobs } := by
  intro before
  induction before with
  | nil =>
    intro h k _ _ _ hf hk
    exact ⟨h, k, [], [], hf, hk, rfl, List.Forall₂.nil, rfl⟩
  | cons x before ih =>
    intro h k hv hm ha hf hk
    obtain ⟨d, r⟩ := x
    obtain ⟨c1, hp, jobOf, hw, hf', hdesc, hprep, he⟩ := submitFrom_eq (q := q) (h := h) (r := r)
      (k := (initFS p.serverRoot absRoot d r).makeDirectories k) ho (hv (d, r) (by simp)) hf h1 h2 (hm (d, r) (by simp))
    rw [submitPairs_all hprep (ha (d, r) (by simp))] at he
    obtain ⟨h', k', cmds, jobs, a1, a2, a3, a4, a5⟩ := ih hp ((initFS p.serverRoot absRoot d r).makeDirectories k)
      (fun x hx => hv x (List.mem_cons_of_mem _ hx)) (fun x hx => hm x (List.mem_cons_of_mem _ hx))
      (fun x hx => ha x (List.mem_cons_of_mem _ hx)) hf' (isDir_foldl _ _ _ hk)
    refine ⟨h', k', c1 ++ cmds, (pairs q).map jobOf ++ jobs, a1, a2, ?_, ?_, ?_⟩
    · rw [List.map_append, hw, a3]; rfl
    · exact List.rel_append (R := fun (x : Nat × Nat × Nat × Nat) job =>
        Describes q.samples absRoot m.deltaBeta (A x.1) (N x.1) x.1 x.2.1 x.2.2.1 x.2.2.2 job)
        (asWanted_map (pairs q) hdesc) a4
    · rw [List.cons_append, pimcLoop, simplePimc_eq ho (hv (d, r) (by simp)) hk, he]
      simp only [List.nil_append, a5, List.append_assoc]

/-- C129: `automate_pimc_submission` submits, for every data set and every sampling distribution of the system, every
temperature and every number of beads, exactly one job, in this order and with the parameters of that combination
(although all submission objects of the process share one dictionary), and before the jobs of each of them starts
its analytical calculations. -/
theorem C129_jobs_partial (ho : OnServer p m absRoot) (h1 : 1000 ≤ q.samples) (h2 : q.samples ≤ 100000)
    {A N : Nat → Nat} {name : Str} {l : List (Nat × Nat)} (hl : p.visits name = .ok l)
    (hv : ∀ x ∈ l, p.assertId x.1 = .ok ()) (hm : Models m absRoot A N l) (ha : Accepts m l)
    (h : Heap) (hh : h .pimc = pimcDefaults) (k : FileStructure.Disk) (hk : k.isDir p.serverRoot = true) :
    ∃ o, automatePimc q p m name h k = o ∧ o.error = none ∧
      o.commands.map words = calculations q absRoot l ∧
      AsWanted q m absRoot A N (wanted q l) o.jobs := by
  obtain ⟨h', k', cmds, jobs, -, -, a3, a4, a5⟩ := loop_append (q := q) ho h1 h2 [] l h k hv hm ha
    (by rw [hh]; exact fit_defaults _) hk
  rw [List.append_nil] at a5
  refine ⟨_, rfl, ?_, ?_, ?_⟩
  · simp only [automatePimc, hl, a5]; rfl
  · simp only [automatePimc, hl, a5, pimcLoop, List.append_nil, a3]
  · simp only [automatePimc, hl, a5, pimcLoop, List.append_nil, a4]

/-- C129: the program ends with an `AssertionError` at the first data set without a model file: the jobs of the ones
before are submitted, and its own analytical calculations have been started. -/
theorem C129_missing_model (ho : OnServer p m absRoot) (h1 : 1000 ≤ q.samples) (h2 : q.samples ≤ 100000)
    {A N : Nat → Nat} {name : Str} {before after : List (Nat × Nat)} {d r : Nat}
    (hl : p.visits name = .ok (before ++ (d, r) :: after))
    (hv : ∀ x ∈ before ++ (d, r) :: after, p.assertId x.1 = .ok ()) (hm : Models m absRoot A N before)
    (ha : Accepts m before) (hd : m.models (dataDir absRoot d ++ c!"parameters/coupled_model.json") = none)
    (h : Heap) (hh : h .pimc = pimcDefaults) (k : FileStructure.Disk) (hk : k.isDir p.serverRoot = true) :
    ∃ o, automatePimc q p m name h k = o ∧ o.error = some .assertion ∧
      o.commands.map words = calculations q absRoot (before ++ [(d, r)]) ∧
      AsWanted q m absRoot A N (wanted q before) o.jobs := by
  obtain ⟨h', k', cmds, jobs, -, hk', a3, a4, a5⟩ := loop_append (q := q) ho h1 h2 ((d, r) :: after) before h k
    (fun x hx => hv x (by simp [hx])) hm ha (by rw [hh]; exact fit_defaults _) hk
  have hvd : p.assertId d = .ok () := hv (d, r) (by simp)
  obtain ⟨c, hc, hw⟩ := analytic_words (root := p.serverRoot) (r := r) q hvd ho.harmless
  have hd' : Prepare.extractDims (initFS p.serverRoot absRoot d r).pathVibModel m.models = .error .assertion := by
    have : (initFS p.serverRoot absRoot d r).pathVibModel = dataDir absRoot d ++ c!"parameters/coupled_model.json" := by
      rw [initFS_eq ho.root]; simp
    rw [this, Prepare.extractDims, hd]
  have e : pimcLoop q p m ((d, r) :: after) h' k' =
      ⟨h', (initFS p.serverRoot absRoot d r).makeDirectories k', c, [], some .assertion⟩ := by
    rw [pimcLoop, simplePimc_eq ho hvd hk', submitFrom, hc]
    simp only [hd']
  rw [e] at a5
  refine ⟨_, rfl, ?_, ?_, ?_⟩
  · simp only [automatePimc, hl, a5]
  · simp only [automatePimc, hl, a5, List.map_append, a3, hw]
    simp [calculations]
  · simp only [automatePimc, hl, a5, List.append_nil, a4]

/-- C129: when Slurm refuses a job the program ends with an exception: exactly the jobs before it are submitted. -/
theorem C129_refused (ho : OnServer p m absRoot) (h1 : 1000 ≤ q.samples) (h2 : q.samples ≤ 100000)
    {A N : Nat → Nat} {name : Str} {before after : List (Nat × Nat)} {d r K : Nat}
    (hl : p.visits name = .ok (before ++ (d, r) :: after))
    (hv : ∀ x ∈ before ++ (d, r) :: after, p.assertId x.1 = .ok ())
    (hm : Models m absRoot A N (before ++ [(d, r)])) (ha : Accepts m before)
    (hK : K < q.temps.length * q.beads.length)
    (hr : ∀ k < K, ∃ n : Nat, m.reply d r k = some (c!"Submitted batch job " ++ natStr n ++ c!"\n"))
    (hno : m.reply d r K = none)
    (h : Heap) (hh : h .pimc = pimcDefaults) (k : FileStructure.Disk) (hk : k.isDir p.serverRoot = true) :
    ∃ o, automatePimc q p m name h k = o ∧ o.error = some .exception ∧
      o.commands.map words = calculations q absRoot (before ++ [(d, r)]) ∧
      AsWanted q m absRoot A N (wanted q before ++ (wanted q [(d, r)]).take K) o.jobs := by
  obtain ⟨h', k', cmds, jobs, hf, hk', a3, a4, a5⟩ := loop_append (q := q) ho h1 h2 ((d, r) :: after) before h k
    (fun x hx => hv x (by simp [hx])) (fun x hx => hm x (by simp [hx])) ha (by rw [hh]; exact fit_defaults _) hk
  have hvd : p.assertId d = .ok () := hv (d, r) (by simp)
  obtain ⟨c1, hp, jobOf, hw, hf', hdesc, hprep, he⟩ := submitFrom_eq (q := q) (h := h') (r := r)
    (k := (initFS p.serverRoot absRoot d r).makeDirectories k') ho hvd hf h1 h2 (hm (d, r) (by simp))
  have hlen : (pairs q).length = q.temps.length * q.beads.length := by
    unfold pairs
    rw [List.length_flatMap]
    simp
  rw [submitPairs_refused hprep K hr hno (pairs q) [] (by simp) (by simp [hlen, hK])] at he
  have e : pimcLoop q p m ((d, r) :: after) h' k' =
      ⟨hp, (initFS p.serverRoot absRoot d r).makeDirectories k', c1, ((pairs q).take K).map jobOf,
        some .exception⟩ := by
    rw [pimcLoop, simplePimc_eq ho hvd hk', he]
    simp
  rw [e] at a5
  refine ⟨_, rfl, ?_, ?_, ?_⟩
  · simp only [automatePimc, hl, a5]
  · simp only [automatePimc, hl, a5, List.map_append, a3, hw]
    simp [calculations]
  · simp only [automatePimc, hl, a5]
    refine List.rel_append (R := fun (x : Nat × Nat × Nat × Nat) job =>
        Describes q.samples absRoot m.deltaBeta (A x.1) (N x.1) x.1 x.2.1 x.2.2.1 x.2.2.2 job) a4 ?_
    have : (wanted q [(d, r)]).take K = ((pairs q).take K).map fun y => (d, r, y.1, y.2) := by
      simp [wanted, List.map_take]
    rw [this]
    exact asWanted_map _ hdesc

/-- C129: a system that is not listed gets no job and no calculation; on a machine that is not one of the two servers
nothing is started either. -/
theorem C129_nothing_elsewhere (h : Heap) (k : FileStructure.Disk) (name : Str) :
    (p.assertName name = .error .assertion →
      automatePimc q p m name h k = ⟨h, k, [], [], some .assertion⟩) ∧
    (∀ x l, p.visits name = .ok (x :: l) → p.assertId x.1 = .ok () → m.host ≠ c!"nlogn" → m.host ≠ c!"feynman" →
      automatePimc q p m name h k = ⟨h, k, [], [], some .exception⟩) := by
  constructor
  · intro hn
    have : p.visits name = .error .assertion := by
      unfold Project.visits; rw [hn]; rfl
    simp only [automatePimc, this]
  · intro x l hl hv hn hf
    simp only [automatePimc, hl, pimcLoop, simplePimc, hv, Project.chooseRoot, hn, hf, or_self, if_false, Except.map]

/-- C129: the systems of the two projects: every artificial system gets 175 jobs (5 data sets, 5 sampling distributions,
7 numbers of beads), the ones of the paper 18 (6 data sets, 3 sampling distributions), the Jahn-Teller system 24. -/
theorem C129_systems_partial {A N : Nat → Nat} {name : Str} {l : List (Nat × Nat)} (h : Heap)
    (hh : h .pimc = pimcDefaults) (k : FileStructure.Disk) :
    (∀ absRoot, absRoot = c!"/work/ngraymon/pimc/artificial" → OnServer artificial m absRoot →
      artificial.visits name = .ok l → Models m absRoot A N l → Accepts m l →
      k.isDir c!"/work/ngraymon/pimc/artificial/" = true →
      (automatePimc artificialSetting artificial m name h k).error = none ∧
      (automatePimc artificialSetting artificial m name h k).commands.length = 50 ∧
      (automatePimc artificialSetting artificial m name h k).jobs.length = 175) ∧
    (∀ absRoot, absRoot = c!"/work/ngraymon/pimc/paper_2018" → OnServer paper m absRoot →
      paper.visits name = .ok l → Models m absRoot A N l → Accepts m l →
      k.isDir c!"/work/ngraymon/pimc/paper_2018/" = true →
      (automatePimc paperSetting paper m name h k).error = none ∧
      (automatePimc paperSetting paper m name h k).jobs.length = if name = c!"jahnteller" then 24 else 18) := by
  constructor
  · rintro _ rfl ho hl hm ha hk
    have hn : name ∈ [c!"2x2", c!"4x6", c!"7x12"] := by
      by_contra hn
      have : artificial.assertName name = .error .assertion := by
        unfold Project.assertName Project.nameValid
        rw [if_neg]; simpa [artificial] using hn
      unfold Project.visits at hl; rw [this] at hl; cases hl
    have key : (∀ x ∈ l, artificial.assertId x.1 = .ok ()) ∧ l.length = 25 := by
      simp only [List.mem_cons, List.not_mem_nil, or_false] at hn
      rcases hn with rfl | rfl | rfl <;> (cases hl; exact ⟨by decide, by decide⟩)
    obtain ⟨o, h0, h1, h2, h3⟩ := C129_jobs_partial (q := artificialSetting) ho (by decide) (by decide) hl key.1 hm ha
      h hh k hk
    rw [h0]
    refine ⟨h1, ?_, ?_⟩
    · have := congrArg List.length h2
      rw [List.length_map] at this
      rw [this, calculations, List.length_flatMap]
      simp [analyticJobs, artificialSetting, key.2]
    · rw [← h3.length_eq, wanted, List.length_flatMap]
      simp [pairs, artificialSetting, key.2]
  · rintro _ rfl ho hl hm ha hk
    have hn : name ∈ [c!"superimposed", c!"displaced", c!"elevated", c!"jahnteller"] := by
      by_contra hn
      have : paper.assertName name = .error .assertion := by
        unfold Project.assertName Project.nameValid
        rw [if_neg]; simpa [paper] using hn
      unfold Project.visits at hl; rw [this] at hl; cases hl
    have key : (∀ x ∈ l, paper.assertId x.1 = .ok ()) ∧ l.length = if name = c!"jahnteller" then 24 else 18 := by
      simp only [List.mem_cons, List.not_mem_nil, or_false] at hn
      rcases hn with rfl | rfl | rfl | rfl <;> (cases hl; exact ⟨by decide, by decide⟩)
    obtain ⟨o, h0, h1, h2, h3⟩ := C129_jobs_partial (q := paperSetting) ho (by decide) (by decide) hl key.1 hm ha
      h hh k hk
    rw [h0]
    refine ⟨h1, ?_⟩
    rw [← h3.length_eq, wanted, List.length_flatMap]
    simp [pairs, paperSetting, key.2]

/-- The data sets and sampling distributions of the first system of each project. -/
def firstArtificial : List (Nat × Nat) := [11, 12, 13, 14, 15].flatMap fun d => [0, 1, 2, 3, 4].map fun r => (d, r)

/-- The data sets and sampling distributions of the first system of each project. -/
def firstPaper : List (Nat × Nat) := [11, 12, 13, 14, 15, 16].flatMap fun d => [0, 1, 11].map fun r => (d, r)

/-- C129: run as they are, the two programs submit the jobs of the first system of their project, all of them and in
order, and none of another system. -/
theorem C129_program_partial {A N : Nat → Nat} (h : Heap) (hh : h .pimc = pimcDefaults) (k : FileStructure.Disk) :
    (OnServer artificial m absRoot → Models m absRoot A N firstArtificial → Accepts m firstArtificial →
      k.isDir c!"/work/ngraymon/pimc/artificial/" = true →
      ∃ o, artificialMain m h k = o ∧ o.error = none ∧
        o.commands.map words = calculations artificialSetting absRoot firstArtificial ∧
        AsWanted artificialSetting m absRoot A N (wanted artificialSetting firstArtificial) o.jobs) ∧
    (OnServer paper m absRoot → Models m absRoot A N firstPaper → Accepts m firstPaper →
      k.isDir c!"/work/ngraymon/pimc/paper_2018/" = true →
      ∃ o, paperMain m h k = o ∧ o.error = none ∧
        o.commands.map words = calculations paperSetting absRoot firstPaper ∧
        AsWanted paperSetting m absRoot A N (wanted paperSetting firstPaper) o.jobs) := by
  constructor
  · intro ho hm ha hk
    exact C129_jobs_partial (q := artificialSetting) (name := c!"2x2") ho (by decide) (by decide) rfl (by decide) hm ha
      h hh k hk
  · intro ho hm ha hk
    exact C129_jobs_partial (q := paperSetting) (name := c!"superimposed") ho (by decide) (by decide) rfl (by decide)
      hm ha h hh k hk

theorem setup_keeps (d : JobBoss.Dict) (k : Str) (hk : k ∉ setupKeys) : (setup d).1 k = d k := by
  simp only [setupKeys, List.mem_cons, List.not_mem_nil, or_false, not_or] at hk
  obtain ⟨h1, h2, h3, h4⟩ := hk
  unfold setup
  split
  · rfl
  · rfl
  · split
    · rfl
    · split
      · rfl
      · simp only
        split
        · simp [JobBoss.Dict.set, h1, h2, h3, h4]
        · split
          · simp [JobBoss.Dict.set, h1, h2, h3, h4]
          · simp only
            split <;> simp [JobBoss.Dict.set, h1, h2, h3, h4]
          · simp [JobBoss.Dict.set, h1, h2, h3, h4]
  · rfl

theorem prepareJob_keeps {host : Str} {partitions : Str → Bool} {d : JobBoss.Dict} {T P : PVal} {job : Job}
    (h : prepareJob host partitions d T P = .ok job) (k : Str) (hk : k ∉ jobKeys) : job.params k = d k := by
  simp only [jobKeys, List.mem_cons, List.not_mem_nil, or_false, not_or] at hk
  obtain ⟨a1, a2, a3, a4, a5, a6⟩ := hk
  have fin : ∀ (x : JobBoss.Dict), x k = d k → (∃ h', (do
      let h ← nodeHost h'
      let p := x.set c!"hostname" (.str h)
      let name ← jobName p
      (.ok ⟨p.set c!"job_name" (.str name), name⟩ : Except Err Job)) = .ok job) → job.params k = d k := by
    rintro x hx ⟨h', h⟩
    simp only [bind, Except.bind] at h
    split at h
    · cases h
    · split at h
      · cases h
      · cases h
        simp [JobBoss.Dict.set, a4, a6, hx]
  simp only [prepareJob, bind, Except.bind] at h
  split at h
  · cases h
  · split at h
    · cases h
    · have hx : ∀ (c1 c2 : Prop) [Decidable c1] [Decidable c2] (v1 v2 : PVal) (y : JobBoss.Dict), y k = d k →
          (if c2 then (if c1 then y.set c!"partition" v1 else y).set c!"partition" v2
            else (if c1 then y.set c!"partition" v1 else y)) k = d k := by
        intro c1 c2 _ _ v1 v2 y hy
        split_ifs <;> simp [JobBoss.Dict.set, a5, hy]
      have hy : ((((d.set c!"number_of_beads" P).set c!"number_of_links" P).set c!"temperature" T).set c!"hostname"
          (.str host)) k = d k := by simp [JobBoss.Dict.set, a1, a2, a3, a4]
      split at h
      · next s _ =>
        by_cases hps : partitions s = false
        · rw [if_pos hps] at h; cases h
        · rw [if_neg hps] at h
          exact fin _ (hx _ _ _ _ _ hy) ⟨host, h⟩
      · exact fin _ (hx _ _ _ _ _ hy) ⟨host, h⟩
      · cases h

theorem submitMany_own {reply : Replies} {job : Job} {Q : Job → Prop} (hj : Q job) : ∀ (n : Nat) (log : List Job),
    (∀ j ∈ log, Q j) → ∀ j ∈ (submitMany reply job n log).1, Q j
  | 0, _, h => h
  | n + 1, log, h => by
    have h' : ∀ j ∈ log ++ [job], Q j := by
      intro j hm
      rcases List.mem_append.1 hm with hm | hm
      · exact h j hm
      · rw [List.mem_singleton.1 hm]; exact hj
    unfold submitMany
    split
    · exact h
    · split
      · exact h'
      · exact submitMany_own hj n _ h'

theorem submitPairs_own {host : Str} {partitions : Str → Bool} {reply : Replies} {d : JobBoss.Dict} {n : Nat}
    {Q : Job → Prop} (hQ : ∀ T P job, prepareJob host partitions d T P = .ok job → Q job) :
    ∀ (l : List (PVal × PVal)) (log : List Job), (∀ j ∈ log, Q j) →
      ∀ j ∈ (submitPairs host partitions reply d n l log).1, Q j
  | [], _, h => h
  | (T, P) :: rest, log, h => by
    unfold submitPairs
    split
    · exact h
    · next job hj =>
      have hm := submitMany_own (reply := reply) (hQ T P job hj) n log h
      split
      · next e => rw [e] at hm; exact hm
      · next e => rw [e] at hm; exact submitPairs_own hQ rest _ hm

theorem submitJobs_own {host : Str} {partitions : Str → Bool} {reply : Replies} (d : JobBoss.Dict) (k : Str)
    (h1 : k ∉ setupKeys) (h2 : k ∉ jobKeys) :
    ∀ j ∈ (submitJobs host partitions reply d).2.1, j.params k = d k := by
  have hs := setup_keeps d k h1
  unfold submitJobs
  split
  · simp
  · next d' n e =>
    rw [e] at hs
    split
    · exact submitPairs_own (Q := fun j => j.params k = d k)
        (fun T P job hj => (prepareJob_keeps hj k h2).trans hs) _ [] (by simp)
    · simp
    · simp
    · simp

theorem submitFrom_own (h : Heap) (s : FS) (k : FileStructure.Disk) (d r : Nat) :
    ∀ j ∈ (submitFrom q p m h s k d r).jobs,
      j.params c!"id_data" = some (.int d) ∧ j.params c!"id_rho" = some (.int r) := by
  unfold submitFrom
  split
  · simp
  · split
    · simp
    · next A N e =>
      intro j hj
      have key : ∀ k, k ∉ setupKeys → k ∉ jobKeys → j.params k = made q m s h A N d r k := fun k a b =>
        submitJobs_own _ k a b j hj
      exact ⟨key _ (by decide) (by decide), key _ (by decide) (by decide)⟩

theorem simplePimc_own (root : Option (Str × Str)) (h : Heap) (k : FileStructure.Disk) (d r : Nat) :
    ∀ j ∈ (simplePimc q p m root h k d r).jobs,
      j.params c!"id_data" = some (.int d) ∧ j.params c!"id_rho" = some (.int r) := by
  unfold simplePimc
  split
  · simp
  · split
    · simp
    · split
      · simp
      · exact submitFrom_own _ _ _ _ _

/-- C129: on whatever machine the program runs and however it ends, with whatever is left in the shared dictionary, each
job that it has submitted belongs to a data set and sampling distribution of the system it was run for. -/
theorem C129_own_jobs (h : Heap) (k : FileStructure.Disk) (name : Str) :
    ∀ j ∈ (automatePimc q p m name h k).jobs, ∃ l d r, p.visits name = .ok l ∧ (d, r) ∈ l ∧
      j.params c!"id_data" = some (.int d) ∧ j.params c!"id_rho" = some (.int r) := by
  have key : ∀ (l : List (Nat × Nat)) (h : Heap) (k : FileStructure.Disk), ∀ j ∈ (pimcLoop q p m l h k).jobs,
      ∃ d r, (d, r) ∈ l ∧ j.params c!"id_data" = some (.int d) ∧ j.params c!"id_rho" = some (.int r) := by
    intro l
    induction l with
    | nil => intro h k j hj; simp [pimcLoop] at hj
    | cons x l ih =>
      obtain ⟨d, r⟩ := x
      intro h k j hj
      simp only [pimcLoop] at hj
      split at hj
      · obtain ⟨a, b⟩ := simplePimc_own _ _ _ _ _ j hj
        exact ⟨d, r, by simp, a, b⟩
      · rcases List.mem_append.1 hj with hj | hj
        · obtain ⟨a, b⟩ := simplePimc_own _ _ _ _ _ j hj
          exact ⟨d, r, by simp, a, b⟩
        · obtain ⟨d', r', hm, a, b⟩ := ih _ _ j hj
          exact ⟨d', r', List.mem_cons_of_mem _ hm, a, b⟩
  intro j hj
  unfold automatePimc at hj
  split at hj
  · simp at hj
  · next l e =>
    obtain ⟨d, r, hm, a, b⟩ := key _ _ _ j hj
    exact ⟨l, d, r, e, hm, a, b⟩

/-- C129: so the two programs never submit a job for another system than the first of their project. -/
theorem C129_program_own_jobs (h : Heap) (k : FileStructure.Disk) :
    (∀ j ∈ (artificialMain m h k).jobs, ∃ x ∈ firstArtificial,
      j.params c!"id_data" = some (.int x.1) ∧ j.params c!"id_rho" = some (.int x.2)) ∧
    (∀ j ∈ (paperMain m h k).jobs, ∃ x ∈ firstPaper,
      j.params c!"id_data" = some (.int x.1) ∧ j.params c!"id_rho" = some (.int x.2)) := by
  constructor <;> intro j hj
  · obtain ⟨l, d, r, hl, hm, a, b⟩ := C129_own_jobs (q := artificialSetting) (p := artificial) h k c!"2x2" j hj
    have : Except.ok firstArtificial = (Except.ok l : Except Err _) := hl
    cases this
    exact ⟨(d, r), hm, a, b⟩
  · obtain ⟨l, d, r, hl, hm, a, b⟩ := C129_own_jobs (q := paperSetting) (p := paper) h k c!"superimposed" j hj
    have : Except.ok firstPaper = (Except.ok l : Except Err _) := hl
    cases this
    exact ⟨(d, r), hm, a, b⟩

/-- C129: what is asked for with every data set and sampling distribution: 300 K; 100000 samples with seven numbers of
beads and two calculations for the artificial systems, 10000 samples with 50 beads and one calculation for the paper.
The names of the calculations of the paper do not tell the sampling distributions apart. -/
theorem C129_settings (absRoot : Str) (d r : Nat) :
    pairs artificialSetting = [(30000, 50), (30000, 100), (30000, 150), (30000, 200), (30000, 300), (30000, 400),
      (30000, 500)] ∧ artificialSetting.samples = 100000 ∧
    analyticJobs artificialSetting absRoot d r =
      [srunPlain (c!"analytic_D" ++ natStr d ++ c!"_T300.00")
        (analyticProgram absRoot c!"analytic_of_coupled_model" d r 30000),
       srunPlain (c!"analytic_D" ++ natStr d ++ c!"_R" ++ natStr r ++ c!"_T300.00")
        (analyticProgram absRoot c!"analytic_of_sampling_model" d r 30000)] ∧
    pairs paperSetting = [(30000, 50)] ∧ paperSetting.samples = 10000 ∧
    analyticJobs paperSetting absRoot d r =
      [srunPlain (c!"analytic_D" ++ natStr d ++ c!"_T300.00")
        (analyticProgram absRoot c!"analytic_of_sampling_model" d r 30000)] := by
  have ht : tempStr 30000 = c!"300.00" := by decide +kernel
  refine ⟨rfl, rfl, ?_, rfl, rfl, ?_⟩ <;> simp [analyticJobs, artificialSetting, paperSetting, ht]

/-- C129 is false of the artificial systems: with every data set and sampling distribution a calculation is started
whose program calls a function that the package does not have (the other one has its function). -/
theorem C129_no_such_function_refuted (absRoot : Str) (d r : Nat) :
    ∃ program, srunPlain (c!"analytic_D" ++ natStr d ++ c!"_T300.00") program ∈ analyticJobs artificialSetting absRoot d r ∧
      (∃ start, program = start ++ c!"pibronic.julia_wrapper.analytic_of_coupled_model(FS, b);") ∧
      c!"analytic_of_coupled_model" ∉ juliaWrapperFunctions ∧
      c!"analytic_of_sampling_model" ∈ juliaWrapperFunctions := by
  have ht : tempStr 30000 = c!"300.00" := by decide +kernel
  refine ⟨analyticProgram absRoot c!"analytic_of_coupled_model" d r 30000, ?_, ?_, by decide, by decide⟩
  · simp [analyticJobs, artificialSetting, ht]
  · refine ⟨c!"import pibronic;from pibronic.data import file_structure as fs;from pibronic import julia_wrapper as jw;from pibronic.constants import beta;b = beta(" ++
      tempStr 30000 ++ c!");FS = fs.FileStructure(\"" ++ absRoot ++ c!"\", " ++ natStr d ++ c!", " ++ natStr r ++
      c!");FS.generate_model_hashes();jw.prepare_julia();", ?_⟩
    unfold analyticProgram
    simp only [List.append_assoc]
    rfl

end

/-! ### A case that meets the hypotheses -/

/-- The server, with a model of two surfaces and three modes in every data set. -/
noncomputable def server (p : Project) : Machine where
  host := c!"nlogn"
  slurmHost := c!"nlogn"
  partitions := fun _ => true
  absolute := fun s => s.dropLast
  models := fun _ => some [(ModelIO.nameN, .int 3), (ModelIO.nameA, .int 2)]
  deltaBeta := .none
  reply := fun d r k => some (c!"Submitted batch job " ++ natStr (1000 * d + 10 * r + k) ++ c!"\n")

theorem server_ok (p : Project) (hp : p = artificial ∨ p = paper) :
    OnServer p (server p) p.serverRoot.dropLast := by
  refine ⟨.inl rfl, .inr (.inl rfl), fun _ => rfl, rfl, ?_, ?_, ?_⟩
  · rcases hp with rfl | rfl <;> (unfold RootOk; decide)
  · rcases hp with rfl | rfl
    · exact ⟨[c!"work", c!"ngraymon", c!"pimc", c!"artificial"], by decide, by decide, by decide⟩
    · exact ⟨[c!"work", c!"ngraymon", c!"pimc", c!"paper_2018"], by decide, by decide, by decide⟩
  · rcases hp with rfl | rfl <;> (unfold Harmless; decide)

/-- Everything that `C129_jobs_partial` and `C129_systems_partial` ask for, for the system 2x2. -/
example : ∃ l, artificial.visits c!"2x2" = .ok l ∧ (∀ x ∈ l, artificial.assertId x.1 = .ok ()) ∧
    Models (server artificial) c!"/work/ngraymon/pimc/artificial" (fun _ => 2) (fun _ => 3) l ∧
    Accepts (server artificial) l ∧ l.length = 25 :=
  ⟨_, rfl, by decide, fun _ _ => rfl, fun _ _ _ => ⟨_, rfl⟩, by decide⟩

/-- Everything that `C129_program_partial` asks for. -/
example : OnServer paper (server paper) c!"/work/ngraymon/pimc/paper_2018" ∧
    Models (server paper) c!"/work/ngraymon/pimc/paper_2018" (fun _ => 2) (fun _ => 3) firstPaper ∧
    Accepts (server paper) firstPaper ∧ OnServer artificial (server artificial) c!"/work/ngraymon/pimc/artificial" ∧
    Models (server artificial) c!"/work/ngraymon/pimc/artificial" (fun _ => 2) (fun _ => 3) firstArtificial ∧
    Accepts (server artificial) firstArtificial :=
  ⟨server_ok paper (.inr rfl), fun _ _ => rfl, fun _ _ _ => ⟨_, rfl⟩, server_ok artificial (.inl rfl), fun _ _ => rfl,
    fun _ _ _ => ⟨_, rfl⟩⟩

/-- A run with jobs, for `C129_own_jobs` and `C129_program_own_jobs`. -/
example (k : FileStructure.Disk) (hk : k.isDir c!"/work/ngraymon/pimc/artificial/" = true) :
    (artificialMain (server artificial) (fun _ => pimcDefaults) k).jobs.length = 175 := by
  obtain ⟨o, h1, -, -, h2⟩ := (C129_program_partial (m := server artificial)
    (absRoot := c!"/work/ngraymon/pimc/artificial") (A := fun _ => 2) (N := fun _ => 3) (fun _ => pimcDefaults) rfl k).1
    (server_ok artificial (.inl rfl)) (fun _ _ => rfl) (fun _ _ _ => ⟨_, rfl⟩) hk
  rw [h1, ← h2.length_eq]
  rfl

/-- A system with a data set after two others, and a server that refuses the third job. -/
example : ∃ before after, paper.visits c!"superimposed" = .ok (before ++ (12, 1) :: after) ∧ before.length = 4 :=
  ⟨[(11, 0), (11, 1), (11, 11), (12, 0)],
   [(12, 11), (13, 0), (13, 1), (13, 11), (14, 0), (14, 1), (14, 11), (15, 0), (15, 1), (15, 11), (16, 0), (16, 1), (16, 11)],
   rfl, rfl⟩

/-- The model files without the one of the data set 12. -/
def without12 : ModelIO.Disk ℝ := fun path =>
  if path = dataDir c!"/work/ngraymon/pimc/paper_2018" 12 ++ c!"parameters/coupled_model.json" then none
  else some [(ModelIO.nameN, .int 3), (ModelIO.nameA, .int 2)]

/-- A server on which the model of the data set 12 is missing, the ones before are there. -/
example : ∃ m : Machine, OnServer paper m c!"/work/ngraymon/pimc/paper_2018" ∧
    Models m c!"/work/ngraymon/pimc/paper_2018" (fun _ => 2) (fun _ => 3) [(11, 0), (11, 1), (11, 11)] ∧
    Accepts m [(11, 0), (11, 1), (11, 11)] ∧
    m.models (dataDir c!"/work/ngraymon/pimc/paper_2018" 12 ++ c!"parameters/coupled_model.json") = none := by
  have hs := server_ok paper (.inr rfl)
  refine ⟨{ server paper with models := without12 },
    ⟨hs.host, hs.slurm, hs.partitions, hs.absolute, hs.root, hs.isRoot, hs.harmless⟩, ?_,
    fun _ _ _ => ⟨_, rfl⟩, by simp [without12]⟩
  intro x hx
  have h11 : dataDir c!"/work/ngraymon/pimc/paper_2018" 11 ++ c!"parameters/coupled_model.json" ≠
    dataDir c!"/work/ngraymon/pimc/paper_2018" 12 ++ c!"parameters/coupled_model.json" := by decide +kernel
  have hx1 : x.1 = 11 := by
    simp only [List.mem_cons, List.not_mem_nil, or_false] at hx
    rcases hx with rfl | rfl | rfl <;> rfl
  rw [hx1, Prepare.extractDims]
  simp only [without12, if_neg h11]
  rfl

example : ∃ reply : Replies, (∀ k < 2, ∃ n : Nat, reply k = some (c!"Submitted batch job " ++ natStr n ++ c!"\n")) ∧
    reply 2 = none ∧ 2 < artificialSetting.temps.length * artificialSetting.beads.length :=
  ⟨fun k => if k < 2 then some (c!"Submitted batch job " ++ natStr k ++ c!"\n") else none,
   fun k hk => ⟨k, by simp [hk]⟩, by simp, by decide⟩

end Pibronic.Props.ExamplesPimc
