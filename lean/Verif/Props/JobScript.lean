import Verif.Model.JobScript
import Verif.Model.FileName
import Verif.Lemmas.Str
import Verif.Props.JobBoss

set_option autoImplicit false

/-!
Properties C94 (the command handed to Slurm) and C95 (where the results of a job go).
-/
namespace Pibronic.Props.JobScript
open Pibronic.Py Pibronic.JobBoss Pibronic.JobScript

/-! ### C94: the command -/

/-- C94: the name of a job with `.o` and its number, which is what the option `--output` asks for, is the name that
the naming conventions give to the output of the run: `D1_R0_P12_T300.00.o4711`. -/
theorem C94_output_file (d : Dict) (D R P T id : Nat) (h1 : d c!"id_data" = some (.int D))
    (h2 : d c!"id_rho" = some (.int R)) (h3 : d c!"number_of_beads" = some (.int P))
    (h4 : d c!"temperature" = some (.float T)) :
    ∃ name, jobName d = .ok name ∧
      name ++ c!".o" ++ natStr id
        = FileName.executionOutput (natStr D) (natStr R) (natStr P) (tempStr T) (natStr id) ∧
      name ++ c!".o" ++ natStr id
        = c!"D" ++ natStr D ++ c!"_R" ++ natStr R ++ c!"_P" ++ natStr P ++ c!"_T" ++ tempStr T ++ c!".o" ++ natStr id := by
  refine ⟨c!"D" ++ natStr D ++ c!"_R" ++ natStr R ++ c!"_P" ++ natStr P ++ c!"_T" ++ tempStr T, ?_, ?_, rfl⟩
  · simp [jobName, Dict.get, h1, h2, h3, h4, bind, Except.bind, fieldInt, fieldFloat]
  · rfl

/-- Two texts that end at the first character `c` are equal when they and what follows agree. -/
private theorem cut {c : Char} : ∀ {a b x y : Str}, c ∉ a → c ∉ b → a ++ c :: x = b ++ c :: y → a = b ∧ x = y
  | [], [], _, _, _, _, h => ⟨rfl, by simpa using h⟩
  | [], b :: bs, _, _, _, hb, h => by
    simp only [List.nil_append, List.cons_append, List.cons.injEq] at h
    exact absurd (by simp [h.1]) hb
  | a :: as, [], _, _, ha, _, h => by
    simp only [List.nil_append, List.cons_append, List.cons.injEq] at h
    exact absurd (by simp [h.1]) ha
  | a :: as, b :: bs, x, y, ha, hb, h => by
    simp only [List.cons_append, List.cons.injEq] at h
    obtain ⟨e1, e2⟩ := cut (fun m => ha (by simp [m])) (fun m => hb (by simp [m])) h.2
    exact ⟨by rw [h.1, e1], e2⟩

/-- C94: different jobs have different output files, whatever their data set, sampling model, beads and temperature. -/
theorem C94_outputs_differ {D R P T id D' R' P' T' id' : Nat}
    (h : FileName.executionOutput (natStr D) (natStr R) (natStr P) (tempStr T) (natStr id)
      = FileName.executionOutput (natStr D') (natStr R') (natStr P') (tempStr T') (natStr id')) :
    D = D' ∧ R = R' ∧ P = P' ∧ T = T' ∧ id = id' := by
  have n : ∀ k, '_' ∉ natStr k := fun k => notMem_natStr (by decide) k
  have o : ∀ k, 'o' ∉ tempStr k ++ ['.'] := fun k => by simp [notMem_tempStr, digitVal]
  have t : ∀ k, '_' ∉ tempStr k := fun k => by simp [notMem_tempStr, digitVal]
  simp only [FileName.executionOutput, List.append_assoc, List.cons_append, List.nil_append, List.cons.injEq, true_and] at h
  obtain ⟨e1, h⟩ := cut (n D) (n D') h
  simp only [List.cons.injEq, true_and] at h
  obtain ⟨e2, h⟩ := cut (n R) (n R') h
  simp only [List.cons.injEq, true_and] at h
  obtain ⟨e3, h⟩ := cut (n P) (n P') h
  simp only [List.cons.injEq, true_and] at h
  have h' : (tempStr T ++ ['.']) ++ 'o' :: natStr id = (tempStr T' ++ ['.']) ++ 'o' :: natStr id' := by
    simpa using h
  obtain ⟨e4, e5⟩ := cut (o T) (o T') h'
  exact ⟨natStr_injective e1, natStr_injective e2, natStr_injective e3,
    tempStr_injective (List.append_cancel_right e4), natStr_injective e5⟩

/-- The parameters of a job that occur in its command. -/
structure Filled (f : Family) (d : Dict) (name rho scratch script partition wait : Str)
    (cpus cores memory : Nat) : Prop where
  name : d c!"job_name" = some (.str name)
  rho : d c!"path_rho" = some (.str rho)
  scratch : d c!"path_scratch" = some (.str scratch)
  script : d c!"script_name" = some (.str script)
  partition : f = .nlogn → d c!"partition" = some (.str partition)
  wait : d c!"wait_param" = some (.str wait)
  cpus : d c!"cpus_per_task" = some (.int cpus)
  cores : d c!"cores_per_socket" = some (.int cores)
  memory : d c!"memory_per_node" = some (.int memory)

/-- Words with a blank between them. -/
def words (ws : List Str) : Str := List.intercalate [' '] ws

/-- The option that sets the variables of the job's environment. -/
def exports (vs : List (Str × Str)) : Str :=
  c!"--export=" ++ List.intercalate [','] (vs.map fun v => v.1 ++ '=' :: v.2)

set_option maxRecDepth 8000 in
/-- The command has these words, in this order: the name, the resources, the directories and the
variables are those of the job.  What is wrong with the three paths is below. -/
theorem C94_command_partial (f : Family) (d : Dict) (file osFile json : Str)
    (name rho scratch script partition wait : Str) (cpus cores memory : Nat)
    (h : Filled f d name rho scratch script partition wait cpus cores memory) :
    ∃ interpreter sampling job,
      command f file osFile json d = .ok (words (
        [c!"sbatch", c!"-m", c!"n", c!"--ntasks=1", c!"--job-name=" ++ name] ++
        (if f = .nlogn then [c!"--partition=" ++ partition] else []) ++
        [c!"-D", rho ++ c!"execution_output/",
         c!"--output=" ++ rho ++ c!"execution_output/" ++ name ++ c!".o%A",
         c!"--cpus-per-task=" ++ natStr cpus, c!"--cores-per-socket=" ++ natStr cores,
         c!"--mem=" ++ natStr memory ++ c!"G"] ++
        (if f = .nlogn then [] else [c!"--account=rrg-pnroy"]) ++
        [wait, [],
         exports [(c!"ROOT_DIR", rho), (c!"SCRATCH_DIR", scratch),
           (c!"COPY_FROM", if f = .nlogn then c!"\"" ++ scratch ++ c!"results/\""
             else c!"\"" ++ scratch ++ c!"results/" ++ name ++ c!"_J\""),
           (c!"COPY_TO", c!"\"" ++ rho ++ c!"results/\""),
           (c!"PYTHON3_PATH", interpreter), (c!"SAMPLING_SCRIPT", sampling),
           (c!"EXECUTION_PARAMETERS", c!"'" ++ json ++ c!"'")],
         job])) ∧
      interpreter = osFile ∧ sampling = file ++ f.dir ++ c!"/" ++ script ∧
      job = file ++ f.dir ++ c!"/pimc_job.sh" := by
  refine ⟨_, _, _, ?_, rfl, rfl, rfl⟩
  cases f with
  | nlogn =>
    have hp := h.partition rfl
    simp [command, exportOptions, partitionOption, accountOption, copyFrom, Dict.get, h.name, h.rho,
      h.scratch, h.script, hp, h.wait, h.cpus, h.cores, h.memory, bind, Except.bind, fieldStr,
      fieldAny, fieldInt, words, exports, List.intercalate, List.intersperse, pythonExecutable,
      jobBossDirectory]
  | computeCanada =>
    simp [command, exportOptions, partitionOption, accountOption, copyFrom, Dict.get, h.name, h.rho,
      h.scratch, h.script, h.wait, h.cpus, h.cores, h.memory, bind, Except.bind, fieldStr,
      fieldAny, fieldInt, words, exports, List.intercalate, List.intersperse, pythonExecutable,
      jobBossDirectory]

set_option maxRecDepth 8000 in
/-- The scripts are not where the command looks for them: the package holds them beside the file
`job_boss.py`, in `dir`, while the command asks for a file below `job_boss.py` itself, for every
directory the package may be installed in. -/
theorem C94_scripts_refuted (f : Family) (d : Dict) (dir osFile json : Str)
    (name rho scratch script partition wait : Str) (cpus cores memory : Nat)
    (h : Filled f d name rho scratch script partition wait cpus cores memory) :
    ∃ before job, command f (dir ++ c!"/job_boss.py") osFile json d = .ok (before ++ ' ' :: job) ∧
      dir ++ c!"/job_boss.py/" <+: job ∧ job ≠ dir ++ f.dir ++ c!"/pimc_job.sh" ∧
      (c!",SAMPLING_SCRIPT=" ++ dir ++ c!"/job_boss.py/") <:+: before := by
  obtain ⟨i, sa, jo, hc, hi, hsa, hjo⟩ := C94_command_partial f d (dir ++ c!"/job_boss.py") osFile
    json name rho scratch script partition wait cpus cores memory h
  subst hi hsa hjo
  rw [hc]
  have hwords : ∀ (ws : List Str) (x y : Str), words (ws ++ [x, y]) = words (ws ++ [x]) ++ ' ' :: y := by
    intro ws x y
    induction ws with
    | nil => simp [words, List.intercalate]
    | cons w ws ih =>
      have step : ∀ (l : List Str), l ≠ [] → words (w :: l) = w ++ ' ' :: words l := by
        intro l hl
        cases l with
        | nil => exact absurd rfl hl
        | cons a l => simp [words, List.intercalate]
      rw [List.cons_append, List.cons_append, step _ (by simp), step _ (by simp), ih]
      simp
  have hsplit : ∀ (ws : List Str) (e x y : Str), words (ws ++ [e, [], x, y])
      = words (ws ++ [e, [], x]) ++ ' ' :: y := by
    intro ws e x y
    have := hwords (ws ++ [e, []]) x y
    simpa using this
  rw [hsplit]
  refine ⟨_, _, rfl, ?_, ?_, ?_⟩
  · cases f
    · exact ⟨c!"nlogn_feynman/pimc_job.sh", by simp [Family.dir]⟩
    · exact ⟨c!"compute_canada/pimc_job.sh", by simp [Family.dir]⟩
  · intro he
    have := congrArg List.length he
    cases f <;> simp [Family.dir] at this
  · have hmem : ∀ (ws : List Str) (x : Str), ∃ p, words (ws ++ [x]) = p ++ x := by
      intro ws x
      induction ws with
      | nil => exact ⟨[], by simp [words, List.intercalate]⟩
      | cons w ws ih =>
        obtain ⟨p, hp⟩ := ih
        have step : words (w :: (ws ++ [x])) = w ++ ' ' :: words (ws ++ [x]) := by
          cases hl : ws ++ [x] with
          | nil => simp at hl
          | cons a l => simp [words, List.intercalate]
        exact ⟨w ++ ' ' :: p, by rw [List.cons_append, step, hp]; simp⟩
    have hmem' : ∀ (ws : List Str) (e x : Str), ∃ p, words (ws ++ [e, [], x]) = p ++ x := by
      intro ws e x
      have := hmem (ws ++ [e, []]) x
      simpa using this
    obtain ⟨p, hp⟩ := hmem' _ _ _
    rw [hp]
    refine List.IsInfix.trans ?_ (List.suffix_append p _).isInfix
    cases f
    · refine ⟨c!"--export=ROOT_DIR=" ++ rho ++ c!",SCRATCH_DIR=" ++ scratch ++ c!",COPY_FROM=\"" ++
          scratch ++ c!"results/\",COPY_TO=\"" ++ rho ++ c!"results/\",PYTHON3_PATH=" ++ i,
        c!"nlogn_feynman/" ++ script ++ c!",EXECUTION_PARAMETERS='" ++ json ++ c!"'", ?_⟩
      simp [exports, List.intercalate, List.intersperse, Family.dir]
    · refine ⟨c!"--export=ROOT_DIR=" ++ rho ++ c!",SCRATCH_DIR=" ++ scratch ++ c!",COPY_FROM=\"" ++
          scratch ++ c!"results/" ++ name ++ c!"_J\",COPY_TO=\"" ++ rho ++
          c!"results/\",PYTHON3_PATH=" ++ i,
        c!"compute_canada/" ++ script ++ c!",EXECUTION_PARAMETERS='" ++ json ++ c!"'", ?_⟩
      simp [exports, List.intercalate, List.intersperse, Family.dir]

/-- parameters of a job on nlogn -/
def someParams : Dict := fun k =>
  if k = c!"job_name" then some (.str c!"D1_R0_P12_T300.00")
  else if k = c!"path_rho" then some (.str c!"/work/data_set_1/rho_0/")
  else if k = c!"path_scratch" then some (.str c!"/scratch/data_set_1/rho_0/")
  else if k = c!"script_name" then some (.str c!"pimc.py")
  else if k = c!"partition" then some (.str c!"serial")
  else if k = c!"wait_param" then some (.str [])
  else if k = c!"cpus_per_task" then some (.int 4)
  else if k = c!"cores_per_socket" then some (.int 4)
  else if k = c!"memory_per_node" then some (.int 20)
  else none

example : Filled .nlogn someParams c!"D1_R0_P12_T300.00" c!"/work/data_set_1/rho_0/"
    c!"/scratch/data_set_1/rho_0/" c!"pimc.py" c!"serial" [] 4 4 20 := by
  constructor <;> simp [someParams]

/-- C94: nothing is submitted with an incomplete dictionary: a parameter that is missing is a `KeyError`,
and a path or name that is `None` or a list a `TypeError`, one that is a number a `ValueError`. -/
theorem C94_incomplete (f : Family) (d : Dict) (file osFile json : Str)
    (name rho scratch script partition wait : Str) (cpus cores memory : Nat)
    (h : Filled f d name rho scratch script partition wait cpus cores memory) :
    (∀ key, (key ∈ [c!"path_rho", c!"path_scratch", c!"job_name", c!"script_name", c!"cpus_per_task",
        c!"cores_per_socket", c!"memory_per_node", c!"wait_param"] ∨ f = .nlogn ∧ key = c!"partition") →
      command f file osFile json (fun k => if k = key then none else d k) = .error .key) ∧
    (∀ key, (key ∈ [c!"path_rho", c!"path_scratch", c!"job_name", c!"wait_param"] ∨
        f = .nlogn ∧ key = c!"partition") →
      command f file osFile json (d.set key .none) = .error .type ∧
      (∀ l, command f file osFile json (d.set key (.ints l)) = .error .type ∧
        command f file osFile json (d.set key (.floats l)) = .error .type) ∧
      ∀ n, command f file osFile json (d.set key (.int n)) = .error .value ∧
        command f file osFile json (d.set key (.float n)) = .error .value) := by
  have hp := h.partition
  constructor <;> intro key hk <;> cases f <;>
    simp only [List.mem_cons, List.not_mem_nil, or_false, reduceCtorEq, false_and, true_and] at hk <;>
    repeat' (first | (rcases hk with hk | hk) | subst hk)
  all_goals
    simp [command, exportOptions, partitionOption, Dict.get, Dict.set, h.name, h.rho, h.scratch, h.script,
      h.wait, h.cpus, h.cores, h.memory, hp, bind, Except.bind, fieldStr, fieldAny, fieldInt]

/-- C94: four servers are known, two of each kind; every other is refused. -/
theorem C94_servers (host : Str) :
    familyOf host =
      if host ∈ [c!"feynman", c!"nlogn"] then .ok .nlogn
      else if host ∈ [c!"graham", c!"orca"] then .ok .computeCanada
      else .error .exception := by
  unfold familyOf
  simp only [List.mem_cons, List.not_mem_nil, or_false]

/-! ### C95: where the results of a job go -/

/-- An absolute path in normal form, other than the root of the file system. -/
def IsRoot (root : Str) : Prop :=
  ∃ comps : List Str, comps ≠ [] ∧
    (∀ c ∈ comps, c ≠ [] ∧ '/' ∉ c ∧ c ≠ c!"." ∧ c ≠ c!"..") ∧
    root = comps.flatMap fun c => '/' :: c

theorem join_split (c : Char) (cs : Str) : ∀ s : Str,
    List.intercalate (c :: cs) (split (c :: cs) s) = s := by
  intro s
  induction hn : s.length using Nat.strongRecOn generalizing s with
  | _ n ih =>
    cases hf : find (c :: cs) s with
    | none => rw [split_of_find_none _ _ _ hf]; simp [List.intercalate]
    | some pr =>
      obtain ⟨a, b⟩ := pr
      rw [split_of_find _ _ _ _ _ hf]
      have hs := find_eq hf
      have hb := ih b.length (by rw [← hn, hs]; simp; omega) b rfl
      have hne : split (c :: cs) b ≠ [] := by
        cases hf' : find (c :: cs) b with
        | none => rw [split_of_find_none _ _ _ hf']; simp
        | some pr => rw [split_of_find _ _ _ _ _ hf']; simp
      cases hsp : split (c :: cs) b with
      | nil => exact absurd hsp hne
      | cons x l =>
        rw [hsp] at hb
        rw [hs]
        conv_rhs => rw [← hb]
        simp [List.intercalate]

theorem dropPrefix_mark (c : Char) : ∀ (sep a b : Str), c ∉ sep →
    dropPrefix sep (a ++ c :: b) = (dropPrefix sep a).map (· ++ c :: b) := by
  intro sep
  induction sep with
  | nil => intro a b _; simp [dropPrefix]
  | cons d sep ih =>
    intro a b h
    simp only [List.mem_cons, not_or] at h
    cases a with
    | nil => simp [dropPrefix, Ne.symm h.1]
    | cons e a =>
      simp only [List.cons_append, dropPrefix]
      split
      · exact ih a b h.2
      · rfl

theorem find_mark (c : Char) (sep : Str) (hc : c ∉ sep) (hne : sep ≠ []) (b : Str) : ∀ a : Str,
    find sep (a ++ c :: b) = match find sep a with
      | some (x, y) => some (x, y ++ c :: b)
      | none => (find sep b).map fun pr => (a ++ c :: pr.1, pr.2) := by
  intro a
  induction a with
  | nil =>
    have h1 : dropPrefix sep [] = none := by
      cases sep with
      | nil => exact absurd rfl hne
      | cons => rfl
    have h2 := dropPrefix_mark c sep [] b hc
    rw [h1] at h2
    simp only [List.nil_append, Option.map_none] at h2
    simp [find, h1, h2]
  | cons d a ih =>
    have h2 := dropPrefix_mark c sep (d :: a) b hc
    simp only [List.cons_append] at h2
    cases h : dropPrefix sep (d :: a) with
    | some r => simp [find, h2, h]
    | none =>
      simp only [List.cons_append, find, h2, h, Option.map_none, ih]
      cases find sep a with
      | none => cases find sep b <;> simp
      | some pr => simp

theorem split_ne_nil (c : Char) (cs s : Str) : split (c :: cs) s ≠ [] := by
  cases hf : find (c :: cs) s with
  | none => rw [split_of_find_none _ _ _ hf]; simp
  | some pr => rw [split_of_find _ _ _ _ _ hf]; simp

/-- `replace` can be done on both sides of a character that is not in the replaced text. -/
theorem replace_mark (c : Char) (d : Char) (ds new : Str) (hc : c ∉ d :: ds) (b : Str) : ∀ a : Str,
    replaceStr (d :: ds) new (a ++ c :: b)
      = replaceStr (d :: ds) new a ++ c :: replaceStr (d :: ds) new b := by
  intro a
  induction hn : a.length using Nat.strongRecOn generalizing a with
  | _ n ih =>
    have hf := find_mark c (d :: ds) hc (by simp) b a
    cases ha : find (d :: ds) a with
    | none =>
      rw [ha] at hf
      cases hb : find (d :: ds) b with
      | none =>
        rw [hb] at hf
        simp only [replaceStr]
        rw [split_of_find_none _ _ _ hf, split_of_find_none _ _ _ ha, split_of_find_none _ _ _ hb]
        simp [List.intercalate]
      | some pr =>
        obtain ⟨x, y⟩ := pr
        rw [hb] at hf
        simp only [replaceStr]
        rw [split_of_find _ _ _ _ _ hf, split_of_find_none _ _ _ ha, split_of_find _ _ _ _ _ hb]
        cases hs : split (d :: ds) y with
        | nil => exact absurd hs (split_ne_nil _ _ _)
        | cons z l => simp [List.intercalate]
    | some pr =>
      obtain ⟨x, y⟩ := pr
      rw [ha] at hf
      have hlen : y.length < n := by
        rw [← hn, find_eq ha]; simp; omega
      have hy := ih y.length hlen y rfl
      simp only [replaceStr] at hy ⊢
      rw [split_of_find _ _ _ _ _ hf, split_of_find _ _ _ _ _ ha]
      have step : ∀ l : List Str, l ≠ [] → List.intercalate new (x :: l)
          = x ++ new ++ List.intercalate new l := by
        intro l hl
        cases l with
        | nil => exact absurd rfl hl
        | cons z l => simp [List.intercalate]
      rw [step _ (split_ne_nil _ _ _), step _ (split_ne_nil _ _ _), hy]
      simp

theorem replace_none (d : Char) (ds new s : Str) (h : ¬ (d :: ds) <:+: s) :
    replaceStr (d :: ds) new s = s := by
  rw [replaceStr, split_of_find_none _ _ _ (find_none_of_not_infix _ _ h)]
  simp [List.intercalate]

theorem intercalate_length (sep : Str) : ∀ l : List Str, l ≠ [] →
    (List.intercalate sep l).length = (l.map List.length).sum + (l.length - 1) * sep.length := by
  intro l
  induction l with
  | nil => intro h; exact absurd rfl h
  | cons x l ih =>
    intro _
    cases l with
    | nil => simp [List.intercalate]
    | cons y l =>
      have : List.intercalate sep (x :: y :: l) = x ++ sep ++ List.intercalate sep (y :: l) := by
        simp [List.intercalate]
      rw [this]
      simp only [List.length_append, ih (by simp), List.map_cons, List.sum_cons, List.length_cons]
      simp only [Nat.add_sub_cancel, Nat.add_mul, Nat.one_mul]
      omega

theorem replace_longer (d : Char) (ds new s : Str) (h : (d :: ds) <:+: s)
    (hn : (d :: ds).length < new.length) : s.length < (replaceStr (d :: ds) new s).length ∧
      new.length ≤ (replaceStr (d :: ds) new s).length := by
  have h1 := congrArg List.length (join_split d ds s)
  rw [intercalate_length _ _ (split_ne_nil _ _ _)] at h1
  rw [replaceStr, intercalate_length _ _ (split_ne_nil _ _ _)]
  have h2 : 2 ≤ (split (d :: ds) s).length := by
    cases hf : find (d :: ds) s with
    | none =>
      have := (Props.JobBoss.contains_iff (d :: ds) s).2 h
      simp [contains, hf] at this
    | some pr =>
      rw [split_of_find _ _ _ _ _ hf]
      have := List.length_pos_iff.2 (split_ne_nil d ds pr.2)
      simp only [List.length_cons]
      omega
  obtain ⟨k, hk⟩ : ∃ k, (split (d :: ds) s).length - 1 = k + 1 := ⟨(split (d :: ds) s).length - 2, by omega⟩
  rw [hk] at h1 ⊢
  simp only [Nat.add_mul, Nat.one_mul] at h1 ⊢
  have hkk : k * (d :: ds).length ≤ k * new.length := Nat.mul_le_mul_left _ hn.le
  omega

theorem mem_intercalate (sep : Str) : ∀ (l : List Str) (c : Char), c ∈ List.intercalate sep l →
    c ∈ sep ∨ ∃ x ∈ l, c ∈ x := by
  intro l
  induction l with
  | nil => intro c h; simp [List.intercalate] at h
  | cons x l ih =>
    intro c h
    cases l with
    | nil => exact .inr ⟨x, by simp, by simpa [List.intercalate] using h⟩
    | cons y l =>
      have : List.intercalate sep (x :: y :: l) = x ++ sep ++ List.intercalate sep (y :: l) := by
        simp [List.intercalate]
      rw [this] at h
      simp only [List.mem_append] at h
      rcases h with (h | h) | h
      · exact .inr ⟨x, by simp, h⟩
      · exact .inl h
      · rcases ih c h with h | ⟨z, hz, hc⟩
        · exact .inl h
        · exact .inr ⟨z, by simp [List.mem_cons.1 hz], hc⟩

theorem mem_of_mem_part (c : Char) (cs : Str) : ∀ (s x : Str) (e : Char), x ∈ split (c :: cs) s →
    e ∈ x → e ∈ s := by
  intro s
  induction hn : s.length using Nat.strongRecOn generalizing s with
  | _ n ih =>
    intro x e hx he
    cases hf : find (c :: cs) s with
    | none =>
      rw [split_of_find_none _ _ _ hf] at hx
      rw [← List.mem_singleton.1 hx]; exact he
    | some pr =>
      obtain ⟨a, b⟩ := pr
      rw [split_of_find _ _ _ _ _ hf] at hx
      have hs := find_eq hf
      rcases List.mem_cons.1 hx with rfl | hx
      · rw [hs]; simp [he]
      · have := ih b.length (by rw [← hn, hs]; simp; omega) b rfl x e hx he
        rw [hs]; simp [this]

/-- the replacement of `work` by `scratch` in a component of a path is again a component -/
theorem good_replace {c : Str} (h : c ≠ [] ∧ '/' ∉ c ∧ c ≠ c!"." ∧ c ≠ c!"..") :
    pathScratch c ≠ [] ∧ '/' ∉ pathScratch c ∧ pathScratch c ≠ c!"." ∧ pathScratch c ≠ c!".." := by
  by_cases hw : c!"work" <:+: c
  · have hl := (replace_longer 'w' c!"ork" c!"scratch" c hw (by decide)).2
    refine ⟨?_, ?_, ?_, ?_⟩
    · intro e; rw [pathScratch] at e; rw [e] at hl; simp at hl
    · intro hm
      rcases mem_intercalate _ _ _ hm with hm | ⟨x, hx, hm⟩
      · exact absurd hm (by decide)
      · exact h.2.1 (mem_of_mem_part _ _ _ _ _ hx hm)
    · intro e; rw [pathScratch] at e; rw [e] at hl; simp at hl
    · intro e; rw [pathScratch] at e; rw [e] at hl; simp at hl
  · rw [pathScratch, replace_none _ _ _ _ hw]
    exact h

theorem scratch_path : ∀ comps : List Str,
    pathScratch (comps.flatMap fun c => '/' :: c) = (comps.map pathScratch).flatMap fun c => '/' :: c := by
  intro comps
  induction comps with
  | nil => simp [pathScratch, replaceStr, split_of_find_none _ _ _ (show find c!"work" [] = none from rfl), List.intercalate]
  | cons c comps ih =>
    cases comps with
    | nil =>
      have := replace_mark '/' 'w' c!"ork" c!"scratch" (by decide) c []
      rw [replace_none _ _ _ [] (by simp)] at this
      simpa [pathScratch] using this
    | cons d comps =>
      have e : ((c :: d :: comps).flatMap fun c => '/' :: c)
          = ('/' :: c) ++ '/' :: (d ++ comps.flatMap fun c => '/' :: c) := by simp
      have h1 := replace_mark '/' 'w' c!"ork" c!"scratch" (by decide)
        (d ++ comps.flatMap fun c => '/' :: c) ('/' :: c)
      have h2 := replace_mark '/' 'w' c!"ork" c!"scratch" (by decide) c []
      have h3 := replace_mark '/' 'w' c!"ork" c!"scratch" (by decide)
        (d ++ comps.flatMap fun c => '/' :: c) []
      rw [replace_none _ _ _ [] (by simp)] at h2 h3
      simp only [List.nil_append] at h2 h3
      rw [e, pathScratch, h1, h2]
      have ih' : '/' :: replaceStr c!"work" c!"scratch" (d ++ comps.flatMap fun c => '/' :: c)
          = ((d :: comps).map pathScratch).flatMap fun c => '/' :: c := by
        rw [← ih, ← h3]
        simp [pathScratch]
      rw [ih']
      simp [pathScratch]

theorem split_comps : ∀ comps : List Str, (∀ c ∈ comps, '/' ∉ c) → ∀ c : Str, '/' ∉ c →
    split c!"/" (c ++ comps.flatMap fun c => '/' :: c) = c :: comps := by
  intro comps
  induction comps with
  | nil =>
    intro _ c hc
    simpa using split_of_find_none '/' [] c (find_none_of_notMem _ _ _ hc)
  | cons d comps ih =>
    intro h c hc
    have hf := find_of_notMem '/' [] c (d ++ comps.flatMap fun c => '/' :: c) hc
    have e : (c ++ (d :: comps).flatMap fun c => '/' :: c)
        = c ++ ['/'] ++ (d ++ comps.flatMap fun c => '/' :: c) := by simp
    rw [e, split_of_find _ _ _ _ _ hf, ih (fun x hx => h x (by simp [hx])) d (h d (by simp))]

theorem normComps_good : ∀ (cs rest acc : List Str),
    (∀ c ∈ cs, c ≠ [] ∧ '/' ∉ c ∧ c ≠ c!"." ∧ c ≠ c!"..") →
    normComps (cs ++ rest) acc = normComps rest (cs.reverse ++ acc) := by
  intro cs
  induction cs with
  | nil => intro rest acc _; rfl
  | cons c cs ih =>
    intro rest acc h
    obtain ⟨h1, _, h3, h4⟩ := h c (by simp)
    rw [List.cons_append, normComps, if_neg (by simp [h1, h3]), if_neg h4,
      ih _ _ fun x hx => h x (by simp [hx])]
    simp

theorem intercalate_comps : ∀ comps : List Str, comps ≠ [] →
    c!"/" ++ List.intercalate c!"/" comps = comps.flatMap fun c => '/' :: c := by
  intro comps
  induction comps with
  | nil => intro h; exact absurd rfl h
  | cons c comps ih =>
    intro _
    cases comps with
    | nil => simp [List.intercalate]
    | cons d comps =>
      have := ih (by simp)
      rw [List.flatMap_cons, ← this]
      simp [List.intercalate]

theorem pathRho_comps (comps : List Str) (d r : Nat) :
    pathRho (comps.flatMap fun c => '/' :: c) d r
      = ((comps ++ [c!"data_set_" ++ natStr d, c!"rho_" ++ natStr r]).flatMap fun c => '/' :: c)
        ++ c!"/" := by
  simp [pathRho]

theorem notMem_data (x : Char) (n : Nat) (h : digitVal x = none) (h' : x ∉ c!"data_set_") :
    x ∉ c!"data_set_" ++ natStr n := by
  simp only [List.mem_append, not_or]
  exact ⟨h', notMem_natStr h n⟩

theorem notMem_rho (x : Char) (n : Nat) (h : digitVal x = none) (h' : x ∉ c!"rho_") :
    x ∉ c!"rho_" ++ natStr n := by
  simp only [List.mem_append, not_or]
  exact ⟨h', notMem_natStr h n⟩

theorem scratch_pathRho {root : Str} (h : IsRoot root) (d r : Nat) :
    pathScratch (pathRho root d r) = pathRho (pathScratch root) d r ∧ IsRoot (pathScratch root) := by
  obtain ⟨comps, hne, hg, rfl⟩ := h
  have h1 := scratch_path comps
  refine ⟨?_, comps.map pathScratch, by simpa using hne, ?_, h1⟩
  · rw [h1, pathRho_comps, pathRho_comps]
    have hm := replace_mark '/' 'w' c!"ork" c!"scratch" (by decide) []
      ((comps ++ [c!"data_set_" ++ natStr d, c!"rho_" ++ natStr r]).flatMap fun c => '/' :: c)
    rw [replace_none _ _ _ [] (by simp)] at hm
    rw [pathScratch, hm]
    have h2 := scratch_path (comps ++ [c!"data_set_" ++ natStr d, c!"rho_" ++ natStr r])
    rw [pathScratch] at h2
    rw [h2]
    have hw : ∀ s : Str, 'w' ∉ s → pathScratch s = s := by
      intro s hs
      refine replace_none _ _ _ _ fun hi => hs ?_
      obtain ⟨p, q, rfl⟩ := hi
      simp
    rw [List.map_append, List.map_cons, List.map_cons, List.map_nil,
      hw _ (notMem_data 'w' d (by decide) (by decide)),
      hw _ (notMem_rho 'w' r (by decide) (by decide))]
  · intro c hc
    obtain ⟨x, hx, rfl⟩ := List.mem_map.1 hc
    exact good_replace (hg x hx)

/-- going up twice from the directory of the sampling distribution leads to the root -/
theorem up_twice {root : Str} (h : IsRoot root) (d r : Nat) :
    normpath (joinUpTwice (pathRho root d r)) = root := by
  obtain ⟨comps, hne, hg, rfl⟩ := h
  have hl : (pathRho (comps.flatMap fun c => '/' :: c) d r).getLast? = some '/' := by
    rw [pathRho_comps, List.getLast?_append]; simp
  rw [joinUpTwice, if_pos hl, pathRho_comps]
  set D := c!"data_set_" ++ natStr d with hD
  set R := c!"rho_" ++ natStr r with hR
  have e : ((comps ++ [D, R]).flatMap fun c => '/' :: c) ++ c!"/" ++ c!"../.."
      = [] ++ ((comps ++ [D, R, c!"..", c!".."]).flatMap fun c => '/' :: c) := by simp
  have hgD : D ≠ [] ∧ '/' ∉ D ∧ D ≠ c!"." ∧ D ≠ c!".." :=
    ⟨by simp [hD], notMem_data '/' d (by decide) (by decide), by simp [hD], by simp [hD]⟩
  have hgR : R ≠ [] ∧ '/' ∉ R ∧ R ≠ c!"." ∧ R ≠ c!".." :=
    ⟨by simp [hR], notMem_rho '/' r (by decide) (by decide), by simp [hR], by simp [hR]⟩
  have hall : ∀ c ∈ comps ++ [D, R], c ≠ [] ∧ '/' ∉ c ∧ c ≠ c!"." ∧ c ≠ c!".." := by
    intro c hc
    rcases List.mem_append.1 hc with hc | hc
    · exact hg c hc
    · rcases List.mem_cons.1 hc with rfl | hc
      · exact hgD
      · rw [List.mem_singleton.1 hc]; exact hgR
  rw [e, normpath, split_comps _ _ [] (by simp)]
  · rw [normComps, if_pos (.inl rfl)]
    have e2 : comps ++ [D, R, c!"..", c!".."] = (comps ++ [D, R]) ++ [c!"..", c!".."] := by simp
    rw [e2, normComps_good _ _ _ hall]
    simp only [List.append_nil, List.reverse_append, List.reverse_cons, List.reverse_nil,
      List.nil_append, List.cons_append, normComps]
    simp only [show ¬ (c!".." = [] ∨ c!".." = c!".") by decide, if_false, if_true, List.tail_cons,
      List.reverse_reverse]
    exact intercalate_comps comps hne
  · intro c hc
    have : comps ++ [D, R, c!"..", c!".."] = (comps ++ [D, R]) ++ [c!"..", c!".."] := by simp
    rw [this] at hc
    rcases List.mem_append.1 hc with hc | hc
    · exact (hall c hc).2.1
    · simp at hc; rw [hc]; decide

/-- A job saves its results in the results directory below the scratch directory. -/
theorem job_results {root : Str} (h : IsRoot root) (d r : Nat) :
    jobResults (pathScratch (pathRho root d r)) d r = pathScratch (pathRho root d r) ++ c!"results/" ∧
    jobResults (pathScratch (pathRho root d r)) d r = pathRhoResults (pathScratch root) d r := by
  obtain ⟨h1, h2⟩ := scratch_pathRho h d r
  rw [jobResults, h1, up_twice h2]
  exact ⟨rfl, rfl⟩

/-- The name of a result: a plain file name that is not hidden. -/
def ResultName (name : Str) : Prop := '/' ∉ name ∧ name ≠ [] ∧ name.head? ≠ some '.'

theorem dir_name {a b x y : Str} (hx : '/' ∉ x) (hy : '/' ∉ y)
    (h : (a ++ c!"results/") ++ x = (b ++ c!"results/") ++ y) : a = b ∧ x = y := by
  have hrev := congrArg List.reverse h
  simp only [List.reverse_append] at hrev
  have k1 : (c!"results/").reverse = '/' :: c!"stluser" := by decide
  rw [k1] at hrev
  have hk := append_cons_inj (c := '/') (a := x.reverse) (b := y.reverse)
    (by simpa using hx) (by simpa using hy) (by simpa using hrev)
  constructor
  · have : (a.reverse : Str) = b.reverse := by simpa using hk.2
    simpa using congrArg List.reverse this
  · simpa using congrArg List.reverse hk.1

theorem movable_iff (name : Str) : movable name = true ↔ ResultName name := by
  simp [movable, ResultName]

/-- what is in the target directory after moving -/
theorem moveAll_target (src dst : Str) (fs : Files) (name : Str) (hn : ResultName name) :
    moveAll (src ++ c!"results/") (dst ++ c!"results/") fs (dst ++ c!"results/" ++ name)
      = if src ≠ dst ∧ (fs (src ++ c!"results/" ++ name)).isSome then
          fs (src ++ c!"results/" ++ name)
        else fs (dst ++ c!"results/" ++ name) := by
  unfold moveAll
  by_cases he : src = dst
  · subst he; simp
  · have he' : src ++ c!"results/" ≠ dst ++ c!"results/" := fun e => he (List.append_cancel_right e)
    have hsrc : ((dropPrefix (src ++ c!"results/") (dst ++ c!"results/" ++ name)).filter
        fun name => movable name).isSome = false := by
      cases hd : dropPrefix (src ++ c!"results/") (dst ++ c!"results/" ++ name) with
      | none => rfl
      | some nm =>
        by_cases hm : movable nm = true
        · have := dir_name hn.1 ((movable_iff nm).1 hm).1 (dropPrefix_eq hd)
          exact absurd this.1.symm he
        · simp [Option.filter, hm]
    rw [if_neg he', dropPrefix_append]
    cases hf : (fs (src ++ c!"results/" ++ name)).isSome with
    | true => simp only [Option.filter, (movable_iff name).2 hn, hf]; simp [he]
    | false =>
      simp only [Option.filter_some, hf, Bool.false_eq_true, and_false, decide_false, if_false, hsrc]

/-- On nlogn and feynman the result of a job that ran is afterwards in the results directory of the
file structure the job was submitted from, whatever was there before. -/
theorem C95_results_arrive (root : Str) (h : IsRoot root) (d r : Nat) (name contents : Str)
    (hn : ResultName name) (fs : Files) :
    runJob .nlogn root d r name contents fs (pathRhoResults root d r ++ name) = some contents := by
  have hj := (job_results h d r).1
  unfold runJob
  simp only [copyFrom, hj, pathRhoResults]
  rw [moveAll_target _ _ _ _ hn]
  by_cases he : pathScratch (pathRho root d r) = pathRho root d r
  · simp [he]
  · simp [he]

/-- And no other result in that directory is lost or changed, unless the scratch directory is a
different one and holds a file of the same name. -/
theorem C95_other_results_kept (root : Str) (h : IsRoot root) (d r : Nat) (name contents : Str)
    (hn : ResultName name) (fs : Files) (other : Str) (ho : other ≠ name) (hr : ResultName other)
    (hs : fs (pathRhoResults (pathScratch root) d r ++ other) = none ∨ pathScratch root = root) :
    runJob .nlogn root d r name contents fs (pathRhoResults root d r ++ other)
      = fs (pathRhoResults root d r ++ other) := by
  have hj := (job_results h d r).1
  have h1 := (scratch_pathRho h d r).1
  unfold runJob
  simp only [copyFrom, hj, pathRhoResults]
  rw [moveAll_target _ _ _ _ hr]
  have hne : ∀ a b : Str, a ++ c!"results/" ++ other ≠ b ++ c!"results/" ++ name :=
    fun a b e => ho (dir_name hr.1 hn.1 e).2
  rw [if_neg (hne _ _), if_neg (hne _ _)]
  rcases hs with hs | hs
  · rw [h1]
    rw [pathRhoResults] at hs
    rw [hs, if_neg (by simp)]
  · rw [h1, hs]; simp

/-- The file another job left in the scratch directory is moved along with it, so that a result
never depends on which of the jobs ends last. -/
theorem C95_others_move_along (root : Str) (h : IsRoot root) (d r : Nat) (name contents : Str)
    (hn : ResultName name) (fs : Files) (other left : Str) (ho : other ≠ name) (hr : ResultName other)
    (hs : fs (pathRhoResults (pathScratch root) d r ++ other) = some left) :
    runJob .nlogn root d r name contents fs (pathRhoResults root d r ++ other) = some left := by
  have hj := (job_results h d r).1
  have h1 := (scratch_pathRho h d r).1
  unfold runJob
  simp only [copyFrom, hj, pathRhoResults]
  rw [moveAll_target _ _ _ _ hr]
  have hne : ∀ a b : Str, a ++ c!"results/" ++ other ≠ b ++ c!"results/" ++ name :=
    fun a b e => ho (dir_name hr.1 hn.1 e).2
  rw [if_neg (hne _ _), if_neg (hne _ _)]
  rw [pathRhoResults] at hs
  rw [h1, hs]
  by_cases he : pathRho (pathScratch root) d r = pathRho root d r
  · simp only [he, ne_eq, not_true_eq_false, false_and, if_false]
    rw [← he, hs]
  · simp [he]

/-- On the compute canada servers nothing is moved: the results arrive if the path of the file
structure does not contain `work`. -/
theorem C95_compute_canada_partial (root : Str) (h : IsRoot root) (hw : ¬ c!"work" <:+: root)
    (d r : Nat) (name contents : Str) (fs : Files) :
    runJob .computeCanada root d r name contents fs (pathRhoResults root d r ++ name)
      = some contents := by
  have hj := (job_results h d r).2
  simp only [runJob]
  rw [hj]
  rw [show pathScratch root = root from replace_none _ _ _ _ hw]
  simp

/-- Otherwise the results of the job stay in the scratch directory, and the results directory of the
file structure is as it was before. -/
theorem C95_compute_canada_refuted (root : Str) (h : IsRoot root) (hw : c!"work" <:+: root)
    (d r : Nat) (name contents : Str) (hn : ResultName name) (fs : Files) (other : Str)
    (hr : ResultName other) :
    runJob .computeCanada root d r name contents fs (pathRhoResults root d r ++ other)
      = fs (pathRhoResults root d r ++ other) ∧
    runJob .computeCanada root d r name contents fs (pathRhoResults (pathScratch root) d r ++ name)
      = some contents := by
  have hj := (job_results h d r).2
  simp only [runJob]
  rw [hj]
  refine ⟨if_neg fun e => ?_, if_pos rfl⟩
  have h1 := (dir_name hr.1 hn.1 e).1
  have hl := (replace_longer 'w' c!"ork" c!"scratch" root hw (by decide)).1
  have := congrArg List.length h1
  simp only [pathRho, List.length_append, pathScratch] at this
  omega

example : IsRoot c!"/work/user/pimc" :=
  ⟨[c!"work", c!"user", c!"pimc"], by decide, by decide, by decide⟩

example : ResultName c!"D1_R0_P12_T300.00_J77_data_points.npz" := by
  refine ⟨?_, ?_, ?_⟩ <;> decide +kernel

end Pibronic.Props.JobScript
