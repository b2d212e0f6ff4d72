import Verif.Model.ServerJob
import Verif.Props.JobParams
import Verif.Props.JobScript
import Verif.Props.Results
import Verif.Props.Temperature

set_option autoImplicit false

/-!
C118: a job computes and saves what was asked for at its submission.
-/
namespace Pibronic.Props.ServerJob
open Pibronic.Py Pibronic.JobParams Pibronic.JobScript Pibronic.Results Pibronic.ServerJob
open Pibronic.Spec.FileStructure Pibronic.FileStructure
open Pibronic.Props.JobParams Pibronic.Props.JobScript

/-- What is asked for at a submission, in the dictionary `params`: `X` samples in `blocks` blocks of `B`,
`P` beads, the temperature `t`, the models of the data set `d` and the sampling distribution `r` below the
directory `root`; and the texts of the two models are there when the job reads them. -/
structure Asked (env : Env) (params : List (Str × Json)) (root vib rho : Str) (d r P X B blocks : Nat) (t : ℝ) :
    Prop where
  valid : (Json.dict params).Valid
  free : Free ';' params
  samples : Maps params c!"number_of_samples" (.int X)
  nBlocks : Maps params c!"number_of_blocks" (.int blocks)
  blockSize : Maps params c!"block_size" (.int B)
  beads : Maps params c!"number_of_beads" (.int P)
  states : ∃ a, Maps params c!"number_of_states" a
  modes : ∃ n, Maps params c!"number_of_modes" n
  temperature : ∃ T, Maps params c!"temperature" T ∧ number env.val T = some t
  beta : ∀ b, Maps params c!"beta" b → number env.val b ≠ none
  idData : Maps params c!"id_data" (.int d)
  idRho : Maps params c!"id_rho" (.int r)
  pathRoot : Maps params c!"path_root" (.str root)
  isRoot : IsRoot root
  abs : env.abspath root = root
  vibModel : env.disk.files (dataDir root d ++ c!"parameters/coupled_model.json") = some vib
  rhoModel : env.disk.files (rhoDir root d r ++ c!"parameters/sampling_model.json") = some rho
  positive : 0 < P ∧ 0 < t ∧ env.boltzman ≠ 0

theorem rootOk_of_isRoot {root : Str} (h : IsRoot root) : RootOk root root := by
  obtain ⟨comps, hne, hc, rfl⟩ := h
  refine ⟨?_, ?_, .inl rfl⟩
  · cases comps with
    | nil => exact absurd rfl hne
    | cons c l => simp
  · obtain ⟨l, c, rfl⟩ : ∃ l c, comps = l ++ [c] := ⟨_, _, (List.dropLast_append_getLast hne).symm⟩
    have hc' := hc c (by simp)
    rw [List.flatMap_append, List.getLast?_append]
    simp only [List.flatMap_cons, List.flatMap_nil, List.append_nil]
    have : ('/' :: c).getLast? = c.getLast? := by
      cases c with
      | nil => exact absurd rfl hc'.1
      | cons a c => simp [List.getLast?_cons_cons]
    rw [this]
    intro e
    cases hl : c.getLast? with
    | none => rw [List.getLast?_eq_none_iff] at hl; exact hc'.1 hl
    | some a =>
      rw [hl] at e
      simp at e
      subst e
      exact hc'.2.1 (List.mem_of_getLast? hl)

/-- The object that a job builds from what was asked for. -/
theorem loaded {env : Env} {params : List (Str × Json)} {root vib rho : Str} {d r P X B blocks : Nat} {t : ℝ}
    (h : Asked env params root vib rho d r P X B blocks t) (dB : Quantity) :
    ∃ b : BoxParams, loadJsonString env dB (jsonSerialize params) = .ok b ∧
      b.samples = .int X ∧ b.blocks = .int blocks ∧ b.blockSize = .int B ∧ b.beads = .int P ∧
      b.idData = .int d ∧ b.idRho = .int r ∧ number env.val b.temperature = some t ∧
      b.hashVib = some (env.hash vib) ∧ b.hashRho = some (env.hash rho) := by
  obtain ⟨a, ha⟩ := h.states
  obtain ⟨n, hn⟩ := h.modes
  obtain ⟨T, hT, ht⟩ := h.temperature
  obtain ⟨hP, ht0, hk⟩ := h.positive
  obtain ⟨b, e, h1, h2, -, h4, -, h6, h7, h8, h9, -, -, -, -, -, -, -, -, hv, hr⟩ :=
    C44_members_partial env dB params h.valid h.free h.samples h.nBlocks ha h.beads hn hT h.blockSize
      h.idData h.idRho h.pathRoot h.abs (rootOk_of_isRoot h.isRoot) h.vibModel h.rhoModel ht
      (mul_ne_zero hk ht0.ne') (P := (P : ℝ)) (by simp [number]) (by exact_mod_cast hP.ne') h.beta
  exact ⟨b, e, h1, h2, h7, h4, h8, h9, by rw [h6]; exact ht, hv, hr⟩

variable {V : Type}

/-- The name of the results of job `J`, with `n` hundredths of a kelvin. -/
def resultFile (root : Str) (d r P n J : Nat) : Str :=
  rhoDir root d r ++ c!"results/P" ++ natStr P ++ c!"_T" ++ tempStr n ++ c!"_J" ++ natStr J
    ++ c!"_data_points.npz"

/-- The results of a job: the hashes of the models and every sample once. -/
def results (hv hr : Str) (vals : BlockValues V) (X B : Nat) : ResultFile V :=
  let all (val : Nat → Nat → V) : Option (Arr V) :=
    some ((List.range X).map fun s => some (val (s / B) (s % B)))
  ⟨some hv, some hr, some X, all vals.rho, all vals.g, all vals.gP, all vals.gM⟩

/-- The results of a job that computed only the first `n` of `X` samples: the others have no value. -/
def shortResults (hv hr : Str) (vals : BlockValues V) (X B n : Nat) : ResultFile V :=
  let all (val : Nat → Nat → V) : Option (Arr V) :=
    some ((List.range n).map (fun s => some (val (s / B) (s % B))) ++ List.replicate (X - n) none)
  ⟨some hv, some hr, some X, all vals.rho, all vals.g, all vals.gP, all vals.gM⟩

theorem shortResults_all (hv hr : Str) (vals : BlockValues V) (X B : Nat) :
    shortResults hv hr vals X B X = results hv hr vals X B := by
  simp [shortResults, results]

/-- The run of a job whose parameters were read, up to the reading of its id. -/
theorem main_fit {env : Env} {params : List (Str × Json)} {root vib rho : Str} {d r P X B blocks : Nat} {t : ℝ}
    (h : Asked env params root vib rho d r P X B blocks t) (dB : Quantity) (prep : BoxParams → Except Err Unit)
    (vals : BoxParams → BlockValues V) (hprep : ∀ b, loadJsonString env dB (jsonSerialize params) = .ok b → prep b = .ok ())
    (hX : 0 < X) (hb : blocks ≠ 0) (hfit : blocks * B ≤ X) (script scratch id : Str) (disk : Disk V) :
    ∃ b, loadJsonString env dB (jsonSerialize params) = .ok b ∧
      samplingMain env dB prep vals [script, jsonSerialize params, scratch, id] disk =
        match pyInt id with
        | .ok J => (disk.write (join (jobResults scratch d r)
            (FileName.pimc (natStr P) (tempStr (hundredths t)) (natStr J)))
            (shortResults (env.hash vib) (env.hash rho) (vals b) X B (blocks * B)), .ok ())
        | .error e => (disk, .error e) := by
  obtain ⟨b, e, h1, h2, h3, h4, h5, h6, h7, hv, hr⟩ := loaded h dB
  refine ⟨b, e, ?_⟩
  have hz : Count.isZeroLit (.int X) = false := by
    cases X with
    | zero => omega
    | succ n => rfl
  let box : Box V := { (init .pm (some ⟨P, hundredths t, X, b.hashVib, b.hashRho⟩) none : Box V) with
        pathRoot := some (jobResults scratch d r) }
  have hfill : Filled (vals b) X B 0 box := by
    refine ⟨?_, ?_, fun _ => ?_, fun _ => ?_⟩ <;> rw [filled_zero] <;>
      simp [box, init, initializeArrays, Count.val]
  obtain ⟨done, eloop, m, f⟩ := blockLoop_ok (vals b) X B blocks 0 box (by rw [Nat.zero_add]; omega) hfill
  rw [Nat.zero_add] at f
  have m1 : done.samples = .int X := m.samples
  have m2 : done.partialName = some (P, hundredths t) := m.partialName
  have m4 : done.pathRoot = some (jobResults scratch d r) := m.pathRoot
  have m5 : done.hashVib = b.hashVib := m.hashVib
  have m6 : done.hashRho = b.hashRho := m.hashRho
  have m7 : done.cls = .pm := m.cls
  have c : ∀ n : Nat, count (.int (n : Int)) = .ok n := fun n => rfl
  have hT : shownTemperature env.val b.temperature = .ok (hundredths t) := by
    simp [shownTemperature, h7, h.positive.2.1.le]
  have eloop' : blockLoop (vals b) X B 0 blocks
      { (init .pm (some ⟨P, hundredths t, X, b.hashVib, b.hashRho⟩) none : Box V) with
        pathRoot := some (jobResults scratch d r) } = .ok done := eloop
  simp only [samplingMain, bind, Except.bind, e, hprep b e, h1, h2, h3, h4, h5, h6, c, hT, eloop', if_neg hb, m1, hz]
  cases hid : pyInt id with
  | error e => simp
  | ok J =>
    simp [saveResults, computePathToFile, bind, Except.bind, m1, hz, m2, m4, m5, m6, m7, hv, hr, f.rho, f.g,
      f.gP m7, f.gM m7, filled, shortResults, Count.val]

theorem main_eq {env : Env} {params : List (Str × Json)} {root vib rho : Str} {d r P X B blocks : Nat} {t : ℝ}
    (h : Asked env params root vib rho d r P X B blocks t) (dB : Quantity) (prep : BoxParams → Except Err Unit)
    (vals : BoxParams → BlockValues V) (hprep : ∀ b, loadJsonString env dB (jsonSerialize params) = .ok b → prep b = .ok ())
    (hX : 0 < X) (hcover : blocks * B = X) (script scratch id : Str) (disk : Disk V) :
    ∃ b, loadJsonString env dB (jsonSerialize params) = .ok b ∧
      samplingMain env dB prep vals [script, jsonSerialize params, scratch, id] disk =
        match pyInt id with
        | .ok J => (disk.write (join (jobResults scratch d r)
            (FileName.pimc (natStr P) (tempStr (hundredths t)) (natStr J)))
            (results (env.hash vib) (env.hash rho) (vals b) X B), .ok ())
        | .error e => (disk, .error e) := by
  obtain ⟨b, e, hm⟩ := main_fit h dB prep vals hprep hX (by rintro rfl; omega) hcover.le script scratch id disk
  refine ⟨b, e, ?_⟩
  rw [hm, hcover, shortResults_all]

/-- C118: a job whose blocks make up the samples that were asked for saves exactly these samples, each once and at
its own place, with the number of samples and the hashes of the two models, in one file; its name shows
the number of beads, the temperature to the nearest hundredth, and the id of the job.  No other file changes.
(The job is started in the directory that belongs to the submission; `preprocess` raises nothing.) -/
theorem C118_saves_partial {env : Env} {params : List (Str × Json)} {root vib rho : Str}
    {d r P X B blocks : Nat} {t : ℝ} (h : Asked env params root vib rho d r P X B blocks t) (dB : Quantity)
    (prep : BoxParams → Except Err Unit) (vals : BoxParams → BlockValues V)
    (hprep : ∀ b, loadJsonString env dB (jsonSerialize params) = .ok b → prep b = .ok ())
    (hX : 0 < X) (hcover : blocks * B = X) (script : Str) (J : Nat) (disk : Disk V) :
    ∃ b disk' n, loadJsonString env dB (jsonSerialize params) = .ok b ∧ |t - (n : ℕ) / 100| ≤ 1 / 200 ∧
      samplingMain env dB prep vals
        [script, jsonSerialize params, pathScratch (rhoDir root d r), natStr J] disk = (disk', .ok ()) ∧
      disk' (resultFile (pathScratch root) d r P n J)
        = some (results (env.hash vib) (env.hash rho) (vals b) X B) ∧
      ∀ p, p ≠ resultFile (pathScratch root) d r P n J → disk' p = disk p := by
  obtain ⟨b, e, hm⟩ := main_eq h dB prep vals hprep hX hcover script (pathScratch (rhoDir root d r)) (natStr J) disk
  have hp : rhoDir root d r = pathRho root d r := by simp [rhoDir, dataDir, pathRho]
  have hj := (job_results h.isRoot d r).2
  have hpath : join (jobResults (pathScratch (rhoDir root d r)) d r)
      (FileName.pimc (natStr P) (tempStr (hundredths t)) (natStr J))
      = resultFile (pathScratch root) d r P (hundredths t) J := by
    rw [hp, hj, pathRhoResults,
      show pathRho (pathScratch root) d r ++ c!"results/"
        = (pathRho (pathScratch root) d r ++ c!"results") ++ ['/'] by simp,
      FileName.pimc]
    simp only [List.append_assoc, List.cons_append, List.nil_append]
    have := join_slash (pathRho (pathScratch root) d r ++ c!"results") 'P'
      (natStr P ++ c!"_T" ++ tempStr (hundredths t) ++ c!"_J" ++ natStr J ++ c!"_data_points.npz") (by decide)
    simp only [List.append_assoc, List.cons_append, List.nil_append] at this ⊢
    rw [this]
    simp [resultFile, rhoDir, dataDir, pathRho]
  rw [pyInt_natStr] at hm
  simp only [hpath] at hm
  refine ⟨b, _, hundredths t, e, ?_, hm, by simp [Disk.write], fun p hp => by simp [Disk.write, hp]⟩
  have hs := (Pibronic.Props.Temperature.hundredths_spec h.positive.2.1.le).1
  have e : t - (hundredths t : ℝ) / 100 = (t * 100 - hundredths t) / 100 := by field_simp
  rw [e, abs_div, abs_of_pos (show (0 : ℝ) < 100 by norm_num)]
  linarith

/-- C118: the results of two jobs of one submission do not replace each other: after both have run, in this
order, both files are there. -/
theorem C118_two_jobs_partial {env : Env} {params : List (Str × Json)} {root vib rho : Str}
    {d r P X B blocks : Nat} {t : ℝ} (h : Asked env params root vib rho d r P X B blocks t) (dB : Quantity)
    (prep : BoxParams → Except Err Unit) (vals vals' : BoxParams → BlockValues V)
    (hprep : ∀ b, loadJsonString env dB (jsonSerialize params) = .ok b → prep b = .ok ())
    (hX : 0 < X) (hcover : blocks * B = X) (script : Str) (J J' : Nat) (hJ : J ≠ J') (disk : Disk V) :
    let run := fun vals (K : Nat) (disk : Disk V) => (samplingMain env dB prep vals
      [script, jsonSerialize params, pathScratch (rhoDir root d r), natStr K] disk).1
    ∃ b p p', loadJsonString env dB (jsonSerialize params) = .ok b ∧ p ≠ p' ∧
      run vals' J' (run vals J disk) p = some (results (env.hash vib) (env.hash rho) (vals b) X B) ∧
      run vals' J' (run vals J disk) p' = some (results (env.hash vib) (env.hash rho) (vals' b) X B) := by
  intro run
  obtain ⟨b, disk1, n, e, hn, h1, h2, h3⟩ := C118_saves_partial h dB prep vals hprep hX hcover script J disk
  obtain ⟨b', disk2, n', e', hn', h1', h2', h3'⟩ :=
    C118_saves_partial h dB prep vals' hprep hX hcover script J' disk1
  obtain rfl : b = b' := Except.ok.inj (e.symm.trans e')
  have hne : resultFile (pathScratch root) d r P n J ≠ resultFile (pathScratch root) d r P n' J' := by
    intro he
    simp only [resultFile, List.append_assoc, List.append_cancel_left_eq] at he
    have : FileName.pimc (natStr P) (tempStr n) (natStr J) = FileName.pimc (natStr P) (tempStr n') (natStr J') := by
      simp only [FileName.pimc, List.append_assoc, List.cons_append, List.nil_append]
      simpa using he
    exact hJ (Pibronic.Props.Results.pimc_injective this).2.2
  have r1 : run vals J disk = disk1 := by simp only [run, h1]
  have r2 : run vals' J' disk1 = disk2 := by simp only [run, h1']
  refine ⟨b, _, _, e, hne, ?_, ?_⟩
  · rw [r1, r2, h3' _ hne, h2]
  · rw [r1, r2, h2']

/-- C118: a script that is called with another number of arguments does nothing and raises
`AssertionError`. -/
theorem C118_arguments (env : Env) (dB : Quantity) (prep : BoxParams → Except Err Unit)
    (vals : BoxParams → BlockValues V) (argv : List Str) (h : argv.length ≠ 4) (disk : Disk V) :
    samplingMain env dB prep vals argv disk = (disk, .error .assertion) := by
  unfold samplingMain
  split
  · exact absurd rfl h
  · rfl

/-- C118: a job whose parameters cannot be decoded, or that fails while it prepares the calculation, raises
that error and saves nothing. -/
theorem C118_refused (env : Env) (dB : Quantity) (prep : BoxParams → Except Err Unit)
    (vals : BoxParams → BlockValues V) (script text scratch id : Str) (disk : Disk V) (e : Err)
    (h : loadJsonString env dB text = .error e ∨
      ∃ b, loadJsonString env dB text = .ok b ∧ prep b = .error e) :
    samplingMain env dB prep vals [script, text, scratch, id] disk = (disk, .error e) := by
  rcases h with h | ⟨b, h, hp⟩
  · simp [samplingMain, h, bind, Except.bind]
  · simp [samplingMain, h, hp, bind, Except.bind]

/-- C118: an id that is no number is noticed only when all samples are there: `ValueError`, and they are
lost. -/
theorem C118_bad_id {env : Env} {params : List (Str × Json)} {root vib rho : Str}
    {d r P X B blocks : Nat} {t : ℝ} (h : Asked env params root vib rho d r P X B blocks t) (dB : Quantity)
    (prep : BoxParams → Except Err Unit) (vals : BoxParams → BlockValues V)
    (hprep : ∀ b, loadJsonString env dB (jsonSerialize params) = .ok b → prep b = .ok ())
    (hX : 0 < X) (hcover : blocks * B = X) (script scratch id : Str) (e : Err) (hid : pyInt id = .error e)
    (disk : Disk V) :
    samplingMain env dB prep vals [script, jsonSerialize params, scratch, id] disk = (disk, .error e) := by
  obtain ⟨b, -, hm⟩ := main_eq h dB prep vals hprep hX hcover script scratch id disk
  rw [hm, hid]

/-- C118 is false of a submission whose blocks do not make up the samples: nothing complains, and the file of
the job states the number of samples that were asked for although the last ones have no value.  (The
submitting code asks for `number_of_samples // block_size` blocks, job_boss.py:558, so this happens whenever the
size of a block does not divide the number of samples.) -/
theorem C118_short_refuted {env : Env} {params : List (Str × Json)} {root vib rho : Str}
    {d r P X B blocks : Nat} {t : ℝ} (h : Asked env params root vib rho d r P X B blocks t) (dB : Quantity)
    (prep : BoxParams → Except Err Unit) (vals : BoxParams → BlockValues V)
    (hprep : ∀ b, loadJsonString env dB (jsonSerialize params) = .ok b → prep b = .ok ())
    (hb : 0 < blocks) (hshort : blocks * B < X) (script scratch : Str) (J : Nat) (disk : Disk V) :
    ∃ disk' p f, samplingMain env dB prep vals [script, jsonSerialize params, scratch, natStr J] disk
        = (disk', .ok ()) ∧ disk' p = some f ∧ f.number = some X ∧
      ∀ s, blocks * B ≤ s → s < X → (f.rho.getD [])[s]? = some none ∧ (f.g.getD [])[s]? = some none := by
  obtain ⟨b, -, hm⟩ := main_fit h dB prep vals hprep (by omega) (by omega) hshort.le script scratch (natStr J) disk
  rw [pyInt_natStr] at hm
  refine ⟨_, _, _, hm, if_pos rfl, rfl, fun s h1 h2 => ?_⟩
  have hs : s - blocks * B < X - blocks * B := by omega
  constructor <;> simp [shortResults, List.getElem?_append_right, h1, List.getElem?_replicate, hs]

/-- C118: a submission without a block raises `UnboundLocalError` in the job, which saves nothing. -/
theorem C118_no_block {env : Env} {params : List (Str × Json)} {root vib rho : Str}
    {d r P X B : Nat} {t : ℝ} (h : Asked env params root vib rho d r P X B 0 t) (dB : Quantity)
    (prep : BoxParams → Except Err Unit) (vals : BoxParams → BlockValues V)
    (hprep : ∀ b, loadJsonString env dB (jsonSerialize params) = .ok b → prep b = .ok ())
    (script scratch id : Str) (disk : Disk V) :
    samplingMain env dB prep vals [script, jsonSerialize params, scratch, id] disk = (disk, .error .unbound) := by
  obtain ⟨b, e, h1, h2, h3, h4, h5, h6, h7, hv, hr⟩ := loaded h dB
  have c : ∀ n : Nat, count (.int (n : Int)) = .ok n := fun n => rfl
  have hT : shownTemperature env.val b.temperature = .ok (hundredths t) := by
    simp [shownTemperature, h7, h.positive.2.1.le]
  simp only [samplingMain, bind, Except.bind, e, hprep b e, h1, h2, h3, h4, h5, h6, c, hT, blockLoop, if_true]

/-- C118: a submission whose blocks exceed the samples raises `ValueError` in the job (numpy cannot broadcast the
last block), which saves nothing. -/
theorem C118_too_many_blocks {env : Env} {params : List (Str × Json)} {root vib rho : Str}
    {d r P X B blocks : Nat} {t : ℝ} (h : Asked env params root vib rho d r P X B blocks t) (dB : Quantity)
    (prep : BoxParams → Except Err Unit) (vals : BoxParams → BlockValues V)
    (hprep : ∀ b, loadJsonString env dB (jsonSerialize params) = .ok b → prep b = .ok ())
    (hlong : X < blocks * B) (script scratch id : Str) (disk : Disk V) :
    samplingMain env dB prep vals [script, jsonSerialize params, scratch, id] disk
      = (disk, .error .broadcast) := by
  obtain ⟨b, e, h1, h2, h3, h4, h5, h6, h7, hv, hr⟩ := loaded h dB
  have c : ∀ n : Nat, count (.int (n : Int)) = .ok n := fun n => rfl
  have hT : shownTemperature env.val b.temperature = .ok (hundredths t) := by
    simp [shownTemperature, h7, h.positive.2.1.le]
  let box : Box V := { (init .pm (some ⟨P, hundredths t, X, b.hashVib, b.hashRho⟩) none : Box V) with
        pathRoot := some (jobResults scratch d r) }
  have hfill : Filled (vals b) X B 0 box := by
    refine ⟨?_, ?_, fun _ => ?_, fun _ => ?_⟩ <;> rw [filled_zero] <;>
      simp [box, init, initializeArrays, Count.val]
  have eloop : blockLoop (vals b) X B 0 blocks
      { (init .pm (some ⟨P, hundredths t, X, b.hashVib, b.hashRho⟩) none : Box V) with
        pathRoot := some (jobResults scratch d r) } = .error .broadcast :=
    blockLoop_overflow (vals b) X B blocks 0 box (by simp) (by simpa using hlong) hfill
  simp only [samplingMain, bind, Except.bind, e, hprep b e, h1, h2, h3, h4, h5, h6, c, hT, eloop]

/-! ### How the job script calls it -/

theorem words_append (s t : Str) (c : Char) (hc : isIfs c = true) :
    shellWords (s ++ c :: t) = shellWords s ++ shellWords t := by
  have key : ∀ s : Str, (s ++ c :: t).splitOnP isIfs = s.splitOnP isIfs ++ t.splitOnP isIfs := by
    intro s
    induction s with
    | nil => simp [List.splitOnP_cons_eq_if_modifyHead, hc]
    | cons a s ih =>
      rw [List.cons_append, List.splitOnP_cons_eq_if_modifyHead, List.splitOnP_cons_eq_if_modifyHead, ih]
      split
      · rfl
      · cases hs : s.splitOnP isIfs with
        | nil => exact absurd hs (List.splitOnP_ne_nil _ _)
        | cons x l => rfl
  simp [shellWords, key]

theorem words_one {s : Str} (hs : s ≠ []) (h : ∀ c ∈ s, isIfs c = false) : shellWords s = [s] := by
  rw [shellWords, List.splitOnP_eq_singleton h]
  cases s with
  | nil => exact absurd rfl hs
  | cons a s => rfl

theorem words_pos {s : Str} (h : ∃ c ∈ s, isIfs c = false) : 0 < (shellWords s).length := by
  obtain ⟨c, hc, hf⟩ := h
  induction s with
  | nil => simp at hc
  | cons a s ih =>
    cases ha : isIfs a with
    | true =>
      have hcs : c ∈ s := by
        rcases List.mem_cons.1 hc with rfl | h
        · rw [ha] at hf; cases hf
        · exact h
      have := words_append [] s a ha
      rw [List.nil_append] at this
      rw [this, List.length_append]
      have := ih hcs
      omega
    | false =>
      rw [shellWords, List.splitOnP_cons_eq_if_modifyHead, if_neg (by simp [ha])]
      cases hs : s.splitOnP isIfs with
      | nil => exact absurd hs (List.splitOnP_ne_nil _ _)
      | cons x l => simp

/-- C118: the job script hands over the parameters, the directory and the id as they are when neither the directory
nor the id has a blank in it; the parameters may have any. -/
theorem C118_called (script text scratch : Str) (J : Nat) (hs : scratch ≠ [])
    (h : ' ' ∉ scratch ∧ '\t' ∉ scratch ∧ '\n' ∉ scratch) :
    scriptArguments script text scratch (natStr J) = [script, text, scratch, natStr J] := by
  have h1 : shellWords scratch = [scratch] := by
    refine words_one hs fun c hc => ?_
    simp only [isIfs, Bool.or_eq_false_iff, beq_eq_false_iff_ne]
    exact ⟨⟨fun e => h.1 (e ▸ hc), fun e => h.2.1 (e ▸ hc)⟩, fun e => h.2.2 (e ▸ hc)⟩
  have h2 : shellWords (natStr J) = [natStr J] := by
    refine words_one (natStr_ne_nil J) fun c hc => ?_
    have n : ∀ x, digitVal x = none → x ∉ natStr J := fun x hx => notMem_natStr hx J
    simp only [isIfs, Bool.or_eq_false_iff, beq_eq_false_iff_ne]
    exact ⟨⟨fun e => n ' ' (by decide) (e ▸ hc), fun e => n '\t' (by decide) (e ▸ hc)⟩,
      fun e => n '\n' (by decide) (e ▸ hc)⟩
  simp [scriptArguments, h1, h2]

/-- C118 is false of directories with a blank inside: the job script does not quote the directory, so the
script gets too many arguments, and the job ends without having computed anything. -/
theorem C118_blank_refuted (env : Env) (dB : Quantity) (prep : BoxParams → Except Err Unit)
    (vals : BoxParams → BlockValues V) (script text a b : Str) (J : Nat)
    (ha : ∃ c ∈ a, isIfs c = false) (hb : ∃ c ∈ b, isIfs c = false) (disk : Disk V) :
    samplingMain env dB prep vals (scriptArguments script text (a ++ ' ' :: b) (natStr J)) disk
      = (disk, .error .assertion) := by
  refine C118_arguments env dB prep vals _ ?_ disk
  have hJ : ∃ c ∈ natStr J, isIfs c = false := by
    cases hn : natStr J with
    | nil => exact absurd hn (natStr_ne_nil J)
    | cons c l =>
      refine ⟨c, by simp, ?_⟩
      have n : ∀ x, digitVal x = none → x ∉ natStr J := fun x hx => notMem_natStr hx J
      rw [hn] at n
      simp only [isIfs, Bool.or_eq_false_iff, beq_eq_false_iff_ne]
      exact ⟨⟨fun e => n ' ' (by decide) (by simp [e]), fun e => n '\t' (by decide) (by simp [e])⟩,
        fun e => n '\n' (by decide) (by simp [e])⟩
  have h1 := words_pos ha
  have h2 := words_pos hb
  have h3 := words_pos hJ
  simp only [scriptArguments, words_append a b ' ' rfl, List.length_append, List.length_cons, List.length_nil]
  omega

/-! ### A concrete case -/

/-- the submission of `JobParams`, 1000 samples in 10 blocks
of 100, 12 beads, 300 K -/
theorem asked0 : Asked env0 params0 c!"/work/ü" c!"text" c!"text" 11 0 12 1000 100 10 300 where
  valid := params0_valid
  free := params0_free
  samples := by simp [Maps, params0]
  nBlocks := by simp [Maps, params0]
  blockSize := by simp [Maps, params0]
  beads := by simp [Maps, params0]
  states := ⟨.int 2, by simp [Maps, params0]⟩
  modes := ⟨.int 2, by simp [Maps, params0]⟩
  temperature := ⟨.float c!"300.0", by simp [Maps, params0], rfl⟩
  beta := fun v hv => by
    have : ∀ p ∈ params0, p.1 ≠ c!"beta" := by
      simp only [params0, List.forall_mem_cons, List.not_mem_nil, false_implies, implies_true]
      decide
    exact absurd rfl (this _ hv)
  idData := by simp [Maps, params0]
  idRho := by simp [Maps, params0]
  pathRoot := by simp [Maps, params0]
  isRoot := ⟨[c!"work", c!"ü"], by simp, by decide, by decide⟩
  abs := rfl
  vibModel := rfl
  rhoModel := rfl
  positive := ⟨by omega, by norm_num, by simp [env0]⟩

/-- Job 4711 of this submission saves its 1000 samples below the scratch directory. -/
example (vals : BlockValues ℚ) :
    ∃ disk' : Disk ℚ, samplingMain env0 (.calculated 0) (fun _ => .ok ()) (fun _ => vals)
        [c!"pimc.py", jsonSerialize params0, pathScratch (rhoDir c!"/work/ü" 11 0), natStr 4711] (fun _ => none)
        = (disk', .ok ()) ∧
      disk' c!"/scratch/ü/data_set_11/rho_0/results/P12_T300.00_J4711_data_points.npz"
        = some (results c!"text" c!"text" vals 1000 100) := by
  obtain ⟨b, disk', n, -, hn, h1, h2, -⟩ := C118_saves_partial asked0 (.calculated 0) (fun _ => .ok ())
    (fun _ => vals) (fun _ _ => rfl) (by omega) (by omega) c!"pimc.py" 4711 (fun _ => none)
  refine ⟨disk', h1, ?_⟩
  have hn' : n = 30000 := by
    have h := abs_le.1 hn
    have a : (n : ℝ) < (30001 : ℕ) := by push_cast; linarith [h.1]
    have b : ((29999 : ℕ) : ℝ) < n := by push_cast; linarith [h.2]
    have a' := Nat.cast_lt.1 a
    have b' := Nat.cast_lt.1 b
    omega
  subst hn'
  have e : resultFile (pathScratch c!"/work/ü") 11 0 12 30000 4711
      = c!"/scratch/ü/data_set_11/rho_0/results/P12_T300.00_J4711_data_points.npz" := by decide +kernel
  rw [← e]
  exact h2

/-- a submission of 1000 samples in `n` blocks of `B` -/
def paramsN (B n : Nat) : List (Str × Json) :=
  [(c!"number_of_samples", .int 1000), (c!"number_of_blocks", .int n),
   (c!"number_of_states", .int 2), (c!"number_of_beads", .int 12), (c!"number_of_modes", .int 2),
   (c!"temperature", .float c!"300.0"), (c!"block_size", .int B), (c!"id_data", .int 11),
   (c!"id_rho", .int 0), (c!"path_root", .str c!"/work/ü")]

theorem askedN (B n : Nat) (hf : Free ';' (paramsN B n)) (hv : (Json.dict (paramsN B n)).Valid) :
    Asked env0 (paramsN B n) c!"/work/ü" c!"text" c!"text" 11 0 12 1000 B n 300 where
  valid := hv
  free := hf
  samples := by simp [Maps, paramsN]
  nBlocks := by simp [Maps, paramsN]
  blockSize := by simp [Maps, paramsN]
  beads := by simp [Maps, paramsN]
  states := ⟨.int 2, by simp [Maps, paramsN]⟩
  modes := ⟨.int 2, by simp [Maps, paramsN]⟩
  temperature := ⟨.float c!"300.0", by simp [Maps, paramsN], rfl⟩
  beta := fun v hv => by
    have : ∀ p ∈ paramsN B n, p.1 ≠ c!"beta" := by
      simp only [paramsN, List.forall_mem_cons, List.not_mem_nil, false_implies, implies_true]
      decide
    exact absurd rfl (this _ hv)
  idData := by simp [Maps, paramsN]
  idRho := by simp [Maps, paramsN]
  pathRoot := by simp [Maps, paramsN]
  isRoot := ⟨[c!"work", c!"ü"], by simp, by decide, by decide⟩
  abs := rfl
  vibModel := rfl
  rhoModel := rfl
  positive := ⟨by omega, by norm_num, by simp [env0]⟩

theorem paramsN_valid (B n : Nat) : (Json.dict (paramsN B n)).Valid := by
  simp only [paramsN, Json.Valid, validPairs, and_true, tok300, List.map]
  decide

/-- Blocks of 300, of which the submitting code asks for `1000 // 300 = 3`: the file states 1000 samples; sample 999 has no value. -/
example (vals : BlockValues ℚ) :
    ∃ (disk' : Disk ℚ) (p : Str) (f : ResultFile ℚ),
      samplingMain env0 (.calculated 0) (fun _ => .ok ()) (fun _ => vals)
        [c!"pimc.py", jsonSerialize (paramsN 300 3), c!"/scratch/", natStr 4711] (fun _ => none) = (disk', .ok ()) ∧
      disk' p = some f ∧ f.number = some 1000 ∧ (f.rho.getD [])[999]? = some none := by
  obtain ⟨disk', p, f, h1, h2, h3, h4⟩ := C118_short_refuted
    (askedN 300 3 (by unfold Free; decide) (paramsN_valid 300 3)) (.calculated 0) (fun _ => .ok ()) (fun _ => vals)
    (fun _ _ => rfl) (by omega) (by omega) c!"pimc.py" c!"/scratch/" 4711 (fun _ => none)
  exact ⟨disk', p, f, h1, h2, h3, (h4 999 (by omega) (by omega)).1⟩

/-- no block -/
example (vals : BlockValues ℚ) (disk : Disk ℚ) :
    samplingMain env0 (.calculated 0) (fun _ => .ok ()) (fun _ => vals)
      [c!"pimc.py", jsonSerialize (paramsN 100 0), c!"/scratch/", c!"4711"] disk = (disk, .error .unbound) :=
  C118_no_block (askedN 100 0 (by unfold Free; decide) (paramsN_valid 100 0)) _ _ _ (fun _ _ => rfl) _ _ _ _

/-- four blocks of 300 -/
example (vals : BlockValues ℚ) (disk : Disk ℚ) :
    samplingMain env0 (.calculated 0) (fun _ => .ok ()) (fun _ => vals)
      [c!"pimc.py", jsonSerialize (paramsN 300 4), c!"/scratch/", c!"4711"] disk = (disk, .error .broadcast) :=
  C118_too_many_blocks (askedN 300 4 (by unfold Free; decide) (paramsN_valid 300 4)) _ _ _ (fun _ _ => rfl)
    (by omega) _ _ _ _

/-- an id that is no number -/
example : pyInt c!"4711_3x" = .error .value := by decide +kernel

/-- a directory with a blank: `/home/a b/` -/
example (disk : Disk ℚ) (vals : BoxParams → BlockValues ℚ) :
    samplingMain env0 (.calculated 0) (fun _ => .ok ()) vals
      (scriptArguments c!"pimc.py" (jsonSerialize params0) c!"/home/a b/" (natStr 4711)) disk
      = (disk, .error .assertion) :=
  C118_blank_refuted env0 _ _ _ _ _ c!"/home/a" c!"b/" 4711 ⟨'h', by decide, by decide⟩ ⟨'b', by decide, by decide⟩ disk

end Pibronic.Props.ServerJob
