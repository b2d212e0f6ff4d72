import Verif.Model.Examples
import Verif.Spec.Shell
import Verif.Props.Analytic
import Mathlib.Tactic.IntervalCases
import Mathlib.Tactic.NormNum

set_option autoImplicit false

/-!
Theorems about the programs in `examples`: C121 (the systems and their data sets), C122 (which calculations
are submitted, and what they are asked for).
-/
namespace Pibronic.Props.Examples
open Pibronic.Py Pibronic.FileName Pibronic.FileStructure Pibronic.Analytic Pibronic.Examples
open Pibronic.Spec.FileStructure Pibronic.Spec.Shell Pibronic.Postprocessing Pibronic.Props.Analytic

variable {V : Type}

/-! ### C121: the systems -/

/-- C121: the data sets of the artificial systems are 11-15, 21-25 and 31-35, where the tens give the system
and the ones the strength of the coupling; every other number is refused. -/
theorem C121_artificial (d : Nat) :
    (∀ k j, 1 ≤ k → k ≤ 3 → 1 ≤ j → j ≤ 5 → d = 10 * k + j →
      artificial.assertId d = .ok () ∧
      artificial.systemName d = .ok ([c!"2x2", c!"4x6", c!"7x12"].getD (k - 1) []) ∧
      tuningParameter d = .ok ([0.05, 0.25, 0.5, 0.75, 1].getD (j - 1) 0)) ∧
    ((¬ ∃ k j, 1 ≤ k ∧ k ≤ 3 ∧ 1 ≤ j ∧ j ≤ 5 ∧ d = 10 * k + j) →
      artificial.assertId d = .error .assertion ∧ artificial.systemName d = .error .assertion ∧
      tuningParameter d = .error .assertion) := by
  have hv : artificial.idValid d = true ↔ ∃ k j, 1 ≤ k ∧ k ≤ 3 ∧ 1 ≤ j ∧ j ≤ 5 ∧ d = 10 * k + j := by
    have : artificial.systems.flatMap (·.2) = [11, 12, 13, 14, 15, 21, 22, 23, 24, 25, 31, 32, 33, 34, 35] := by
      decide
    unfold Project.idValid
    rw [this]
    simp only [List.contains_iff_mem, List.mem_cons, List.not_mem_nil, or_false]
    constructor
    · intro h
      exact ⟨d / 10, d % 10, by omega, by omega, by omega, by omega, by omega⟩
    · rintro ⟨k, j, h1, h2, h3, h4, rfl⟩
      omega
  constructor
  · intro k j h1 h2 h3 h4 rfl
    interval_cases k <;> interval_cases j <;> refine ⟨?_, ?_, ?_⟩ <;> first | rfl | (norm_num [tuningParameter]; rfl)
  · intro h
    have hf : artificial.idValid d = false := by
      rw [← Bool.not_eq_true, hv]; exact h
    have ha : artificial.assertId d = .error .assertion := by simp [Project.assertId, hf]
    refine ⟨ha, ?_, ?_⟩
    · unfold Project.systemName; rw [ha]; rfl
    · unfold tuningParameter; rw [ha]; rfl

/-- C121: the same for the systems of the paper: 11-16, 21-26, 31-36 and 41-46. -/
theorem C121_paper (d : Nat) :
    (∀ k j, 1 ≤ k → k ≤ 4 → 1 ≤ j → j ≤ 6 → d = 10 * k + j →
      paper.assertId d = .ok () ∧
      paper.systemName d =
        .ok ([c!"superimposed", c!"displaced", c!"elevated", c!"jahnteller"].getD (k - 1) [])) ∧
    ((¬ ∃ k j, 1 ≤ k ∧ k ≤ 4 ∧ 1 ≤ j ∧ j ≤ 6 ∧ d = 10 * k + j) →
      paper.assertId d = .error .assertion ∧ paper.systemName d = .error .assertion) := by
  have hv : paper.idValid d = true ↔ ∃ k j, 1 ≤ k ∧ k ≤ 4 ∧ 1 ≤ j ∧ j ≤ 6 ∧ d = 10 * k + j := by
    have : paper.systems.flatMap (·.2) = [11, 12, 13, 14, 15, 16, 21, 22, 23, 24, 25, 26, 31, 32, 33, 34, 35, 36,
        41, 42, 43, 44, 45, 46] := by
      decide
    unfold Project.idValid
    rw [this]
    simp only [List.contains_iff_mem, List.mem_cons, List.not_mem_nil, or_false]
    constructor
    · intro h
      exact ⟨d / 10, d % 10, by omega, by omega, by omega, by omega, by omega⟩
    · rintro ⟨k, j, h1, h2, h3, h4, rfl⟩
      omega
  constructor
  · intro k j h1 h2 h3 h4 rfl
    interval_cases k <;> interval_cases j <;> refine ⟨?_, ?_⟩ <;> rfl
  · intro h
    have hf : paper.idValid d = false := by
      rw [← Bool.not_eq_true, hv]; exact h
    have ha : paper.assertId d = .error .assertion := by simp [Project.assertId, hf]
    refine ⟨ha, ?_⟩
    unfold Project.systemName; rw [ha]; rfl

/-- C121: a matrix that couples the surfaces exists for the strength of every data set: the strengths lie
between 0 and 1, and differ from 0. -/
theorem C121_strength (d : Nat) (x : ℚ) (h : tuningParameter d = .ok x) : 0 < x ∧ x ≤ 1 := by
  unfold tuningParameter at h
  cases ha : artificial.assertId d with
  | error e => rw [ha] at h; cases h
  | ok u =>
    rw [ha] at h
    simp only [bind, Except.bind] at h
    split at h
    · next e he =>
      have := List.mem_of_find?_eq_some he
      simp only [Except.ok.injEq] at h
      subst h
      simp only [List.mem_cons, List.not_mem_nil, or_false] at this
      rcases this with rfl | rfl | rfl | rfl | rfl <;> norm_num
    · cases h

/-- All pairs. -/
def grid (ds rs : List Nat) : List (Nat × Nat) := ds.flatMap fun d => rs.map fun r => (d, r)

theorem mem_grid {ds rs : List Nat} {d r : Nat} : (d, r) ∈ grid ds rs ↔ d ∈ ds ∧ r ∈ rs := by
  simp [grid]

theorem mem_range {a b n : Nat} : n ∈ range a b ↔ a ≤ n ∧ n < b := by
  simp only [range, List.mem_map, List.mem_range]
  constructor
  · rintro ⟨m, h1, rfl⟩; omega
  · intro h; exact ⟨n - a, by omega, by omega⟩

theorem range_nodup (a b : Nat) : (range a b).Nodup :=
  List.Nodup.map (fun x y h => by simpa using h) List.nodup_range

theorem grid_nodup {ds rs : List Nat} (h1 : ds.Nodup) (h2 : rs.Nodup) : (grid ds rs).Nodup := by
  have : grid ds rs = ds ×ˢ rs := rfl
  rw [this]
  exact List.Nodup.product h1 h2

/-- C121: submission, analysis and plots of a system of the artificial ones go through its five data sets
and for each through the five sampling distributions, each once; another name is refused. -/
theorem C121_visits_artificial (name : Str) :
    (∀ k < 3, name = [c!"2x2", c!"4x6", c!"7x12"].getD k [] →
      ∃ l, artificial.visits name = .ok l ∧ l.Nodup ∧
        ∀ d r, (d, r) ∈ l ↔ (10 * (k + 1) + 1 ≤ d ∧ d ≤ 10 * (k + 1) + 5) ∧ r < 5) ∧
    (name ∉ [c!"2x2", c!"4x6", c!"7x12"] → artificial.visits name = .error .assertion) := by
  constructor
  · intro k hk hn
    have hg : ∀ a b, (grid (range a b) (range 0 5)).Nodup ∧ ∀ d r, (d, r) ∈ grid (range a b) (range 0 5) ↔
        (a ≤ d ∧ d < b) ∧ r < 5 := fun a b =>
      ⟨grid_nodup (range_nodup _ _) (range_nodup _ _), fun d r => by rw [mem_grid, mem_range, mem_range]; omega⟩
    have hl : artificial.visits name = .ok (grid (range (10 * (k + 1) + 1) (10 * (k + 1) + 6)) (range 0 5)) := by
      interval_cases k <;> subst hn <;> rfl
    exact ⟨_, hl, (hg _ _).1, fun d r => by rw [(hg _ _).2]; omega⟩
  · intro h
    have : artificial.assertName name = .error .assertion := by
      unfold Project.assertName Project.nameValid
      rw [if_neg]
      simpa [artificial] using h
    unfold Project.visits
    rw [this]; rfl

/-- C121: the same for the systems of the paper; the last one has one sampling distribution more. -/
theorem C121_visits_paper (name : Str) :
    (∀ k < 4, name = [c!"superimposed", c!"displaced", c!"elevated", c!"jahnteller"].getD k [] →
      ∃ l, paper.visits name = .ok l ∧ l.Nodup ∧
        ∀ d r, (d, r) ∈ l ↔ (10 * (k + 1) + 1 ≤ d ∧ d ≤ 10 * (k + 1) + 6) ∧
          (r = 0 ∨ r = 1 ∨ r = 11 ∨ (k = 3 ∧ r = 2))) ∧
    (name ∉ [c!"superimposed", c!"displaced", c!"elevated", c!"jahnteller"] →
      paper.visits name = .error .assertion) := by
  constructor
  · intro k hk hn
    have hl : paper.visits name = .ok (grid (range (10 * (k + 1) + 1) (10 * (k + 1) + 7))
        (if k = 3 then [0, 1, 2, 11] else [0, 1, 11])) := by
      interval_cases k <;> subst hn <;> rfl
    refine ⟨_, hl, grid_nodup (range_nodup _ _) (by split <;> decide), fun d r => ?_⟩
    rw [mem_grid, mem_range]
    split <;> simp <;> omega
  · intro h
    have : paper.assertName name = .error .assertion := by
      unfold Project.assertName Project.nameValid
      rw [if_neg]
      simpa [paper] using h
    unfold Project.visits
    rw [this]; rfl

/-! ### C122: the calculations that are submitted -/

/-- What a user means by "the result is there": the file is readable, was made for the current model, and has an
entry for the temperature. -/
def Done (h : Str) (T : Nat) (c : Contents V) : Prop :=
  ∃ d, c = .dict d ∧ d c!"hash_vib" = some (.hash h) ∧ d (tempStr T) ≠ none

/-- A results file that exists can be read and names its model. -/
def Readable (c : Contents V) : Prop := c = .absent ∨ ∃ d, c = .dict d ∧ d c!"hash_vib" ≠ none

/-- The Python program of a job: where the data are and what is calculated at which temperature. -/
def sosProgram (absRoot : Str) (d B T : Nat) : Str :=
  c!"import pibronic;from pibronic.data import file_structure as fs;from pibronic import julia_wrapper as jw;from pibronic.constants import beta;b = beta(" ++
    tempStr T ++ c!");BS = " ++ natStr B ++ c!";FS = fs.FileStructure(\"" ++ absRoot ++ c!"\", " ++ natStr d ++
    c!", 0);FS.generate_model_hashes();jw.prepare_julia();pibronic.julia_wrapper.sos_of_coupled_model(FS, BS, b);"

/-- The same for the Trotter calculation with a number of beads. -/
def trotterProgram (absRoot : Str) (d B T P : Nat) : Str :=
  c!"import pibronic;from pibronic.data import file_structure as fs;from pibronic import julia_wrapper as jw;from pibronic.constants import beta;b = beta(" ++
    tempStr T ++ c!");P = " ++ natStr P ++ c!";BS = " ++ natStr B ++ c!";FS = fs.FileStructure(\"" ++ absRoot ++
    c!"\", " ++ natStr d ++
    c!", 0);FS.generate_model_hashes();jw.prepare_julia();pibronic.julia_wrapper.trotter_of_coupled_model(FS, P, BS, b);"

/-- The words of the command that runs a program on the cluster. -/
def srun (name program : Str) : List Str :=
  [c!"srun", c!"--job-name=" ++ name, c!"--mem=20GB", c!"python3", c!"-c", program]

theorem lex_plain (w s : Str) (cur : Option Str) (h : ∀ c ∈ w, plain c = true) (hw : w ≠ []) :
    lex false cur (w ++ s) = lex false (some (cur.getD [] ++ w)) s := by
  induction w generalizing cur with
  | nil => exact absurd rfl hw
  | cons c w ih =>
    have hc := h c (by simp)
    have h1 : c ≠ '\'' := by rintro rfl; revert hc; decide
    have h2 : c ≠ ' ' := by rintro rfl; revert hc; decide
    rw [List.cons_append, lex, if_neg h1, if_neg h2, if_pos hc]
    cases w with
    | nil => simp
    | cons c' w =>
      rw [ih _ (fun x hx => h x (List.mem_cons_of_mem _ hx)) (by simp)]
      simp

theorem lex_blank (s : Str) (cur : Option Str) :
    lex false cur (' ' :: s) = (lex false none s).map (cur.toList ++ ·) := by
  rw [lex, if_neg (by decide), if_pos rfl]

theorem lex_quoted (q s : Str) (cur : Str) (h : '\'' ∉ q) :
    lex true (some cur) (q ++ '\'' :: s) = lex false (some (cur ++ q)) s := by
  induction q generalizing cur with
  | nil => simp [lex]
  | cons c q ih =>
    have hc : c ≠ '\'' := fun e => h (by simp [e])
    rw [List.cons_append, lex, if_neg hc]
    simp only [Option.getD_some]
    rw [ih _ (fun hx => h (List.mem_cons_of_mem _ hx))]
    simp

theorem words_srun (name program : Str) (h1 : ∀ c ∈ name, plain c = true) (h2 : '\'' ∉ program) :
    words (c!"srun --job-name=" ++ name ++ c!" --mem=20GB python3 -c '" ++ program ++ c!"'")
      = some (srun name program) := by
  have e : c!"srun --job-name=" ++ name ++ c!" --mem=20GB python3 -c '" ++ program ++ c!"'" =
      c!"srun" ++ ' ' :: ((c!"--job-name=" ++ name) ++ ' ' :: (c!"--mem=20GB" ++ ' ' :: (c!"python3" ++ ' ' ::
        (c!"-c" ++ ' ' :: '\'' :: (program ++ '\'' :: []))))) := by simp
  have hj : ∀ c ∈ c!"--job-name=" ++ name, plain c = true := by
    intro c hc
    rcases List.mem_append.1 hc with hc | hc
    · exact (by decide : ∀ c ∈ c!"--job-name=", plain c = true) c hc
    · exact h1 c hc
  unfold words srun
  rw [e, lex_plain _ _ _ (by decide) (by decide), lex_blank, lex_plain _ _ _ hj (by simp), lex_blank,
    lex_plain _ _ _ (by decide) (by decide), lex_blank, lex_plain _ _ _ (by decide) (by decide), lex_blank,
    lex_plain _ _ _ (by decide) (by decide), lex_blank]
  rw [lex, if_pos rfl, Option.getD_none, lex_quoted _ _ _ h2]
  simp [lex]

theorem plain_natStr (n : Nat) : ∀ c ∈ natStr n, plain c = true := by
  intro c hc
  have := natStr_isDigit n c hc
  unfold IsDigit digitVal at this
  have hd : 48 ≤ c.toNat ∧ c.toNat ≤ 57 := by
    by_contra h
    simp [h] at this
  have : c.isDigit = true := by
    simp only [Char.isDigit, Bool.and_eq_true, decide_eq_true_eq]
    exact ⟨hd.1, hd.2⟩
  simp [plain, Char.isAlphanum, this]

theorem plain_digit (n : Nat) (h : n < 10) : plain (digit n) = true := by
  interval_cases n <;> decide

theorem plain_tempStr (T : Nat) : ∀ c ∈ tempStr T, plain c = true := by
  intro c hc
  simp only [tempStr, List.mem_append, List.mem_cons, List.not_mem_nil, or_false] at hc
  rcases hc with h | rfl | rfl | rfl
  · exact plain_natStr _ c h
  · decide
  · exact plain_digit _ (Nat.mod_lt _ (by decide))
  · exact plain_digit _ (Nat.mod_lt _ (by decide))

theorem notMem_of_plain {x : Char} {w : Str} (h : ∀ c ∈ w, plain c = true) (hx : plain x = false) : x ∉ w :=
  fun hm => by rw [h x hm] at hx; cases hx

section
variable {root absRoot : Str} (hr : RootOk root absRoot) (hh : Harmless absRoot) (d : Nat)

theorem harmless_notMem {x : Char} (hh : Harmless absRoot) (hx : x ∈ c!"{}'\"\\\n") : x ∉ absRoot :=
  fun h => hh x h hx

theorem format_end (args : Str → Option Arg) (t : Str) (h1 : '{' ∉ t) (h2 : '}' ∉ t) : format args t = .ok t := by
  have := format_literal args t [] h1 h2
  rw [format_nil] at this
  simpa [Except.map] using this

include hh in
theorem makeFS_notMem (x : Char) (hx : x = '{' ∨ x = '}' ∨ x = '\'') (r : Nat) :
    x ∉ makeFS (initFS root absRoot d r) := by
  have h1 : x ∉ natStr d := notMem_of_plain (plain_natStr d) (by rcases hx with rfl | rfl | rfl <;> decide)
  have h2 : x ∉ natStr r := notMem_of_plain (plain_natStr r) (by rcases hx with rfl | rfl | rfl <;> decide)
  have h3 : x ∉ absRoot := harmless_notMem hh (by rcases hx with rfl | rfl | rfl <;> decide)
  have e : makeFS (initFS root absRoot d r) = c!"FS = fs.FileStructure(\"" ++ absRoot ++ c!"\", " ++ natStr d ++
    c!", " ++ natStr r ++ c!");" := rfl
  rw [e]
  simp only [List.mem_append, not_or]
  refine ⟨⟨⟨⟨⟨⟨?_, h3⟩, ?_⟩, h1⟩, ?_⟩, h2⟩, ?_⟩
  all_goals rcases hx with rfl | rfl | rfl <;> decide

include hh in
theorem sosCommand_eq (B T : Nat) : sosCommand (initFS root absRoot d 0) B T =
    .ok (c!"srun --job-name=" ++ (c!"sos_D" ++ natStr d ++ c!"_T" ++ tempStr T) ++ c!" --mem=20GB python3 -c '" ++
      sosProgram absRoot d B T ++ c!"'") := by
  have e : sosTemplate (initFS root absRoot d 0) =
      (jlImport ++ c!"b = beta(") ++ ('{' :: (c!"temperature" ++ ':' :: c!".2f" ++ '}' :: (c!");BS = " ++
        ('{' :: (c!"BS" ++ ':' :: c!"d" ++ '}' :: (c!";" ++ makeFS (initFS root absRoot d 0) ++
        c!"FS.generate_model_hashes();jw.prepare_julia();pibronic.julia_wrapper.sos_of_coupled_model(FS, BS, b);")))))) := by
    simp [sosTemplate]
  have n1 := makeFS_notMem (root := root) hh d '{' (by simp) 0
  have n2 := makeFS_notMem (root := root) hh d '}' (by simp) 0
  unfold sosCommand
  rw [e, format_literal _ _ _ (by decide) (by decide),
    format_field _ c!"temperature" c!".2f" _ (.float T) (tempStr T) (by decide) (by decide) (by decide) rfl rfl,
    format_literal _ _ _ (by decide) (by decide),
    format_field _ c!"BS" c!"d" _ (.int B) (natStr B) (by decide) (by decide) (by decide) (by simp) rfl,
    format_end]
  · have hz : natStr 0 = c!"0" := by decide +kernel
    simp only [Except.map, bind, Except.bind, sosProgram, makeFS, initFS, hz, List.append_assoc]
    rfl
  · simp only [List.mem_append, not_or]; exact ⟨⟨by decide, n1⟩, by decide⟩
  · simp only [List.mem_append, not_or]; exact ⟨⟨by decide, n2⟩, by decide⟩

include hh in
theorem trotterCommand_eq (B T P : Nat) : trotterCommand (initFS root absRoot d 0) B T P =
    .ok (c!"srun --job-name=" ++ (c!"trotter_D" ++ natStr d ++ c!"_P" ++ natStr P ++ c!"_T" ++ tempStr T) ++
      c!" --mem=20GB python3 -c '" ++ trotterProgram absRoot d B T P ++ c!"'") := by
  have e : trotterTemplate (initFS root absRoot d 0) =
      (jlImport ++ c!"b = beta(") ++ ('{' :: (c!"temperature" ++ ':' :: c!".2f" ++ '}' :: (c!");P = " ++
        ('{' :: (c!"nbeads" ++ ':' :: c!"d" ++ '}' :: (c!";BS = " ++
        ('{' :: (c!"BS" ++ ':' :: c!"d" ++ '}' :: (c!";" ++ makeFS (initFS root absRoot d 0) ++
        c!"FS.generate_model_hashes();jw.prepare_julia();pibronic.julia_wrapper.trotter_of_coupled_model(FS, P, BS, b);")))))))))
      := by
    simp [trotterTemplate]
  have n1 := makeFS_notMem (root := root) hh d '{' (by simp) 0
  have n2 := makeFS_notMem (root := root) hh d '}' (by simp) 0
  unfold trotterCommand
  rw [e, format_literal _ _ _ (by decide) (by decide),
    format_field _ c!"temperature" c!".2f" _ (.float T) (tempStr T) (by decide) (by decide) (by decide) rfl rfl,
    format_literal _ _ _ (by decide) (by decide),
    format_field _ c!"nbeads" c!"d" _ (.int P) (natStr P) (by decide) (by decide) (by decide) (by simp) rfl,
    format_literal _ _ _ (by decide) (by decide),
    format_field _ c!"BS" c!"d" _ (.int B) (natStr B) (by decide) (by decide) (by decide) (by simp) rfl,
    format_end]
  · have hz : natStr 0 = c!"0" := by decide +kernel
    simp only [Except.map, bind, Except.bind, trotterProgram, makeFS, initFS, hz, List.append_assoc]
    rfl
  · simp only [List.mem_append, not_or]; exact ⟨⟨by decide, n1⟩, by decide⟩
  · simp only [List.mem_append, not_or]; exact ⟨⟨by decide, n2⟩, by decide⟩

end

theorem not_done_absent (h : Str) (T : Nat) : ¬ Done h T (Contents.absent : Contents V) := by
  rintro ⟨d, h1, -⟩; cases h1

open Classical in
theorem alreadyPresent_readable (h : Str) (T : Nat) (c : Contents V) (hc : Readable c) :
    alreadyPresent h T c = .ok (decide (Done h T c)) := by
  rcases hc with rfl | ⟨d, rfl, hd⟩
  · have : ¬ Done h T (Contents.absent : Contents V) := by rintro ⟨d, h1, -⟩; cases h1
    simp [alreadyPresent, this]
  · cases hv : d c!"hash_vib" with
    | none => exact absurd hv hd
    | some x =>
      have : (hasHash d c!"hash_vib" h && (d (tempStr T)).isSome) = decide (Done h T (.dict d)) := by
        rw [Bool.eq_iff_iff, Bool.and_eq_true, hasHash_iff, decide_eq_true_eq, Option.isSome_iff_ne_none]
        constructor
        · rintro ⟨h1, h2⟩; exact ⟨d, rfl, h1, h2⟩
        · rintro ⟨d', h0, h1, h2⟩; cases h0; exact ⟨h1, h2⟩
      simp only [alreadyPresent, hv, this]

open Classical in
theorem submitAll_append (s : FS) (h : Str) (file : Calc → Method) (seen : Calc → Contents V)
    (command : Calc → Except Err Str) (cmd : Calc → Str) (hf : ∀ c, ∃ p, (file c).dst s = .ok p)
    (hcmd : ∀ c, command c = .ok (cmd c)) (l rest : List Calc) (hl : ∀ c ∈ l, Readable (seen c)) :
    submitAll s h file seen command (l ++ rest) =
      ((l.filter fun c => ¬ Done h c.temp (seen c)).map cmd ++ (submitAll s h file seen command rest).1,
        (submitAll s h file seen command rest).2) := by
  induction l with
  | nil => rfl
  | cons c l ih =>
    obtain ⟨p, hp⟩ := hf c
    have hs : skips s h (file c) c.temp (seen c) = .ok (decide (Done h c.temp (seen c))) := by
      unfold skips
      rw [hp]
      exact alreadyPresent_readable h _ _ (hl c (by simp))
    have ih := ih fun c hc => hl c (List.mem_cons_of_mem _ hc)
    rw [List.cons_append, submitAll, hs]
    by_cases hd : Done h c.temp (seen c)
    · simp only [hd, decide_true, ih, List.filter_cons, not_true_eq_false, decide_false]
      rfl
    · simp only [hd, decide_false, hcmd, ih, List.filter_cons, not_false_eq_true, decide_true, if_true,
        List.map_cons, List.cons_append]

open Classical in
theorem submitAll_readable (s : FS) (h : Str) (file : Calc → Method) (seen : Calc → Contents V)
    (command : Calc → Except Err Str) (cmd : Calc → Str) (hf : ∀ c, ∃ p, (file c).dst s = .ok p)
    (hcmd : ∀ c, command c = .ok (cmd c)) (l : List Calc) (hl : ∀ c ∈ l, Readable (seen c)) :
    submitAll s h file seen command l =
      ((l.filter fun c => ¬ Done h c.temp (seen c)).map cmd, none) := by
  have := submitAll_append s h file seen command cmd hf hcmd l [] hl
  rw [List.append_nil] at this
  rw [this]
  simp [submitAll]

theorem submitAll_hashes (s : FS) (a b : Option Str) (h : Str) (file : Calc → Method)
    (seen : Calc → Contents V) (command : Calc → Except Err Str) (l : List Calc) :
    submitAll { s with hashVib := a, hashRho := b } h file seen command l
      = submitAll s h file seen command l := by
  have hd : ∀ m : Method, m.dst { s with hashVib := a, hashRho := b } = m.dst s := by
    intro m; cases m <;> rfl
  induction l with
  | nil => rfl
  | cons c l ih =>
    unfold submitAll skips
    rw [hd, ih]

theorem openProject_ok {p : Project} {d : Nat} (hv : p.assertId d = .ok ()) (hash : Str → Str) (host : Str)
    {root absRoot : Str} (absolute : Str → Str) {k : Disk} (hk : k.isDir root = true) {vib rho : Str}
    (h1 : k.files (initFS root absRoot d 0).pathVibModel = some vib)
    (h2 : k.files (initFS root absRoot d 0).pathRhoModel = some rho) :
    openProject p hash host (some (root, absRoot)) absolute k d =
      .ok { initFS root absRoot d 0 with hashVib := some (hash vib), hashRho := some (hash rho) } := by
  have hm : ∀ (k : Disk) (l : List Str), (l.foldl Disk.makedirs k).files = k.files := by
    intro k l
    induction l generalizing k with
    | nil => rfl
    | cons p l ih => rw [List.foldl_cons, ih]; rfl
  have hf : ((initFS root absRoot d 0).makeDirectories k).files = k.files := hm _ _
  unfold openProject
  rw [hv]
  simp only [bind, Except.bind, construct, hk, Bool.true_or, Bool.true_eq_false, if_false, new,
    Bool.false_eq_true, FS.generateModelHashes, hashOfFile, hf, h1, h2]
  rfl

/-- C122: without a given root the programs work in the directory of the server, and only on the two hosts that are
listed; on any other machine nothing is submitted. -/
theorem C122_root (p : Project) (hash : Str → Str) (host : Str) (absolute : Str → Str) (k : Disk) (d : Nat) :
    (host = c!"nlogn" ∨ host = c!"feynman" →
      openProject p hash host none absolute k d =
        openProject p hash host (some (p.serverRoot, absolute p.serverRoot)) absolute k d) ∧
    (¬ (host = c!"nlogn" ∨ host = c!"feynman") → ∀ generate : FS → Str → Submitted,
      ∃ e, wrapper generate (openProject p hash host none absolute k d) = ([], some e) ∧
        (p.assertId d = .ok () → e = .exception)) := by
  constructor
  · intro h
    simp only [openProject, Project.chooseRoot, if_pos h]
    rfl
  · intro h g
    cases hv : p.assertId d with
    | error e =>
      refine ⟨e, ?_, fun h' => by cases h'⟩
      unfold openProject; rw [hv]; rfl
    | ok u =>
      refine ⟨.exception, ?_, fun _ => rfl⟩
      unfold openProject; rw [hv]
      simp only [Project.chooseRoot, if_neg h]
      rfl

section
variable {p : Project} {root absRoot : Str} {d : Nat} {k : Disk} {vib rho : Str}

/-- The line that submits one sum over states. -/
def sosLine (absRoot : Str) (d B T : Nat) : Str :=
  c!"srun --job-name=" ++ (c!"sos_D" ++ natStr d ++ c!"_T" ++ tempStr T) ++ c!" --mem=20GB python3 -c '" ++
    sosProgram absRoot d B T ++ c!"'"

theorem words_sos (hh : Harmless absRoot) (B T : Nat) :
    words (sosLine absRoot d B T) =
      some (srun (c!"sos_D" ++ natStr d ++ c!"_T" ++ tempStr T) (sosProgram absRoot d B T)) := by
  apply words_srun
  · intro x hx
    simp only [List.mem_append] at hx
    rcases hx with ((hx | hx) | hx) | hx
    · exact (by decide : ∀ x ∈ c!"sos_D", plain x = true) x hx
    · exact plain_natStr _ x hx
    · exact (by decide : ∀ x ∈ c!"_T", plain x = true) x hx
    · exact plain_tempStr _ x hx
  · have a1 : '\'' ∉ natStr B := notMem_of_plain (plain_natStr _) (by decide)
    have a2 : '\'' ∉ natStr d := notMem_of_plain (plain_natStr _) (by decide)
    have a3 : '\'' ∉ tempStr T := notMem_of_plain (plain_tempStr _) (by decide)
    have a4 : '\'' ∉ absRoot := harmless_notMem hh (by decide)
    simp only [sosProgram, List.mem_append, not_or]
    exact ⟨⟨⟨⟨⟨⟨⟨⟨by decide, a3⟩, by decide⟩, a1⟩, by decide⟩, a4⟩, by decide⟩, a2⟩, by decide⟩

open Classical in
/-- C122: `simple_sos_wrapper` submits one job for every basis size and temperature whose result is not there yet, in
the order of the lists, and no other: each runs the sum over states of that data set with that basis size at that
temperature. (The results files may change while it runs; what counts is what each held when it was looked
at.) -/
theorem C122_sos (hr : RootOk root absRoot) (hh : Harmless absRoot) (hv : p.assertId d = .ok ())
    (hash : Str → Str) (host : Str) (absolute : Str → Str) (hk : k.isDir root = true)
    (h1 : k.files (dataDir absRoot d ++ c!"parameters/coupled_model.json") = some vib)
    (h2 : k.files (rhoDir absRoot d 0 ++ c!"parameters/sampling_model.json") = some rho)
    (seen : Calc → Contents V) (bases temps : List Nat)
    (hs : ∀ B ∈ bases, ∀ T ∈ temps, Readable (seen ⟨B, T, 0⟩)) :
    ∃ cmds, wrapper (fun s h => generateSos s h seen temps bases)
        (openProject p hash host (some (root, absRoot)) absolute k d) = (cmds, none) ∧
      cmds.map words =
        ((bases.flatMap fun B => temps.map fun T => (B, T)).filter fun c =>
            ¬ Done (hash vib) c.2 (seen ⟨c.1, c.2, 0⟩)).map fun c =>
          some (srun (c!"sos_D" ++ natStr d ++ c!"_T" ++ tempStr c.2) (sosProgram absRoot d c.1 c.2)) := by
  rw [openProject_ok hv hash host absolute hk (by simpa [initFS_eq hr] using h1) (by simpa [initFS_eq hr] using h2)]
  simp only [wrapper, Option.getD_some, generateSos]
  rw [submitAll_hashes]
  have hc : ∀ c : Calc, sosCommand
      { initFS root absRoot d 0 with hashVib := some (hash vib), hashRho := some (hash rho) } c.basis c.temp = 
        .ok (sosLine absRoot d c.basis c.temp) :=
    fun c => sosCommand_eq (root := root) hh d c.basis c.temp
  rw [submitAll_readable _ _ _ _ _ _ (fun c => ⟨_, C50_results_files hr (harmless_notMem hh (by decide))
    (harmless_notMem hh (by decide)) d 0 _⟩) hc]
  · refine ⟨_, rfl, ?_⟩
    have e : (bases.flatMap fun B => temps.map fun T => (⟨B, T, 0⟩ : Calc)) =
        (bases.flatMap fun B => temps.map fun T => (B, T)).map fun c => ⟨c.1, c.2, 0⟩ := by
      simp [List.map_flatMap, Function.comp_def]
    rw [e, List.filter_map, List.map_map, List.map_map]
    apply List.map_congr_left
    intro c _
    exact words_sos hh c.1 c.2
  · intro c hc
    simp only [List.mem_flatMap, List.mem_map] at hc
    obtain ⟨B, hB, T, hT, rfl⟩ := hc
    exact hs B hB T hT

theorem words_trotter (hh : Harmless absRoot) (B T P : Nat) :
    words (c!"srun --job-name=" ++ (c!"trotter_D" ++ natStr d ++ c!"_P" ++ natStr P ++ c!"_T" ++ tempStr T) ++
      c!" --mem=20GB python3 -c '" ++ trotterProgram absRoot d B T P ++ c!"'") =
      some (srun (c!"trotter_D" ++ natStr d ++ c!"_P" ++ natStr P ++ c!"_T" ++ tempStr T)
        (trotterProgram absRoot d B T P)) := by
  apply words_srun
  · intro x hx
    simp only [List.mem_append] at hx
    rcases hx with ((((hx | hx) | hx) | hx) | hx) | hx
    · exact (by decide : ∀ x ∈ c!"trotter_D", plain x = true) x hx
    · exact plain_natStr _ x hx
    · exact (by decide : ∀ x ∈ c!"_P", plain x = true) x hx
    · exact plain_natStr _ x hx
    · exact (by decide : ∀ x ∈ c!"_T", plain x = true) x hx
    · exact plain_tempStr _ x hx
  · have a1 : '\'' ∉ natStr B := notMem_of_plain (plain_natStr _) (by decide)
    have a2 : '\'' ∉ natStr d := notMem_of_plain (plain_natStr _) (by decide)
    have a5 : '\'' ∉ natStr P := notMem_of_plain (plain_natStr _) (by decide)
    have a3 : '\'' ∉ tempStr T := notMem_of_plain (plain_tempStr _) (by decide)
    have a4 : '\'' ∉ absRoot := harmless_notMem hh (by decide)
    simp only [trotterProgram, List.mem_append, not_or]
    exact ⟨⟨⟨⟨⟨⟨⟨⟨⟨⟨by decide, a3⟩, by decide⟩, a5⟩, by decide⟩, a1⟩, by decide⟩, a4⟩, by decide⟩, a2⟩, by decide⟩

open Classical in
/-- C122: the same for `simple_trotter_wrapper` of the paper's programs and every number of beads. -/
theorem C122_trotter (hr : RootOk root absRoot) (hh : Harmless absRoot) (hv : p.assertId d = .ok ())
    (hash : Str → Str) (host : Str) (absolute : Str → Str) (hk : k.isDir root = true)
    (h1 : k.files (dataDir absRoot d ++ c!"parameters/coupled_model.json") = some vib)
    (h2 : k.files (rhoDir absRoot d 0 ++ c!"parameters/sampling_model.json") = some rho)
    (seen : Calc → Contents V) (bases temps beads : List Nat)
    (hs : ∀ B ∈ bases, ∀ T ∈ temps, ∀ P ∈ beads, Readable (seen ⟨B, T, P⟩)) :
    ∃ cmds, wrapper (fun s h => generateTrotterPaper s h seen temps bases beads)
        (openProject p hash host (some (root, absRoot)) absolute k d) = (cmds, none) ∧
      cmds.map words =
        ((bases.flatMap fun B => temps.flatMap fun T => beads.map fun P => (⟨B, T, P⟩ : Calc)).filter fun c =>
            ¬ Done (hash vib) c.temp (seen c)).map fun c =>
          some (srun (c!"trotter_D" ++ natStr d ++ c!"_P" ++ natStr c.beads ++ c!"_T" ++ tempStr c.temp)
            (trotterProgram absRoot d c.basis c.temp c.beads)) := by
  rw [openProject_ok hv hash host absolute hk (by simpa [initFS_eq hr] using h1) (by simpa [initFS_eq hr] using h2)]
  simp only [wrapper, Option.getD_some, generateTrotterPaper]
  rw [submitAll_hashes]
  have hc : ∀ c : Calc, trotterCommand
      { initFS root absRoot d 0 with hashVib := some (hash vib), hashRho := some (hash rho) } c.basis c.temp c.beads = .ok (c!"srun --job-name=" ++ (c!"trotter_D" ++ natStr d ++
        c!"_P" ++ natStr c.beads ++ c!"_T" ++ tempStr c.temp) ++ c!" --mem=20GB python3 -c '" ++
        trotterProgram absRoot d c.basis c.temp c.beads ++ c!"'") :=
    fun c => trotterCommand_eq (root := root) hh d c.basis c.temp c.beads
  rw [submitAll_readable _ _ _ _ _ _ (fun c => ⟨_, C50_results_files hr (harmless_notMem hh (by decide))
    (harmless_notMem hh (by decide)) d 0 _⟩) hc]
  · refine ⟨_, rfl, ?_⟩
    rw [List.map_map]
    apply List.map_congr_left
    intro c _
    exact words_trotter hh c.basis c.temp c.beads
  · intro c hc
    simp only [List.mem_flatMap, List.mem_map] at hc
    obtain ⟨B, hB, T, hT, P, hP, rfl⟩ := hc
    exact hs B hB T hT P hP

end

/-! ### The Trotter jobs of the artificial systems -/

theorem skips_hashes (s : FS) (a b : Option Str) (h : Str) (m : Method) (T : Nat) (c : Contents V) :
    skips { s with hashVib := a, hashRho := b } h m T c = skips s h m T c := by
  have hd : m.dst { s with hashVib := a, hashRho := b } = m.dst s := by cases m <;> rfl
  unfold skips
  rw [hd]

/-- The words of the job that computes one Trotter result. -/
def trotterJob (absRoot : Str) (d B T P : Nat) : Option (List Str) :=
  some (srun (c!"trotter_D" ++ natStr d ++ c!"_P" ++ natStr P ++ c!"_T" ++ tempStr T)
    (trotterProgram absRoot d B T P))

/-- The line that submits that job. -/
def trotterLine (absRoot : Str) (d B T P : Nat) : Str :=
  c!"srun --job-name=" ++ (c!"trotter_D" ++ natStr d ++ c!"_P" ++ natStr P ++ c!"_T" ++ tempStr T) ++
    c!" --mem=20GB python3 -c '" ++ trotterProgram absRoot d B T P ++ c!"'"

open Classical in
/-- The numbers of beads whose result is missing, in the order of the list. -/
noncomputable def missing (h : Str) (seen : Calc → Contents V) (B T : Nat) (beads : List Nat) : List Nat :=
  beads.filter fun P => ¬ Done h T (seen ⟨B, T, P⟩)

section
variable {root absRoot : Str} {d : Nat} {a b : Option Str}

theorem lastCommand_eq (hr : RootOk root absRoot) (hh : Harmless absRoot) (h : Str) (seen : Calc → Contents V)
    (B T : Nat) (beads : List Nat) (cmd : Option Str) (hs : ∀ P ∈ beads, Readable (seen ⟨B, T, P⟩)) :
    lastCommand { initFS root absRoot d 0 with hashVib := a, hashRho := b } h seen B T beads cmd =
      .ok (((missing h seen B T beads).getLast?.map (trotterLine absRoot d B T)).or cmd) := by
  induction beads generalizing cmd with
  | nil => rfl
  | cons P beads ih =>
    have hp : skips { initFS root absRoot d 0 with hashVib := a, hashRho := b } h (.trotter P B) T
        (seen ⟨B, T, P⟩) = alreadyPresent h T (seen ⟨B, T, P⟩) := by
      rw [skips_hashes]
      unfold skips
      rw [C50_results_files hr (harmless_notMem hh (by decide)) (harmless_notMem hh (by decide)) d 0 _]
      rfl
    have hc : trotterCommand { initFS root absRoot d 0 with hashVib := a, hashRho := b } B T P
        = .ok (trotterLine absRoot d B T P) := trotterCommand_eq (root := root) hh d B T P
    have ih := fun cmd => ih cmd fun P hP => hs P (List.mem_cons_of_mem _ hP)
    rw [lastCommand, hp, alreadyPresent_readable h _ _ (hs P (by simp))]
    by_cases hd : Done h T (seen ⟨B, T, P⟩)
    · simp only [hd, decide_true, ih, missing, List.filter_cons, not_true_eq_false, decide_false]
      rfl
    · simp only [hd, decide_false, hc, ih]
      have : missing h seen B T (P :: beads) = P :: missing h seen B T beads := by
        simp [missing, List.filter_cons, hd]
      rw [this]
      cases hm : missing h seen B T beads with
      | nil => rfl
      | cons x l => simp [List.getLast?_cons_cons, List.getLast?_eq_some_getLast]

theorem trotterLoop_eq (hr : RootOk root absRoot) (hh : Harmless absRoot) (h : Str) (seen : Calc → Contents V)
    (beads : List Nat) (l : List (Nat × Nat)) (cmd : Option Str)
    (hs : ∀ c ∈ l, ∀ P ∈ beads, Readable (seen ⟨c.1, c.2, P⟩))
    (last : Nat → Nat → Nat) (hl : ∀ c ∈ l, (missing h seen c.1 c.2 beads).getLast? = some (last c.1 c.2)) :
    trotterLoop { initFS root absRoot d 0 with hashVib := a, hashRho := b } h seen beads l cmd =
      (l.map fun c => trotterLine absRoot d c.1 c.2 (last c.1 c.2), none) := by
  induction l generalizing cmd with
  | nil => rfl
  | cons c l ih =>
    obtain ⟨B, T⟩ := c
    have h1 := lastCommand_eq (d := d) (a := a) (b := b) hr hh h seen B T beads cmd
      (hs (B, T) (by simp))
    rw [hl (B, T) (by simp)] at h1
    simp only [Option.map_some, Option.some_or] at h1
    rw [trotterLoop, h1]
    simp only [ih _ (fun c hc => hs c (List.mem_cons_of_mem _ hc)) (fun c hc => hl c (List.mem_cons_of_mem _ hc)),
      List.map_cons]

end

section
variable {p : Project} {root absRoot : Str} {d : Nat} {k : Disk} {vib rho : Str}

/-- C122 (partial: the property claims one job for every missing result): when every pair of a basis size and a
temperature misses a result, `simple_trotter_wrapper` of the artificial systems submits one job for each pair, the
one with the last number of beads whose result is missing. -/
theorem C122_artificial_trotter_partial (hr : RootOk root absRoot) (hh : Harmless absRoot)
    (hv : p.assertId d = .ok ())
    (hash : Str → Str) (host : Str) (absolute : Str → Str) (hk : k.isDir root = true)
    (h1 : k.files (dataDir absRoot d ++ c!"parameters/coupled_model.json") = some vib)
    (h2 : k.files (rhoDir absRoot d 0 ++ c!"parameters/sampling_model.json") = some rho)
    (seen : Calc → Contents V) (bases temps beads : List Nat)
    (hs : ∀ B ∈ bases, ∀ T ∈ temps, ∀ P ∈ beads, Readable (seen ⟨B, T, P⟩))
    (last : Nat → Nat → Nat)
    (hl : ∀ B ∈ bases, ∀ T ∈ temps, ∃ before after, beads = before ++ last B T :: after ∧
      ¬ Done (hash vib) T (seen ⟨B, T, last B T⟩) ∧ ∀ P ∈ after, Done (hash vib) T (seen ⟨B, T, P⟩)) :
    ∃ cmds, wrapper (fun s h => generateTrotterArtificial s h seen temps bases beads)
        (openProject p hash host (some (root, absRoot)) absolute k d) = (cmds, none) ∧
      cmds.map words =
        (bases.flatMap fun B => temps.map fun T => (B, T)).map fun c =>
          trotterJob absRoot d c.1 c.2 (last c.1 c.2) := by
  rw [openProject_ok hv hash host absolute hk (by simpa [initFS_eq hr] using h1) (by simpa [initFS_eq hr] using h2)]
  simp only [wrapper, Option.getD_some, generateTrotterArtificial]
  have mem : ∀ c ∈ (bases.flatMap fun B => temps.map fun T => (B, T)), c.1 ∈ bases ∧ c.2 ∈ temps := by
    rintro ⟨B, T⟩ hc
    simp only [List.mem_flatMap, List.mem_map, Prod.mk.injEq] at hc
    obtain ⟨B', hB, T', hT, rfl, rfl⟩ := hc
    exact ⟨hB, hT⟩
  rw [trotterLoop_eq hr hh _ _ _ _ _ (fun c hc => hs _ (mem c hc).1 _ (mem c hc).2) last]
  · refine ⟨_, rfl, ?_⟩
    rw [List.map_map]
    apply List.map_congr_left
    intro c _
    exact words_trotter hh c.1 c.2 _
  · intro c hc
    obtain ⟨before, after, e, hm, hd⟩ := hl _ (mem c hc).1 _ (mem c hc).2
    classical
    have ha : after.filter (fun P => decide ¬ Done (hash vib) c.2 (seen ⟨c.1, c.2, P⟩)) = [] := by
      rw [List.filter_eq_nil_iff]
      intro P hP
      simp [hd P hP]
    rw [missing, e, List.filter_append, List.filter_cons, ha]
    simp [hm]

/-- C122 fails for the artificial systems: of several missing numbers of beads only the last gets a job, whatever
they are. -/
theorem C122_one_job_for_all_beads_refuted (hr : RootOk root absRoot) (hh : Harmless absRoot)
    (hv : p.assertId d = .ok ())
    (hash : Str → Str) (host : Str) (absolute : Str → Str) (hk : k.isDir root = true)
    (h1 : k.files (dataDir absRoot d ++ c!"parameters/coupled_model.json") = some vib)
    (h2 : k.files (rhoDir absRoot d 0 ++ c!"parameters/sampling_model.json") = some rho)
    (B T P : Nat) (beads : List Nat) :
    ∃ cmd, wrapper (fun s h => generateTrotterArtificial s h (fun _ => (Contents.absent : Contents V))
          [T] [B] (beads ++ [P]))
        (openProject p hash host (some (root, absRoot)) absolute k d) = ([cmd], none) ∧
      words cmd = trotterJob absRoot d B T P := by
  obtain ⟨cmds, e, hw⟩ := C122_artificial_trotter_partial (V := V) hr hh hv hash host absolute hk h1 h2
    (fun _ => Contents.absent) [B] [T] (beads ++ [P]) (fun _ _ _ _ _ _ => Or.inl rfl) (fun _ _ => P)
    (fun _ _ _ _ => ⟨beads, [], by simp, not_done_absent _ _, by simp⟩)
  rw [e]
  simp only [List.flatMap_cons, List.flatMap_nil, List.map_cons, List.map_nil, List.append_nil] at hw
  match cmds, hw with
  | [], hw => simp at hw
  | [c], hw => exact ⟨c, rfl, by simpa using hw⟩
  | _ :: _ :: _, hw => simp at hw

/-- C122 fails for the artificial systems: when the first pair misses nothing the program ends with an
UnboundLocalError, and the other results are not computed. -/
theorem C122_nothing_missing_refuted (hr : RootOk root absRoot) (hh : Harmless absRoot)
    (hv : p.assertId d = .ok ())
    (hash : Str → Str) (host : Str) (absolute : Str → Str) (hk : k.isDir root = true)
    (h1 : k.files (dataDir absRoot d ++ c!"parameters/coupled_model.json") = some vib)
    (h2 : k.files (rhoDir absRoot d 0 ++ c!"parameters/sampling_model.json") = some rho)
    (seen : Calc → Contents V) (B T : Nat) (bases temps beads : List Nat)
    (hd : ∀ P ∈ beads, Done (hash vib) T (seen ⟨B, T, P⟩)) :
    wrapper (fun s h => generateTrotterArtificial s h seen (T :: temps) (B :: bases) beads)
        (openProject p hash host (some (root, absRoot)) absolute k d) = ([], some .unbound) := by
  rw [openProject_ok hv hash host absolute hk (by simpa [initFS_eq hr] using h1) (by simpa [initFS_eq hr] using h2)]
  have hm : missing (hash vib) seen B T beads = [] := by
    rw [missing, List.filter_eq_nil_iff]
    intro P hP
    simp [hd P hP]
  have h1 := fun a b => lastCommand_eq (d := d) (a := a) (b := b) hr hh (hash vib) seen B T beads none
    (fun P hP => by
      obtain ⟨d, hc, hc', -⟩ := hd P hP
      exact Or.inr ⟨d, hc, by rw [hc']; simp⟩)
  simp only [hm, List.getLast?_nil, Option.map_none, Option.none_or] at h1
  simp only [wrapper, Option.getD_some, generateTrotterArtificial, List.flatMap_cons, List.map_cons, List.cons_append,
    trotterLoop, h1]

/-- C122 fails for the artificial systems: a pair that misses nothing makes the program submit the previous job
a second time. -/
theorem C122_job_repeated_refuted (hr : RootOk root absRoot) (hh : Harmless absRoot)
    (hv : p.assertId d = .ok ())
    (hash : Str → Str) (host : Str) (absolute : Str → Str) (hk : k.isDir root = true)
    (h1 : k.files (dataDir absRoot d ++ c!"parameters/coupled_model.json") = some vib)
    (h2 : k.files (rhoDir absRoot d 0 ++ c!"parameters/sampling_model.json") = some rho)
    (seen : Calc → Contents V) (B T T' P : Nat)
    (hm : seen ⟨B, T, P⟩ = .absent)
    (hd : Done (hash vib) T' (seen ⟨B, T', P⟩)) :
    ∃ cmd, wrapper (fun s h => generateTrotterArtificial s h seen [T, T'] [B] [P])
        (openProject p hash host (some (root, absRoot)) absolute k d) = ([cmd, cmd], none) ∧
      words cmd = trotterJob absRoot d B T P := by
  rw [openProject_ok hv hash host absolute hk (by simpa [initFS_eq hr] using h1) (by simpa [initFS_eq hr] using h2)]
  have m1 : missing (hash vib) seen B T [P] = [P] := by
    have : ¬ Done (hash vib) T (seen ⟨B, T, P⟩) := by rw [hm]; rintro ⟨d, h, -⟩; cases h
    simp [missing, this]
  have m2 : missing (hash vib) seen B T' [P] = [] := by
    simp [missing, hd]
  have h1 := fun a b => lastCommand_eq (d := d) (a := a) (b := b) hr hh (hash vib) seen B T [P] none
    (fun P' hP => by
      rw [List.mem_singleton] at hP; subst hP; exact Or.inl hm)
  have h2 := fun a b c => lastCommand_eq (d := d) (a := a) (b := b) hr hh (hash vib) seen B T' [P] c
    (fun P' hP => by
      rw [List.mem_singleton] at hP; subst hP
      obtain ⟨d, hc, hc', -⟩ := hd
      exact Or.inr ⟨d, hc, by rw [hc']; simp⟩)
  simp only [m1, m2, List.getLast?_nil, Option.map_none, Option.none_or, List.getLast?_singleton, Option.map_some,
    Option.some_or] at h1 h2
  refine ⟨trotterLine absRoot d B T P, ?_, words_trotter hh B T P⟩
  simp only [wrapper, Option.getD_some, generateTrotterArtificial, List.flatMap_cons, List.map_cons,
    trotterLoop, h1, h2, List.flatMap_nil, List.map_nil, List.append_nil]

open Classical in
/-- C122: a results file that cannot be read (torn, empty) or has no hash ends the program at that place: the
jobs before it have been submitted, none after it. -/
theorem C122_unreadable_file (hr : RootOk root absRoot) (hh : Harmless absRoot) (hv : p.assertId d = .ok ())
    (hash : Str → Str) (host : Str) (absolute : Str → Str) (hk : k.isDir root = true)
    (h1 : k.files (dataDir absRoot d ++ c!"parameters/coupled_model.json") = some vib)
    (h2 : k.files (rhoDir absRoot d 0 ++ c!"parameters/sampling_model.json") = some rho)
    (seen : Calc → Contents V) (B T : Nat) (bases temps : List Nat) (before after : List (Nat × Nat))
    (hl : (bases.flatMap fun B => temps.map fun T => (B, T)) = before ++ (B, T) :: after)
    (hs : ∀ c ∈ before, Readable (seen ⟨c.1, c.2, 0⟩))
    (hu : ¬ Readable (seen ⟨B, T, 0⟩)) :
    ∃ cmds, wrapper (fun s h => generateSos s h seen temps bases)
        (openProject p hash host (some (root, absRoot)) absolute k d) =
        (cmds, some (match seen ⟨B, T, 0⟩ with | .dict _ => .key | _ => .value)) ∧
      cmds.map words =
        (before.filter fun c => ¬ Done (hash vib) c.2 (seen ⟨c.1, c.2, 0⟩)).map fun c =>
          some (srun (c!"sos_D" ++ natStr d ++ c!"_T" ++ tempStr c.2) (sosProgram absRoot d c.1 c.2)) := by
  rw [openProject_ok hv hash host absolute hk (by simpa [initFS_eq hr] using h1) (by simpa [initFS_eq hr] using h2)]
  simp only [wrapper, Option.getD_some, generateSos]
  rw [submitAll_hashes]
  have e : (bases.flatMap fun B => temps.map fun T => (⟨B, T, 0⟩ : Calc)) =
      before.map (fun c => ⟨c.1, c.2, 0⟩) ++ ⟨B, T, 0⟩ :: after.map (fun c => (⟨c.1, c.2, 0⟩ : Calc)) := by
    have : (bases.flatMap fun B => temps.map fun T => (⟨B, T, 0⟩ : Calc)) =
        (bases.flatMap fun B => temps.map fun T => (B, T)).map fun c => ⟨c.1, c.2, 0⟩ := by
      simp [List.map_flatMap, Function.comp_def]
    rw [this, hl, List.map_append, List.map_cons]
  have hc : ∀ c : Calc, sosCommand
      { initFS root absRoot d 0 with hashVib := some (hash vib), hashRho := some (hash rho) } c.basis c.temp =
        .ok (sosLine absRoot d c.basis c.temp) :=
    fun c => sosCommand_eq (root := root) hh d c.basis c.temp
  rw [e, submitAll_append _ _ _ _ _ _ (fun c => ⟨_, C50_results_files hr (harmless_notMem hh (by decide))
    (harmless_notMem hh (by decide)) d 0 _⟩) hc _ _ (by rintro c hc; obtain ⟨c, hc', rfl⟩ := List.mem_map.1 hc; exact hs c hc')]
  have hlast : ∀ l, submitAll (initFS root absRoot d 0) (hash vib) (fun c => .sos c.basis) seen
      (fun c => sosCommand
      { initFS root absRoot d 0 with hashVib := some (hash vib), hashRho := some (hash rho) } c.basis c.temp)
      (⟨B, T, 0⟩ :: l) = ([], some (match seen ⟨B, T, 0⟩ with | .dict _ => .key | _ => .value)) := by
    intro l
    rw [submitAll]
    unfold skips
    rw [C50_results_files hr (harmless_notMem hh (by decide)) (harmless_notMem hh (by decide)) d 0 _]
    simp only [bind, Except.bind]
    cases hc : seen ⟨B, T, 0⟩ with
    | absent => exact absurd (Or.inl hc) hu
    | dict dd =>
      cases hx : dd c!"hash_vib" with
      | some x => exact absurd (Or.inr ⟨dd, hc, by simp [hx]⟩) hu
      | none => simp only [alreadyPresent, hx]
    | short => simp only [alreadyPresent]
    | broken => simp only [alreadyPresent]
  rw [hlast]
  refine ⟨_, rfl, ?_⟩
  rw [List.append_nil, List.filter_map, List.map_map, List.map_map]
  apply List.map_congr_left
  intro c _
  exact words_sos hh c.1 c.2

end

/-- C122: a calculation that succeeded is not submitted again, the results that the file had for the same model are
still there, and after a change of the model every one is submitted again. (`m` is `sos` or `trotter`; the other results
files are not looked at.) -/
theorem C122_not_again {float : Str → Except Err V} {m : Method} {h : Hashes} {T : Nat} {killed : Bool} {out : Str}
    {old c : Contents V} (hm : m ≠ .sampling) (hok : baseFunc float m.checksRho h T killed out old = .ok c) :
    Readable c ∧ (∀ T', Done h.vib T' c ↔ T' = T ∨ Done h.vib T' old) ∧
    ∀ h' T', h' ≠ h.vib → ¬ Done h' T' c := by
  obtain ⟨d, e, hd, -, rfl⟩ := baseFunc_ok hok
  have hv : ((validate m.checksRho h d).set (tempStr T) (.entry e)) c!"hash_vib" = some (.hash h.vib) := by
    rw [set_other _ _ _ _ (tempStr_ne_hash_vib T).symm]
    exact (validate_carries m h d).1
  have old_iff : ∀ T', Done h.vib T' old ↔ d c!"hash_vib" = some (.hash h.vib) ∧ d (tempStr T') ≠ none := by
    intro T'
    cases old with
    | absent => cases hd; simp [Done]
    | short => cases hd; simp [Done]
    | broken => cases hd
    | dict d' => cases hd; simp [Done]
  refine ⟨Or.inr ⟨_, rfl, by rw [hv]; simp⟩, ?_, ?_⟩
  · intro T'
    rw [old_iff]
    have : Done h.vib T' (.dict ((validate m.checksRho h d).set (tempStr T) (.entry e))) ↔
        ((validate m.checksRho h d).set (tempStr T) (.entry e)) (tempStr T') ≠ none := by
      constructor
      · rintro ⟨d', hd', -, h2⟩; cases hd'; exact h2
      · intro h2; exact ⟨_, rfl, hv, h2⟩
    rw [this]
    by_cases ht : T' = T
    · subst ht; simp
    · rw [set_other _ _ _ _ (fun h => ht (tempStr_injective h))]
      by_cases hc : Carries m h d
      · rw [validate_of_carries m h d hc]
        simp [ht, hc.1]
      · rw [validate_of_not_carries m h d hc _ (tempStr_ne_hash_vib T') (tempStr_ne_hash_rho T')]
        have : ¬ d c!"hash_vib" = some (.hash h.vib) := fun h1 => hc ⟨h1, fun h => absurd h hm⟩
        simp [ht, this]
  · rintro h' T' hne ⟨d', hd', h1, -⟩
    cases hd'
    rw [hv] at h1
    exact hne (by simpa using h1.symm)

/-! ### A case that meets the hypotheses -/

/-- A disk with the models of the data set 11 below `/w`. -/
def disk0 : Disk where
  dirs := [c!"/w"]
  files := fun p => if p = c!"/w/data_set_11/parameters/coupled_model.json" then some c!"m"
    else if p = c!"/w/data_set_11/rho_0/parameters/sampling_model.json" then some c!"r" else none

example : RootOk c!"/w" c!"/w" ∧ Harmless c!"/w" ∧ artificial.assertId 11 = .ok () ∧
    disk0.isDir c!"/w" = true ∧
    disk0.files (dataDir c!"/w" 11 ++ c!"parameters/coupled_model.json") = some c!"m" ∧
    disk0.files (rhoDir c!"/w" 11 0 ++ c!"parameters/sampling_model.json") = some c!"r" :=
  ⟨by unfold RootOk; decide, by unfold Harmless; decide, rfl, by decide, by decide +kernel, by decide +kernel⟩

/-- A results file with the result at 300 K of the model with hash `x`: that one is there, the one at 301 K is
missing, and so is every one of a model with another hash. -/
def file0 : Contents Nat :=
  .dict fun k => if k = c!"hash_vib" then some (.hash c!"x")
    else if k = tempStr 30000 then some (.entry fun _ => none) else none

example : Readable file0 ∧ Done c!"x" 30000 file0 ∧ ¬ Done c!"x" 30100 file0 ∧ ¬ Done c!"y" 30000 file0 := by
  refine ⟨Or.inr ⟨_, rfl, by simp⟩, ⟨_, rfl, by simp, by simp [(tempStr_ne_hash_vib 30000)]⟩, ?_, ?_⟩
  · rintro ⟨d, h, -, h2⟩
    cases h
    have : tempStr 30100 ≠ tempStr 30000 := by decide +kernel
    exact h2 (by simp [tempStr_ne_hash_vib 30100, this])
  · rintro ⟨d, h, h1, -⟩
    cases h
    simp at h1

/-- The first word of a shell command ends at the blank, quotes keep blanks together. -/
example : words c!"srun --mem=20GB python3 -c 'a = 1; b'" =
    some [c!"srun", c!"--mem=20GB", c!"python3", c!"-c", c!"a = 1; b"] := by decide

/-- The text of a job names the root, the data set, the basis size and the temperature. -/
example : ∃ before after, sosProgram c!"/w" 11 10 30000 = before ++
    c!"b = beta(300.00);BS = 10;FS = fs.FileStructure(\"/w\", 11, 0);" ++ after :=
  ⟨(sosProgram c!"/w" 11 10 30000).take 140, (sosProgram c!"/w" 11 10 30000).drop 200, by decide +kernel⟩

end Pibronic.Props.Examples
