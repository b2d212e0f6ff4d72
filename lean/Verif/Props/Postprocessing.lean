import Verif.Lemmas.Postprocessing

set_option autoImplicit false

/-!
Theorems about `pibronic/data/postprocessing.py`: file names (C13), parameter lists (C14),
trotter files (C15), pruning with hashes (C16), selection of files by `(P, T)` (C17).

Temperatures are in hundredths: `tempStr 30000` is `"300.00"`.
-/
namespace Pibronic.Props.Postprocessing
open Pibronic.Py Pibronic.FileName Pibronic.FileStructure Pibronic.Postprocessing

/-- The path of the PIMC result file of job `J` with `P` beads at temperature `T`. -/
def pimcPath (dir : Str) (P T J : Nat) : Str :=
  dir ++ pimc (natStr P) (tempStr T) (natStr J)

/-- The path of the thermo file with `P` beads, temperature `T`, `X` samples. -/
def thermoPath (dir : Str) (P T X : Nat) : Str :=
  dir ++ jackknife (natStr P) (tempStr T) (natStr X)

/-- The path of the sum-over-states file with `B` basis functions. -/
def sosPath (dir : Str) (B : Nat) : Str := dir ++ sos (natStr B)

example : pimcPath c!"r/" 12 30000 7 = c!"r/P12_T300.00_J7_data_points.npz" := by
  simp [pimcPath, pimc, natStr, tempStr, digit]
example : thermoPath c!"r/" 12 30000 70 = c!"r/P12_T300.00_X70_thermo" := by
  simp [thermoPath, jackknife, natStr, tempStr, digit]

/-! ### C13 -/

/-- C13: the bead number is read back from the name of a PIMC file
(in a directory whose path contains no `P`). -/
theorem C13_pimc_bead (dir : Str) (hdir : 'P' ∉ dir) (P T J : Nat) :
    extractBead (pimcPath dir P T J) = .ok P := by
  have h := between1_eq 'P' c!"T" '_' dir (natStr P)
    (tempStr T ++ c!"_J" ++ natStr J ++ c!"_data_points.npz") hdir
    (by simp [notMem_natStr, notMem_tempStr, digitVal]) (notMem_natStr (by decide) _)
  simp only [extractBead, pimcPath, pimc]
  simp only [List.append_assoc, List.cons_append, List.nil_append] at h ⊢
  rw [h]; exact pyInt_natStr P

/-- C13: the temperature is read back from the name of a PIMC file. -/
theorem C13_pimc_temperature (dir : Str) (hdir : ¬ c!"_T" <:+: dir) (P T J : Nat) :
    extractTemperature (pimcPath dir P T J) = .ok T := by
  have h := between_eq '_' 'T' c!"J" '_' (dir ++ (c!"P" ++ natStr P)) (tempStr T)
    (natStr J ++ c!"_data_points.npz")
    (fun h => hdir (two_infix_append h (by simp [notMem_natStr, digitVal]))) (by decide)
    (by simp [notMem_natStr, notMem_tempStr, digitVal]) (notMem_tempStr (by decide) (by decide) _)
  simp only [extractTemperature, pimcPath, pimc]
  simp only [List.append_assoc, List.cons_append, List.nil_append] at h ⊢
  rw [h]; exact pyFloat2_tempStr T

/-- C13: the job number is read back from the name of a PIMC file. -/
theorem C13_pimc_job (dir : Str) (hdir : ¬ c!"_J" <:+: dir) (P T J : Nat) :
    extractJob (pimcPath dir P T J) = .ok J := by
  have h := between_eq '_' 'J' c!"data_" '_' (dir ++ (c!"P" ++ natStr P ++ c!"_T" ++ tempStr T))
    (natStr J) (c!"points.npz")
    (fun h => hdir (two_infix_append h (by simp [notMem_natStr, notMem_tempStr, digitVal])))
    (by decide)
    (by simp [notMem_natStr, digitVal]) (notMem_natStr (by decide) _)
  simp only [extractJob, pimcPath, pimc]
  simp only [List.append_assoc, List.cons_append, List.nil_append] at h ⊢
  rw [h]; exact pyInt_natStr J

/-- C13: the bead number is read back from the name of a thermo file. -/
theorem C13_thermo_bead (dir : Str) (hdir : 'P' ∉ dir) (P T X : Nat) :
    extractBead (thermoPath dir P T X) = .ok P := by
  have h := between1_eq 'P' c!"T" '_' dir (natStr P)
    (tempStr T ++ c!"_X" ++ natStr X ++ c!"_thermo") hdir
    (by simp [notMem_natStr, notMem_tempStr, digitVal]) (notMem_natStr (by decide) _)
  simp only [extractBead, thermoPath, jackknife]
  simp only [List.append_assoc, List.cons_append, List.nil_append] at h ⊢
  rw [h]; exact pyInt_natStr P

/-- C13: the temperature is read back from the name of a thermo file. -/
theorem C13_thermo_temperature (dir : Str) (hdir : ¬ c!"_T" <:+: dir) (P T X : Nat) :
    extractTemperatureThermo (thermoPath dir P T X) = .ok T := by
  have h := between_eq '_' 'T' c!"X" '_' (dir ++ (c!"P" ++ natStr P)) (tempStr T)
    (natStr X ++ c!"_thermo")
    (fun h => hdir (two_infix_append h (by simp [notMem_natStr, digitVal]))) (by decide)
    (by simp [notMem_natStr, notMem_tempStr, digitVal]) (notMem_tempStr (by decide) (by decide) _)
  simp only [extractTemperatureThermo, thermoPath, jackknife]
  simp only [List.append_assoc, List.cons_append, List.nil_append] at h ⊢
  rw [h]; exact pyFloat2_tempStr T

/-- C13: the number of samples is read back from the name of a thermo file. -/
theorem C13_thermo_samples (dir : Str) (hdir : ¬ c!"_X" <:+: dir) (P T X : Nat) :
    extractSamples (thermoPath dir P T X) = .ok X := by
  have h := between_eq '_' 'X' c!"thermo" '_' (dir ++ (c!"P" ++ natStr P ++ c!"_T" ++ tempStr T))
    (natStr X) []
    (fun h => hdir (two_infix_append h (by simp [notMem_natStr, notMem_tempStr, digitVal])))
    (by decide)
    (by simp [notMem_natStr, digitVal]) (notMem_natStr (by decide) _)
  simp only [extractSamples, thermoPath, jackknife]
  simp only [List.append_assoc, List.cons_append, List.nil_append, List.append_nil] at h ⊢
  rw [h]; exact pyInt_natStr X

/-- C13: the basis size is read back from the name of a sum-over-states file. -/
theorem C13_sos_basis (dir : Str) (hdir : ¬ c!"_B" <:+: dir) (B : Nat) :
    extractBasis (sosPath dir B) = .ok B := by
  have h := between_eq '_' 'B' c!"json" '.' (dir ++ c!"sos") (natStr B) []
    (fun h => hdir (two_infix_append h (by simp)))
    (by decide)
    (by simp [notMem_natStr, digitVal]) (notMem_natStr (by decide) _)
  simp only [extractBasis, sosPath, sos]
  simp only [List.append_assoc, List.cons_append, List.nil_append, List.append_nil] at h ⊢
  rw [h]; exact pyInt_natStr B

/-- C13: different parameters give different PIMC file names, in any directory. -/
theorem C13_pimc_injective (dir : Str) {P T J P' T' J' : Nat}
    (h : pimcPath dir P T J = pimcPath dir P' T' J') : P = P' ∧ T = T' ∧ J = J' := by
  have h : pimcPath [] P T J = pimcPath [] P' T' J' := by
    simpa [pimcPath] using h
  have h1 := C13_pimc_bead [] (by simp) P T J
  have h2 := C13_pimc_temperature [] (by simp) P T J
  have h3 := C13_pimc_job [] (by simp) P T J
  rw [h, C13_pimc_bead [] (by simp)] at h1
  rw [h, C13_pimc_temperature [] (by simp)] at h2
  rw [h, C13_pimc_job [] (by simp)] at h3
  exact ⟨(Except.ok.inj h1).symm, (Except.ok.inj h2).symm, (Except.ok.inj h3).symm⟩

/-- C13: different parameters give different thermo file names, in any directory. -/
theorem C13_thermo_injective (dir : Str) {P T X P' T' X' : Nat}
    (h : thermoPath dir P T X = thermoPath dir P' T' X') : P = P' ∧ T = T' ∧ X = X' := by
  have h : thermoPath [] P T X = thermoPath [] P' T' X' := by
    simpa [thermoPath] using h
  have h1 := C13_thermo_bead [] (by simp) P T X
  have h2 := C13_thermo_temperature [] (by simp) P T X
  have h3 := C13_thermo_samples [] (by simp) P T X
  rw [h, C13_thermo_bead [] (by simp)] at h1
  rw [h, C13_thermo_temperature [] (by simp)] at h2
  rw [h, C13_thermo_samples [] (by simp)] at h3
  exact ⟨(Except.ok.inj h1).symm, (Except.ok.inj h2).symm, (Except.ok.inj h3).symm⟩

/-- C13: the directory condition cannot be dropped.  A capital `P` anywhere in the directory path
(below: before a last component `b` that is not a number) makes reading the bead number raise
`ValueError` for every file of the directory. -/
theorem C13_capital_P_in_directory_refuted (a b : Str) (ha : 'P' ∉ a) (hb : 'P' ∉ b)
    (hT : ¬ c!"_T" <:+: b) (c : Char) (hc : c ∈ b) (hd : Foreign c) (P T J : Nat) :
    extractBead (pimcPath (a ++ c!"P" ++ b) P T J) = .error .value := by
  simp only [extractBead, between, pimcPath, pimc]
  have e1 : a ++ c!"P" ++ b ++ (c!"P" ++ natStr P ++ c!"_T" ++ tempStr T ++ c!"_J" ++ natStr J
      ++ c!"_data_points.npz") = a ++ 'P' :: [] ++ (b ++ 'P' :: [] ++ (natStr P ++ c!"_T"
      ++ tempStr T ++ c!"_J" ++ natStr J ++ c!"_data_points.npz")) := by simp
  rw [e1, split_second _ _ _ _ _ (find_of_notMem 'P' [] a _ ha), split_head,
    find_of_notMem 'P' [] b _ hb]
  simp only [bind, Except.bind]
  rw [split_head, find_none_of_not_infix _ _ hT]
  exact pyInt_error hc hd

/-- The usual case: the project is checked out in a directory called `Pibronic`. -/
example : extractBead (pimcPath c!"/home/Pibronic/results/" 12 30000 7) = .error .value :=
  C13_capital_P_in_directory_refuted c!"/home/" c!"ibronic/results/" (by decide) (by decide)
    (by decide) 'i' (by decide) (by decide) _ _ _

example : extractBead (pimcPath c!"/home/data_set_1/rho_0/results/" 12 30000 7) = .ok 12 :=
  C13_pimc_bead _ (by decide) _ _ _

/-! ### C14 -/

/-- C14: the bead list is strictly increasing and has exactly the values of the files. -/
theorem C14_bead_list {paths : List Str} {l : List Nat} (h : extractBeadList paths = .ok l) :
    l.Pairwise (· < ·) ∧ ∀ n, n ∈ l ↔ ∃ p ∈ paths, extractBead p = .ok n := by
  simp only [extractBeadList, bind, Except.bind] at h
  cases hm : paths.mapM extractBead with
  | error e => rw [hm] at h; cases h
  | ok vs =>
    rw [hm] at h; cases h
    refine ⟨uniqueSorted_strict vs, fun n => ?_⟩
    rw [mem_uniqueSorted, mapM_mem hm]

/-- C14: the temperature list is strictly increasing and has exactly the values of the files. -/
theorem C14_temperature_list {paths : List Str} {l : List Nat}
    (h : extractTemperatureList paths = .ok l) :
    l.Pairwise (· < ·) ∧ ∀ n, n ∈ l ↔ ∃ p ∈ paths, extractTemperature p = .ok n := by
  simp only [extractTemperatureList, bind, Except.bind] at h
  cases hm : paths.mapM extractTemperature with
  | error e => rw [hm] at h; cases h
  | ok vs =>
    rw [hm] at h; cases h
    refine ⟨uniqueSorted_strict vs, fun n => ?_⟩
    rw [mem_uniqueSorted, mapM_mem hm]

/-- C14: the basis list is strictly increasing and has exactly the values which occur among the
coupled files and among the sampling files. -/
theorem C14_basis_list {vib rho : List Str} {l : List Nat} (h : extractBasisList vib rho = .ok l) :
    l.Pairwise (· < ·) ∧ ∀ n, n ∈ l ↔
      (∃ p ∈ vib, extractBasis p = .ok n) ∧ (∃ p ∈ rho, extractBasis p = .ok n) := by
  simp only [extractBasisList, bind, Except.bind] at h
  cases hv : vib.mapM extractBasis with
  | error e => rw [hv] at h; cases h
  | ok vs =>
    rw [hv] at h
    cases hr : rho.mapM extractBasis with
    | error e => rw [hr] at h; cases h
    | ok rs =>
      rw [hr] at h; cases h
      refine ⟨uniqueSorted_strict _, fun n => ?_⟩
      rw [mem_uniqueSorted, List.mem_filter, mapM_mem hv, ← mapM_mem hr]
      simp

/-- C14: reading the lists succeeds exactly when every file name can be read. -/
theorem C14_lists_succeed (paths : List Str) :
    ((∃ l, extractBeadList paths = .ok l) ↔ ∀ p ∈ paths, ∃ n, extractBead p = .ok n) ∧
    ((∃ l, extractTemperatureList paths = .ok l) ↔
      ∀ p ∈ paths, ∃ n, extractTemperature p = .ok n) := by
  constructor
  · rw [← mapM_isOk, extractBeadList]
    cases paths.mapM extractBead <;> simp [bind, Except.bind]
  · rw [← mapM_isOk, extractTemperatureList]
    cases paths.mapM extractTemperature <;> simp [bind, Except.bind]

/-- C14: the basis list can be read exactly when every name in both lists can be read. -/
theorem C14_basis_succeeds (vib rho : List Str) :
    (∃ l, extractBasisList vib rho = .ok l) ↔ ∀ p ∈ vib ++ rho, ∃ n, extractBasis p = .ok n := by
  have : (∀ p ∈ vib ++ rho, ∃ n, extractBasis p = .ok n) ↔
      (∀ p ∈ vib, ∃ n, extractBasis p = .ok n) ∧ (∀ p ∈ rho, ∃ n, extractBasis p = .ok n) := by
    simp only [List.mem_append, or_imp, forall_and]
  rw [this, ← mapM_isOk, ← mapM_isOk, extractBasisList]
  cases vib.mapM extractBasis <;> cases rho.mapM extractBasis <;> simp [bind, Except.bind]

/-- C14: only the set of files matters: neither their order nor repetitions change the lists. -/
theorem C14_only_the_set_matters {paths paths' : List Str} (hset : ∀ p, p ∈ paths ↔ p ∈ paths')
    {l : List Nat} :
    (extractBeadList paths = .ok l ↔ extractBeadList paths' = .ok l) ∧
    (extractTemperatureList paths = .ok l ↔ extractTemperatureList paths' = .ok l) := by
  have key : ∀ (q q' : List Str), (∀ p, p ∈ q ↔ p ∈ q') →
      (extractBeadList q = .ok l → extractBeadList q' = .ok l) ∧
      (extractTemperatureList q = .ok l → extractTemperatureList q' = .ok l) := by
    intro q q' hq
    constructor
    · intro h
      have h1 := (C14_lists_succeed q).1.mp ⟨l, h⟩
      obtain ⟨l', h'⟩ := (C14_lists_succeed q').1.mpr (fun p hp => h1 p ((hq p).mpr hp))
      rw [h']; congr 1
      refine strict_ext (C14_bead_list h').1 (C14_bead_list h).1 fun n => ?_
      rw [(C14_bead_list h').2, (C14_bead_list h).2]; simp only [hq]
    · intro h
      have h1 := (C14_lists_succeed q).2.mp ⟨l, h⟩
      obtain ⟨l', h'⟩ := (C14_lists_succeed q').2.mpr (fun p hp => h1 p ((hq p).mpr hp))
      rw [h']; congr 1
      refine strict_ext (C14_temperature_list h').1 (C14_temperature_list h).1 fun n => ?_
      rw [(C14_temperature_list h').2, (C14_temperature_list h).2]; simp only [hq]
  have k1 := key _ _ hset
  have k2 := key _ _ (fun p => (hset p).symm)
  exact ⟨⟨k1.1, k2.1⟩, ⟨k1.2, k2.2⟩⟩

/-- C14 for written files: for any collection of jobs whose results are in one directory the lists
are the strictly increasing lists of the bead numbers and of the temperatures of the jobs. -/
theorem C14_lists_of_written_files (dir : Str) (hP : 'P' ∉ dir) (hT : ¬ c!"_T" <:+: dir)
    (jobs : List (Nat × Nat × Nat)) :
    ∃ pl tl, extractBeadList (jobs.map fun j => pimcPath dir j.1 j.2.1 j.2.2) = .ok pl ∧
      extractTemperatureList (jobs.map fun j => pimcPath dir j.1 j.2.1 j.2.2) = .ok tl ∧
      pl.Pairwise (· < ·) ∧ tl.Pairwise (· < ·) ∧
      (∀ P, P ∈ pl ↔ ∃ T J, (P, T, J) ∈ jobs) ∧ (∀ T, T ∈ tl ↔ ∃ P J, (P, T, J) ∈ jobs) := by
  obtain ⟨pl, hpl⟩ := (C14_lists_succeed (jobs.map fun j => pimcPath dir j.1 j.2.1 j.2.2)).1.mpr (by
    simp only [List.mem_map, forall_exists_index, and_imp, forall_apply_eq_imp_iff₂]
    exact fun j _ => ⟨_, C13_pimc_bead dir hP _ _ _⟩)
  obtain ⟨tl, htl⟩ := (C14_lists_succeed (jobs.map fun j => pimcPath dir j.1 j.2.1 j.2.2)).2.mpr (by
    simp only [List.mem_map, forall_exists_index, and_imp, forall_apply_eq_imp_iff₂]
    exact fun j _ => ⟨_, C13_pimc_temperature dir hT _ _ _⟩)
  refine ⟨pl, tl, hpl, htl, (C14_bead_list hpl).1, (C14_temperature_list htl).1, fun P => ?_,
    fun T => ?_⟩
  · rw [(C14_bead_list hpl).2]
    simp only [List.mem_map, exists_exists_and_eq_and, C13_pimc_bead dir hP, Except.ok.injEq]
    constructor
    · rintro ⟨⟨a, b, c⟩, h, rfl⟩; exact ⟨b, c, h⟩
    · rintro ⟨b, c, h⟩; exact ⟨_, h, rfl⟩
  · rw [(C14_temperature_list htl).2]
    simp only [List.mem_map, exists_exists_and_eq_and, C13_pimc_temperature dir hT, Except.ok.injEq]
    constructor
    · rintro ⟨⟨a, b, c⟩, h, rfl⟩; exact ⟨a, c, h⟩
    · rintro ⟨b, c, h⟩; exact ⟨_, h, rfl⟩

example : 'P' ∉ c!"data_set_1/rho_0/results/" ∧ ¬ c!"_T" <:+: c!"data_set_1/rho_0/results/" := by
  decide

/-! ### C15 -/

/-- C15 is false: `extract_trotter_paramater_list` raises for every non-empty list of trotter
files, whatever their parameters (`int` is applied to a list). -/
theorem C15_trotter_list_refuted (dir : Str) (P B : Nat)
    (rest : List Str) :
    extractTrotterList ((dir ++ trotter (natStr P) (natStr B)) :: rest) = .error .type := by
  have hx : ∃ x, item (split c!"trotter_P" (dir ++ trotter (natStr P) (natStr B))) 1 = .ok x := by
    cases hf : find c!"trotter_P" (dir ++ trotter (natStr P) (natStr B)) with
    | none =>
      exfalso
      have : ∀ (s r : Str), find c!"trotter_P" (s ++ (c!"trotter_P" ++ r)) ≠ none := by
        intro s r
        induction s with
        | nil =>
          simp only [List.nil_append, List.cons_append]
          rw [find]; simp [dropPrefix]
        | cons c s ih =>
          rw [List.cons_append, find]
          cases dropPrefix c!"trotter_P" (c :: (s ++ (c!"trotter_P" ++ r))) with
          | some r => simp
          | none => simpa using ih
      refine this dir (natStr P ++ c!"_B" ++ natStr B ++ c!".json") ?_
      simpa [trotter] using hf
    | some pr =>
      obtain ⟨a, b⟩ := pr
      rw [split_second _ _ _ _ _ hf, split_head]
      exact ⟨_, rfl⟩
  obtain ⟨x, hx⟩ := hx
  rw [extractTrotterList, List.mapM_cons, extractTrotter, hx]
  rfl

/-- C15: no list with a file ever yields a result, only the empty list does. -/
theorem C15_never_succeeds (paths : List Str) :
    (∃ l, extractTrotterList paths = .ok l) ↔ paths = [] := by
  rw [extractTrotterList, mapM_isOk]
  constructor
  · intro h
    cases paths with
    | nil => rfl
    | cons p ps =>
      obtain ⟨y, hy⟩ := h p (by simp)
      exfalso
      unfold extractTrotter at hy
      simp only [bind, Except.bind] at hy
      split at hy <;> cases hy
  · rintro rfl; simp

/-! ### C16 -/

/-- C16: with hashes `v`, `r`, pruning returns, in the original order, exactly the files whose
stored hashes are `v` and `r`. -/
theorem C16_prune_keeps_exactly {v r : Str} {read : Str → Except Err StoredHashes}
    {paths out : List Str} (h : pruneResultsUsingHashes (some v) (some r) read paths = .ok out) :
    out = paths.filter fun p => match read p with
      | .ok ⟨some v', some r'⟩ => v' = v ∧ r' = r
      | _ => false := by
  induction paths generalizing out with
  | nil => cases h; rfl
  | cons p ps ih =>
    rw [pruneResultsUsingHashes] at h
    split at h
    · cases hr : read p with
      | error e => rw [hr] at h; cases h
      | ok st =>
        rw [hr] at h
        simp only [bind, Except.bind] at h
        cases hk : keepFile (some v) (some r) st with
        | error e => rw [hk] at h; cases h
        | ok keep =>
          rw [hk] at h
          simp only at h
          cases ho : pruneResultsUsingHashes (some v) (some r) read ps with
          | error e => rw [ho] at h; cases h
          | ok o =>
            rw [ho] at h
            simp only [Except.ok.injEq] at h
            rw [List.filter_cons, ← ih ho, hr, ← h]
            rw [keepFile_eq, Except.ok.injEq] at hk
            rw [← hk]
            rcases st with ⟨_ | v', _ | r'⟩ <;> rfl
    · cases h

/-- C16: a file of an unknown kind anywhere before an unreadable file makes pruning raise; pruning
succeeds exactly when all files are of a known kind and readable. -/
theorem C16_prune_succeeds (v r : Str) (read : Str → Except Err StoredHashes) (paths : List Str) :
    (∃ out, pruneResultsUsingHashes (some v) (some r) read paths = .ok out) ↔
      ∀ p ∈ paths, (c!".npz" <:+ p ∨ c!"thermo" <:+ p) ∧ ∃ st, read p = .ok st := by
  have kind : ∀ (p e : Str), lastN e.length p = e ↔ e <:+ p := by
    intro p e
    unfold lastN
    constructor
    · intro h; rw [← h]; exact List.drop_suffix _ _
    · rintro ⟨t, rfl⟩; simp
  have k4 := fun p => kind p c!".npz"
  have k6 := fun p => kind p c!"thermo"
  have keep : ∀ st, ∃ b, keepFile (some v) (some r) st = .ok b := by
    exact fun st => ⟨_, keepFile_eq v r st⟩
  induction paths with
  | nil => simp [pruneResultsUsingHashes]
  | cons p ps ih =>
    rw [pruneResultsUsingHashes]
    simp only [List.forall_mem_cons, ← ih]
    have hk : (lastN 4 p = c!".npz" ∨ lastN 6 p = c!"thermo") ↔
        (c!".npz" <:+ p ∨ c!"thermo" <:+ p) := by rw [← k4 p, ← k6 p]; rfl
    by_cases hkind : (c!".npz" <:+ p ∨ c!"thermo" <:+ p)
    · rw [if_pos (hk.mpr hkind)]
      cases hr : read p with
      | error e => simp [bind, Except.bind]
      | ok st =>
        obtain ⟨b, hb⟩ := keep st
        simp only [hkind, true_and, bind, Except.bind, hb]
        cases pruneResultsUsingHashes (some v) (some r) read ps <;> simp
    · rw [if_neg (fun h => hkind (hk.mp h))]; simp [hkind]

/-- C16: how pruning fails: after files that can be read, a file of an unknown kind is an `Exception`, and
the error of a file that cannot be read is passed on. -/
theorem C16_prune_errors (v r : Str) (read : Str → Except Err StoredHashes) (pre post : List Str) (p : Str)
    (hpre : ∀ q ∈ pre, (c!".npz" <:+ q ∨ c!"thermo" <:+ q) ∧ ∃ st, read q = .ok st) :
    (¬ c!".npz" <:+ p → ¬ c!"thermo" <:+ p →
      pruneResultsUsingHashes (some v) (some r) read (pre ++ p :: post) = .error .exception) ∧
    (∀ e, c!".npz" <:+ p ∨ c!"thermo" <:+ p → read p = .error e →
      pruneResultsUsingHashes (some v) (some r) read (pre ++ p :: post) = .error e) := by
  have kind : ∀ (p e : Str), lastN e.length p = e ↔ e <:+ p := by
    intro p e
    unfold lastN
    constructor
    · intro h; rw [← h]; exact List.drop_suffix _ _
    · rintro ⟨t, rfl⟩; simp
  have hk : ∀ p, (lastN 4 p = c!".npz" ∨ lastN 6 p = c!"thermo") ↔
      (c!".npz" <:+ p ∨ c!"thermo" <:+ p) := fun p => by
    rw [← kind p c!".npz", ← kind p c!"thermo"]; rfl
  induction pre with
  | nil =>
    refine ⟨fun h1 h2 => ?_, fun e h1 h2 => ?_⟩
    · rw [List.nil_append, pruneResultsUsingHashes, if_neg (fun h => ((hk p).1 h).elim h1 h2)]
    · rw [List.nil_append, pruneResultsUsingHashes, if_pos ((hk p).2 h1), h2]
      rfl
  | cons q pre ih =>
    obtain ⟨i1, i2⟩ := ih fun x hx => hpre x (List.mem_cons_of_mem _ hx)
    obtain ⟨hq, st, hst⟩ := hpre q List.mem_cons_self
    have step : ∀ e, pruneResultsUsingHashes (some v) (some r) read (pre ++ p :: post) = .error e →
        pruneResultsUsingHashes (some v) (some r) read (q :: pre ++ p :: post) = .error e := by
      intro e he
      rw [List.cons_append, pruneResultsUsingHashes, if_pos ((hk q).2 hq), hst]
      simp [bind, Except.bind, keepFile_eq, he]
    exact ⟨fun h1 h2 => step _ (i1 h1 h2), fun e h1 h2 => step _ (i2 e h1 h2)⟩

/-- C16: if the hashes were never generated, pruning raises as soon as a complete file is met. -/
theorem C16_hashes_must_be_generated (read : Str → Except Err StoredHashes) (own : Option Str)
    (p : Str) (ps : List Str) (v r : Str) (hk : c!".npz" <:+ p) (h : read p = .ok ⟨some v, some r⟩) :
    pruneResultsUsingHashes none own read (p :: ps) = .error .attribute := by
  have : lastN 4 p = c!".npz" := by
    obtain ⟨t, rfl⟩ := hk; simp [lastN]
  rw [pruneResultsUsingHashes, if_pos (.inl this), h]
  rfl

/-- A case with files of the current, of an old model, and without hash. -/
example : pruneResultsUsingHashes (some c!"1") (some c!"2")
    (fun p => if p = c!"a.npz" then .ok ⟨some c!"1", some c!"2"⟩
      else if p = c!"b.npz" then .ok ⟨some c!"1", some c!"9"⟩
      else .ok ⟨none, some c!"2"⟩) [c!"a.npz", c!"b.npz", c!"c_thermo", c!"a.npz"]
    = .ok [c!"a.npz", c!"a.npz"] := by decide

/-! ### C17 -/

/-- The pattern `load_pimc_data` builds. -/
theorem pattern_eq (s : FS) (dir : Str) (htpl : s.templatePimc = dir ++ pimc fieldP fieldT c!"{J:s}")
    (hb1 : '{' ∉ dir) (hb2 : '}' ∉ dir) (P T : Nat) :
    format (pimcArgs P T c!"*") s.templatePimc = .ok (dir ++ pimc (natStr P) (tempStr T) c!"*") := by
  rw [htpl, format_literal _ _ _ hb1 hb2]
  have e : pimc fieldP fieldT c!"{J:s}" = c!"P" ++ ('{' :: (c!"P" ++ ':' :: c!"d" ++ '}' :: (c!"_T"
      ++ ('{' :: (c!"T" ++ ':' :: c!".2f" ++ '}' :: (c!"_J" ++ ('{' :: (c!"J" ++ ':' :: c!"s" ++
      '}' :: c!"_data_points.npz")))))))) := rfl
  rw [e, format_literal _ _ _ (by decide) (by decide),
    format_field _ c!"P" c!"d" _ (.int P) (natStr P) (by decide) (by decide) (by decide) rfl rfl,
    format_literal _ _ _ (by decide) (by decide),
    format_field _ c!"T" c!".2f" _ (.float T) (tempStr T) (by decide) (by decide) (by decide)
      (by simp [pimcArgs]) rfl,
    format_literal _ _ _ (by decide) (by decide),
    format_field _ c!"J" c!"s" _ (.str c!"*") c!"*" (by decide) (by decide) (by decide)
      (by simp [pimcArgs]) rfl]
  have hl : format (pimcArgs P T c!"*") c!"_data_points.npz" = .ok c!"_data_points.npz" := by
    have := format_literal (pimcArgs P T c!"*") c!"_data_points.npz" [] (by decide) (by decide)
    rw [format_nil] at this
    simpa [Except.map] using this
  rw [hl]
  simp [Except.map, pimc]

/-- C17: the files loaded for `(P, T)` are exactly the existing files
`dir/P{P}_T{T}_J…_data_points.npz`, with any text for the job. -/
theorem C17_selected_files (s : FS) (dir : Str)
    (htpl : s.templatePimc = dir ++ pimc fieldP fieldT c!"{J:s}")
    (hb1 : '{' ∉ dir) (hb2 : '}' ∉ dir) (hstar : '*' ∉ dir) (listing : List Str) (P T : Nat) :
    ∃ files, pimcFilesFor s listing P T = .ok files ∧ ∀ path, path ∈ files ↔
      path ∈ listing ∧ ∃ J, '/' ∉ J ∧ path = dir ++ pimc (natStr P) (tempStr T) J := by
  refine ⟨_, by rw [pimcFilesFor, pattern_eq s dir htpl hb1 hb2]; rfl, fun path => ?_⟩
  rw [glob, List.mem_filter]
  refine and_congr_right fun _ => ?_
  have e : dir ++ pimc (natStr P) (tempStr T) c!"*" =
      (dir ++ (c!"P" ++ natStr P ++ c!"_T" ++ tempStr T ++ c!"_J")) ++ ('*' :: c!"_data_points.npz") := by
    simp [pimc]
  rw [e, globMatch_literal_prefix _ _ _ (by
    simp [hstar, notMem_natStr, notMem_tempStr, digitVal])]
  simp only [globMatch_star]
  constructor
  · rintro ⟨s', rfl, x, s'', rfl, hx, h⟩
    rw [globMatch_literal _ _ (by decide)] at h
    subst h
    exact ⟨x, hx, by simp [pimc]⟩
  · rintro ⟨J, hJ, rfl⟩
    exact ⟨J ++ c!"_data_points.npz", by simp [pimc], J, _, rfl, hJ,
      (globMatch_literal _ _ (by decide)).mpr rfl⟩

/-- C17: among the result files of jobs in the results directory, loading `(P, T)` selects exactly
those with that number of beads and that temperature, whatever the job number. -/
theorem C17_selects_exactly (s : FS) (dir : Str)
    (htpl : s.templatePimc = dir ++ pimc fieldP fieldT c!"{J:s}")
    (hb1 : '{' ∉ dir) (hb2 : '}' ∉ dir) (hstar : '*' ∉ dir) (listing : List Str) (P T : Nat) :
    ∃ files, pimcFilesFor s listing P T = .ok files ∧ ∀ P' T' J',
      pimcPath dir P' T' J' ∈ listing →
        (pimcPath dir P' T' J' ∈ files ↔ P' = P ∧ T' = T) := by
  obtain ⟨files, hf, hm⟩ := C17_selected_files s dir htpl hb1 hb2 hstar listing P T
  refine ⟨files, hf, fun P' T' J' hl => ?_⟩
  rw [hm]
  constructor
  · rintro ⟨-, J, -, h⟩
    simp only [pimcPath, pimc, List.append_assoc, List.cons_append, List.nil_append,
      List.append_cancel_left_eq, List.cons.injEq, true_and] at h
    obtain ⟨h1, h⟩ := append_cons_inj (notMem_natStr (by decide) _) (notMem_natStr (by decide) _) h
    simp only [List.cons.injEq, true_and] at h
    obtain ⟨h2, h⟩ := append_cons_inj (notMem_tempStr (by decide) (by decide) _)
      (notMem_tempStr (by decide) (by decide) _) h
    exact ⟨natStr_injective h1, tempStr_injective h2⟩
  · rintro ⟨rfl, rfl⟩
    exact ⟨hl, natStr J', notMem_natStr (by decide) _, rfl⟩

/-- C17: files of other kinds (thermo files, training data) are never loaded as PIMC results. -/
theorem C17_other_kinds_never_selected (s : FS) (dir : Str)
    (htpl : s.templatePimc = dir ++ pimc fieldP fieldT c!"{J:s}")
    (hb1 : '{' ∉ dir) (hb2 : '}' ∉ dir) (hstar : '*' ∉ dir) (listing : List Str) (P T : Nat)
    (P' T' X : Nat) : ∃ files, pimcFilesFor s listing P T = .ok files ∧
      thermoPath dir P' T' X ∉ files ∧
      dir ++ trainingDataInput (natStr P') (tempStr T') (natStr X) ∉ files ∧
      dir ++ trainingDataGOutput (natStr P') (tempStr T') (natStr X) ∉ files ∧
      dir ++ trainingDataRhoOutput (natStr P') (tempStr T') (natStr X) ∉ files := by
  obtain ⟨files, hf, hm⟩ := C17_selected_files s dir htpl hb1 hb2 hstar listing P T
  have last : ∀ (a b x y : Str), a ++ x = b ++ y → x.length = y.length → x = y := by
    intro a b x y h hl
    exact (List.append_inj' h hl).2
  refine ⟨files, hf, ?_, ?_, ?_, ?_⟩
  · rw [hm]; rintro ⟨-, J, -, h⟩
    have := last (dir ++ c!"P" ++ natStr P' ++ c!"_T" ++ tempStr T' ++ c!"_X" ++ natStr X ++ c!"_therm")
      (dir ++ c!"P" ++ natStr P ++ c!"_T" ++ tempStr T ++ c!"_J" ++ J ++ c!"_data_points.np") c!"o" c!"z"
      (by simpa [thermoPath, jackknife, pimc] using h) rfl
    revert this; decide
  · rw [hm]; rintro ⟨-, J, -, h⟩
    have := last (dir ++ c!"P" ++ natStr P' ++ c!"_T" ++ tempStr T' ++ c!"_J" ++ natStr X ++ c!"_training_data_inpu")
      (dir ++ c!"P" ++ natStr P ++ c!"_T" ++ tempStr T ++ c!"_J" ++ J ++ c!"_data_point") c!"t.npz" c!"s.npz"
      (by simpa [trainingDataInput, pimc] using h) rfl
    revert this; decide
  · rw [hm]; rintro ⟨-, J, -, h⟩
    have := last (dir ++ c!"P" ++ natStr P' ++ c!"_T" ++ tempStr T' ++ c!"_J" ++ natStr X ++ c!"_training_data_g_outpu")
      (dir ++ c!"P" ++ natStr P ++ c!"_T" ++ tempStr T ++ c!"_J" ++ J ++ c!"_data_point") c!"t.npz" c!"s.npz"
      (by simpa [trainingDataGOutput, pimc] using h) rfl
    revert this; decide
  · rw [hm]; rintro ⟨-, J, -, h⟩
    have := last (dir ++ c!"P" ++ natStr P' ++ c!"_T" ++ tempStr T' ++ c!"_J" ++ natStr X ++ c!"_training_data_rho_outpu")
      (dir ++ c!"P" ++ natStr P ++ c!"_T" ++ tempStr T ++ c!"_J" ++ J ++ c!"_data_point") c!"t.npz" c!"s.npz"
      (by simpa [trainingDataRhoOutput, pimc] using h) rfl
    revert this; decide

/-- Every freshly created file structure meets the hypothesis about the template. -/
example (root absRoot : Str) (d r : Nat) : (initFS root absRoot d r).templatePimc =
    (initFS root absRoot d r).pathRhoResults ++ pimc fieldP fieldT c!"{J:s}" := rfl

/-! ### C14: which files are listed -/

/-- C14: the listed PIMC files are exactly the existing files `P…_T…_J…_data_points.npz` in the
results directory of the sampling distribution. -/
theorem C14_listed_pimc_files (s : FS) (hstar : '*' ∉ s.pathRhoResults) (listing : List Str)
    (path : Str) : path ∈ retrivePimcFileList s listing ↔ path ∈ listing ∧ ∃ P T J,
      ('/' ∉ P ∧ '/' ∉ T ∧ '/' ∉ J) ∧
      path = s.pathRhoResults ++ (c!"P" ++ P ++ c!"_T" ++ T ++ c!"_J" ++ J ++ c!"_data_points.npz") := by
  rw [retrivePimcFileList, glob, List.mem_filter]
  refine and_congr_right fun _ => ?_
  have e : s.pathRhoResults ++ pimc c!"*" c!"*" c!"*" = (s.pathRhoResults ++ c!"P") ++ ('*' ::
      (c!"_T" ++ ('*' :: (c!"_J" ++ ('*' :: c!"_data_points.npz"))))) := by simp [pimc]
  rw [e, globMatch_literal_prefix _ _ _ (by simp [hstar])]
  simp only [globMatch_star]
  constructor
  · rintro ⟨s1, rfl, P, s2, rfl, hP, h⟩
    obtain ⟨s3, rfl, h3⟩ := (globMatch_literal_prefix c!"_T" _ _ (by decide)).mp h
    obtain ⟨T, s4, rfl, hT, h4⟩ := (globMatch_star _ _).mp h3
    obtain ⟨s5, rfl, h5⟩ := (globMatch_literal_prefix c!"_J" _ _ (by decide)).mp h4
    obtain ⟨J, s6, rfl, hJ, h6⟩ := (globMatch_star _ _).mp h5
    rw [globMatch_literal _ _ (by decide)] at h6
    subst h6
    exact ⟨P, T, J, ⟨hP, hT, hJ⟩, by simp⟩
  · rintro ⟨P, T, J, ⟨hP, hT, hJ⟩, rfl⟩
    refine ⟨P ++ (c!"_T" ++ (T ++ (c!"_J" ++ (J ++ c!"_data_points.npz")))), by simp, P, _, rfl, hP, ?_⟩
    refine (globMatch_literal_prefix c!"_T" _ _ (by decide)).mpr ⟨_, rfl, ?_⟩
    refine (globMatch_star _ _).mpr ⟨T, _, rfl, hT, ?_⟩
    refine (globMatch_literal_prefix c!"_J" _ _ (by decide)).mpr ⟨_, rfl, ?_⟩
    exact (globMatch_star _ _).mpr ⟨J, _, rfl, hJ, (globMatch_literal _ _ (by decide)).mpr rfl⟩

/-- C14: the listed thermo files are exactly the existing files `P…_T…_X…_thermo` there. -/
theorem C14_listed_thermo_files (s : FS) (hstar : '*' ∉ s.pathRhoResults) (listing : List Str)
    (path : Str) : path ∈ retriveJackknifeFileList s listing ↔ path ∈ listing ∧ ∃ P T X,
      ('/' ∉ P ∧ '/' ∉ T ∧ '/' ∉ X) ∧
      path = s.pathRhoResults ++ (c!"P" ++ P ++ c!"_T" ++ T ++ c!"_X" ++ X ++ c!"_thermo") := by
  rw [retriveJackknifeFileList, glob, List.mem_filter]
  refine and_congr_right fun _ => ?_
  have e : s.pathRhoResults ++ jackknife c!"*" c!"*" c!"*" = (s.pathRhoResults ++ c!"P") ++ ('*' ::
      (c!"_T" ++ ('*' :: (c!"_X" ++ ('*' :: c!"_thermo"))))) := by simp [jackknife]
  rw [e, globMatch_literal_prefix _ _ _ (by simp [hstar])]
  simp only [globMatch_star]
  constructor
  · rintro ⟨s1, rfl, P, s2, rfl, hP, h⟩
    obtain ⟨s3, rfl, h3⟩ := (globMatch_literal_prefix c!"_T" _ _ (by decide)).mp h
    obtain ⟨T, s4, rfl, hT, h4⟩ := (globMatch_star _ _).mp h3
    obtain ⟨s5, rfl, h5⟩ := (globMatch_literal_prefix c!"_X" _ _ (by decide)).mp h4
    obtain ⟨J, s6, rfl, hJ, h6⟩ := (globMatch_star _ _).mp h5
    rw [globMatch_literal _ _ (by decide)] at h6
    subst h6
    exact ⟨P, T, J, ⟨hP, hT, hJ⟩, by simp⟩
  · rintro ⟨P, T, J, ⟨hP, hT, hJ⟩, rfl⟩
    refine ⟨P ++ (c!"_T" ++ (T ++ (c!"_X" ++ (J ++ c!"_thermo")))), by simp, P, _, rfl, hP, ?_⟩
    refine (globMatch_literal_prefix c!"_T" _ _ (by decide)).mpr ⟨_, rfl, ?_⟩
    refine (globMatch_star _ _).mpr ⟨T, _, rfl, hT, ?_⟩
    refine (globMatch_literal_prefix c!"_X" _ _ (by decide)).mpr ⟨_, rfl, ?_⟩
    exact (globMatch_star _ _).mpr ⟨J, _, rfl, hJ, (globMatch_literal _ _ (by decide)).mpr rfl⟩

/-- C14: the listed sum over states files are exactly the existing files `sos_B….json` in the
parameters directories of the data set and of the sampling distribution. -/
theorem C14_listed_sos_files (s : FS) (h1 : '*' ∉ s.pathVibParams) (h2 : '*' ∉ s.pathRhoParams)
    (listing : List Str) (path arg : Str) :
    (path ∈ retriveSosCoupledFileList s listing arg ↔ path ∈ listing ∧ ∃ B, '/' ∉ B ∧
      path = s.pathVibParams ++ (c!"sos_B" ++ B ++ c!".json")) ∧
    (path ∈ retriveSosSamplingFileList s listing arg ↔ path ∈ listing ∧ ∃ B, '/' ∉ B ∧
      path = s.pathRhoParams ++ (c!"sos_B" ++ B ++ c!".json")) := by
  have key : ∀ dir : Str, '*' ∉ dir → (globMatch (dir ++ sos c!"*") path = true ↔ ∃ B, '/' ∉ B ∧
      path = dir ++ (c!"sos_B" ++ B ++ c!".json")) := by
    intro dir hd
    have e : dir ++ sos c!"*" = (dir ++ c!"sos_B") ++ ('*' :: c!".json") := by simp [sos]
    rw [e, globMatch_literal_prefix _ _ _ (by simp [hd])]
    simp only [globMatch_star]
    constructor
    · rintro ⟨s1, rfl, B, s2, rfl, hB, h⟩
      rw [globMatch_literal _ _ (by decide)] at h
      subst h
      exact ⟨B, hB, by simp⟩
    · rintro ⟨B, hB, rfl⟩
      exact ⟨B ++ c!".json", by simp, B, _, rfl, hB, (globMatch_literal _ _ (by decide)).mpr rfl⟩
  constructor
  · rw [retriveSosCoupledFileList, glob, List.mem_filter, key _ h1]
  · rw [retriveSosSamplingFileList, glob, List.mem_filter, key _ h2]

/-- C14 from the directory to the lists: if the results directory holds the results of some jobs,
and whatever other files whose names do not end in `_data_points.npz`, then the bead and temperature
lists of the listed files are those of the jobs. -/
theorem C14_lists_of_directory (s : FS) (hstar : '*' ∉ s.pathRhoResults)
    (hP : 'P' ∉ s.pathRhoResults) (hT : ¬ c!"_T" <:+: s.pathRhoResults) (listing : List Str)
    (jobs : List (Nat × Nat × Nat))
    (hjobs : ∀ j ∈ jobs, pimcPath s.pathRhoResults j.1 j.2.1 j.2.2 ∈ listing)
    (hother : ∀ p ∈ listing, c!"_data_points.npz" <:+ p →
      ∃ j ∈ jobs, p = pimcPath s.pathRhoResults j.1 j.2.1 j.2.2) :
    ∃ pl tl, extractBeadList (retrivePimcFileList s listing) = .ok pl ∧
      extractTemperatureList (retrivePimcFileList s listing) = .ok tl ∧
      pl.Pairwise (· < ·) ∧ tl.Pairwise (· < ·) ∧
      (∀ P, P ∈ pl ↔ ∃ T J, (P, T, J) ∈ jobs) ∧ (∀ T, T ∈ tl ↔ ∃ P J, (P, T, J) ∈ jobs) := by
  obtain ⟨pl, tl, h1, h2, h3⟩ := C14_lists_of_written_files s.pathRhoResults hP hT jobs
  refine ⟨pl, tl, ?_, ?_, h3⟩
  all_goals
    have hset : ∀ p, p ∈ (jobs.map fun j => pimcPath s.pathRhoResults j.1 j.2.1 j.2.2) ↔
        p ∈ retrivePimcFileList s listing := by
      intro p
      rw [C14_listed_pimc_files s hstar, List.mem_map]
      constructor
      · rintro ⟨j, hj, rfl⟩
        exact ⟨hjobs j hj, natStr j.1, tempStr j.2.1, natStr j.2.2,
          ⟨notMem_natStr (by decide) _, notMem_tempStr (by decide) (by decide) _,
            notMem_natStr (by decide) _⟩, rfl⟩
      · rintro ⟨hl, P, T, J, _, rfl⟩
        obtain ⟨j, hj, he⟩ := hother _ hl ⟨s.pathRhoResults ++ (c!"P" ++ P ++ c!"_T" ++ T ++ c!"_J" ++ J),
          by simp⟩
        exact ⟨j, hj, he.symm⟩
  · exact (C14_only_the_set_matters hset).1.mp h1
  · exact (C14_only_the_set_matters hset).2.mp h2

/-- C14: the three lists together. -/
theorem C14_parameter_lists (pimcFiles vib rho : List Str) (pl tl bl : List Nat) :
    extractParameterLists pimcFiles vib rho = .ok (pl, tl, bl) ↔
      extractBeadList pimcFiles = .ok pl ∧ extractTemperatureList pimcFiles = .ok tl ∧
      extractBasisList vib rho = .ok bl := by
  simp only [extractParameterLists, bind, Except.bind]
  cases extractBasisList vib rho <;> cases extractBeadList pimcFiles <;>
    cases extractTemperatureList pimcFiles <;> simp <;> tauto

end Pibronic.Props.Postprocessing
