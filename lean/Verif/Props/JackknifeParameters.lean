import Verif.Model.JackknifeParameters
import Verif.Props.Postprocessing
import Mathlib.Algebra.Field.Basic
import Mathlib.Tactic.NormNum
import Mathlib.Data.Rat.Defs

set_option autoImplicit false

/-!
Theorems about the parameter lists of the older analysis (C86) and the sum over states results of the
sampling model (C87).
-/
namespace Pibronic.Props.JackknifeParameters
open Py FileName Pibronic.FileStructure Pibronic.Postprocessing Pibronic.Props.Postprocessing

theorem bind_ok {α β : Type} {x : Except Err α} {f : α → Except Err β} {b : β} :
    (x >>= f) = .ok b ↔ ∃ a, x = .ok a ∧ f a = .ok b := by
  cases x with
  | error e => simp [bind, Except.bind]
  | ok a => simp [bind, Except.bind]

/-! ### C86 -/

/-- The bead number between a separator that ends in `P` and `_T`. -/
theorem bead_between (c : Char) (cs pre post : Str) (P : Nat) (hcs : c ∉ cs) (hP : 'P' ∈ c :: cs)
    (hpre : ¬ (c :: cs) <:+: pre) (hpost : 'P' ∉ post) :
    (do pyInt (← between (c :: cs) c!"_T" (pre ++ (c :: cs) ++ (natStr P ++ c!"_T" ++ post)))) = .ok P := by
  have hn : find (c :: cs) (natStr P ++ c!"_T" ++ post) = none := by
    apply find_none_of_not_infix
    rintro ⟨s, t, h⟩
    have : 'P' ∈ natStr P ++ c!"_T" ++ post := by
      rw [← h]
      simp only [List.mem_append]
      exact .inl (.inr hP)
    simp only [List.mem_append] at this
    rcases this with (h1 | h1) | h1
    · exact notMem_natStr (by decide) P h1
    · exact absurd h1 (by decide)
    · exact hpost h1
  unfold between
  rw [split_second' c cs pre _ hcs hpre, hn]
  simp only [bind, Except.bind]
  rw [split_head, find_of_notMem '_' c!"T" (natStr P) post (notMem_natStr (by decide) P)]
  exact pyInt_natStr P

/-- C86: the bead number is read back from the name of a PIMC file in a directory `dir` followed by
`results/`, also when `dir` has capital letters (compare C13). -/
theorem C86_pimc_bead (dir : Str) (hdir : ¬ c!"results/P" <:+: dir) (P T J : Nat) :
    extractBeadResults (pimcPath (dir ++ c!"results/") P T J) = .ok P := by
  have h := bead_between 'r' c!"esults/P" dir (tempStr T ++ c!"_J" ++ natStr J ++ c!"_data_points.npz") P
    (by decide) (by decide) hdir (by simp [notMem_natStr, notMem_tempStr, digitVal])
  have e : pimcPath (dir ++ c!"results/") P T J = dir ++ c!"results/P" ++
      (natStr P ++ c!"_T" ++ (tempStr T ++ c!"_J" ++ natStr J ++ c!"_data_points.npz")) := by
    simp [pimcPath, pimc]
  rw [e]
  exact h

/-- C86: the bead number is read back from the name of a thermo file in a directory `dir` followed by a
slash. -/
theorem C86_thermo_bead (dir : Str) (hdir : ¬ c!"/P" <:+: dir) (P T X : Nat) :
    extractBeadSlash (thermoPath (dir ++ c!"/") P T X) = .ok P := by
  have h := bead_between '/' c!"P" dir (tempStr T ++ c!"_X" ++ natStr X ++ c!"_thermo") P
    (by decide) (by decide) hdir (by simp [notMem_natStr, notMem_tempStr, digitVal])
  have e : thermoPath (dir ++ c!"/") P T X = dir ++ c!"/P" ++
      (natStr P ++ c!"_T" ++ (tempStr T ++ c!"_X" ++ natStr X ++ c!"_thermo")) := by
    simp [thermoPath, jackknife]
  rw [e]
  exact h

/-- C86: for files with the names the program gives, the parameters for the jackknife analysis are the
numbers of beads and temperatures of the PIMC files, and the basis sizes for which there are both sum
over states files, each in strictly increasing order. -/
theorem C86_jackknife_parameters (dir : Str) (hdir : ¬ c!"results/P" <:+: dir)
    (hT : ¬ c!"_T" <:+: dir ++ c!"results/") (vib rho : Str) (hv : ¬ c!"_B" <:+: vib)
    (hr : ¬ c!"_B" <:+: rho) (jobs : List (Nat × Nat × Nat)) (Bv Br : List Nat) :
    ∃ d, extractJackknifeParameters (jobs.map fun j => pimcPath (dir ++ c!"results/") j.1 j.2.1 j.2.2)
        (Bv.map (sosPath vib)) (Br.map (sosPath rho)) = .ok d ∧
      (d.beads.Pairwise (· < ·) ∧ d.temperatures.Pairwise (· < ·) ∧ d.basis.Pairwise (· < ·)) ∧
      (∀ P, P ∈ d.beads ↔ ∃ j ∈ jobs, j.1 = P) ∧ (∀ T, T ∈ d.temperatures ↔ ∃ j ∈ jobs, j.2.1 = T) ∧
      (∀ B, B ∈ d.basis ↔ B ∈ Bv ∧ B ∈ Br) := by
  have map_ok : ∀ {α : Type} (xs : List α) (g : α → Str) (f : Str → Except Err Nat) (v : α → Nat),
      (∀ a, f (g a) = .ok (v a)) → (xs.map g).mapM f = .ok (xs.map v) := by
    intro α xs g f v h
    induction xs with
    | nil => rfl
    | cons a xs ih => rw [List.map_cons, List.mapM_cons, h, ih]; rfl
  have h1 := map_ok Bv (sosPath vib) extractBasis id fun B => C13_sos_basis vib hv B
  have h2 := map_ok Br (sosPath rho) extractBasis id fun B => C13_sos_basis rho hr B
  have h3 := map_ok jobs (fun j => pimcPath (dir ++ c!"results/") j.1 j.2.1 j.2.2) extractTemperature
    (fun j => j.2.1) fun j => C13_pimc_temperature _ hT _ _ _
  have h4 := map_ok jobs (fun j => pimcPath (dir ++ c!"results/") j.1 j.2.1 j.2.2) extractBeadResults
    (fun j => j.1) fun j => C86_pimc_bead dir hdir _ _ _
  refine ⟨⟨uniqueSorted (jobs.map fun j => j.1), uniqueSorted ((Bv.map id).filter fun b => (Br.map id).contains b),
    uniqueSorted (jobs.map fun j => j.2.1), []⟩, ?_, ⟨uniqueSorted_strict _, uniqueSorted_strict _,
    uniqueSorted_strict _⟩, fun P => ?_, fun T => ?_, fun B => ?_⟩
  · unfold extractJackknifeParameters extractBasisList
    rw [h1, h2, h3, h4]
    rfl
  · simp [mem_uniqueSorted]
  · simp [mem_uniqueSorted]
  · simp [mem_uniqueSorted]

/-- C86: the parameters of thermo files: as above, and the numbers of samples. -/
theorem C86_pimc_parameters (dir : Str) (hdir : ¬ c!"/P" <:+: dir) (hT : ¬ c!"_T" <:+: dir ++ c!"/")
    (hX : ¬ c!"_X" <:+: dir ++ c!"/") (vib rho : Str) (hv : ¬ c!"_B" <:+: vib) (hr : ¬ c!"_B" <:+: rho)
    (results : List (Nat × Nat × Nat)) (Bv Br : List Nat) :
    ∃ d, extractPimcParameters (results.map fun j => thermoPath (dir ++ c!"/") j.1 j.2.1 j.2.2)
        (Bv.map (sosPath vib)) (Br.map (sosPath rho)) = .ok d ∧
      (d.beads.Pairwise (· < ·) ∧ d.temperatures.Pairwise (· < ·) ∧ d.samples.Pairwise (· < ·) ∧
        d.basis.Pairwise (· < ·)) ∧
      (∀ P, P ∈ d.beads ↔ ∃ j ∈ results, j.1 = P) ∧ (∀ T, T ∈ d.temperatures ↔ ∃ j ∈ results, j.2.1 = T) ∧
      (∀ X, X ∈ d.samples ↔ ∃ j ∈ results, j.2.2 = X) ∧ (∀ B, B ∈ d.basis ↔ B ∈ Bv ∧ B ∈ Br) := by
  have map_ok : ∀ {α : Type} (xs : List α) (g : α → Str) (f : Str → Except Err Nat) (v : α → Nat),
      (∀ a, f (g a) = .ok (v a)) → (xs.map g).mapM f = .ok (xs.map v) := by
    intro α xs g f v h
    induction xs with
    | nil => rfl
    | cons a xs ih => rw [List.map_cons, List.mapM_cons, h, ih]; rfl
  have h1 := map_ok Bv (sosPath vib) extractBasis id fun B => C13_sos_basis vib hv B
  have h2 := map_ok Br (sosPath rho) extractBasis id fun B => C13_sos_basis rho hr B
  have h3 := map_ok results (fun j => thermoPath (dir ++ c!"/") j.1 j.2.1 j.2.2) extractTemperatureThermo
    (fun j => j.2.1) fun j => C13_thermo_temperature _ hT _ _ _
  have h4 := map_ok results (fun j => thermoPath (dir ++ c!"/") j.1 j.2.1 j.2.2) extractSamples
    (fun j => j.2.2) fun j => C13_thermo_samples _ hX _ _ _
  have h5 := map_ok results (fun j => thermoPath (dir ++ c!"/") j.1 j.2.1 j.2.2) extractBeadSlash
    (fun j => j.1) fun j => C86_thermo_bead dir hdir _ _ _
  refine ⟨⟨uniqueSorted (results.map fun j => j.1),
    uniqueSorted ((Bv.map id).filter fun b => (Br.map id).contains b),
    uniqueSorted (results.map fun j => j.2.1), uniqueSorted (results.map fun j => j.2.2)⟩, ?_,
    ⟨uniqueSorted_strict _, uniqueSorted_strict _, uniqueSorted_strict _, uniqueSorted_strict _⟩,
    fun P => ?_, fun T => ?_, fun X => ?_, fun B => ?_⟩
  · unfold extractPimcParameters extractBasisList
    rw [h1, h2, h3, h4, h5]
    rfl
  · simp [mem_uniqueSorted]
  · simp [mem_uniqueSorted]
  · simp [mem_uniqueSorted]
  · simp [mem_uniqueSorted]

/-- C86: the files that are looked at: the PIMC files of the sampling model and the sum over states files
of both models. -/
theorem C86_files (s : FS) (h0 : '*' ∉ s.pathRhoResults) (h1 : '*' ∉ s.pathVibParams)
    (h2 : '*' ∉ s.pathRhoParams) (listing : List Str) (path : Str) :
    (path ∈ (retriveFilePathsForJackknife s listing).1 ↔ path ∈ listing ∧ ∃ P T J,
      ('/' ∉ P ∧ '/' ∉ T ∧ '/' ∉ J) ∧ path = s.pathRhoResults ++
        (c!"P" ++ P ++ c!"_T" ++ T ++ c!"_J" ++ J ++ c!"_data_points.npz")) ∧
    (path ∈ (retriveFilePathsForJackknife s listing).2.1 ↔ path ∈ listing ∧ ∃ B, '/' ∉ B ∧
      path = s.pathVibParams ++ (c!"sos_B" ++ B ++ c!".json")) ∧
    (path ∈ (retriveFilePathsForJackknife s listing).2.2 ↔ path ∈ listing ∧ ∃ B, '/' ∉ B ∧
      path = s.pathRhoParams ++ (c!"sos_B" ++ B ++ c!".json")) :=
  ⟨C14_listed_pimc_files s h0 listing path, (C14_listed_sos_files s h1 h2 listing path c!"*").1,
    (C14_listed_sos_files s h1 h2 listing path c!"*").2⟩

/-- C86, refuted: in a directory without slash at the end of its path, or with another name, nothing is
found: the list of parts has one element. -/
theorem C86_other_directory_refuted (dir : Str) (P T J : Nat)
    (hdir : ¬ c!"results/P" <:+: pimcPath dir P T J) :
    extractBeadResults (pimcPath dir P T J) = .error .index := by
  unfold extractBeadResults between
  rw [split_of_find_none 'r' c!"esults/P" _ (find_none_of_not_infix _ _ hdir)]
  rfl

example : ∃ d, extractJackknifeParameters [pimcPath (c!"/home/Pibronic/" ++ c!"results/") 12 30000 0]
    [sosPath c!"v/" 80] [sosPath c!"r/" 80] = .ok d ∧ 12 ∈ d.beads ∧ 80 ∈ d.basis := by
  obtain ⟨d, h, -, h1, -, h2⟩ := C86_jackknife_parameters c!"/home/Pibronic/" (by decide) (by decide)
    c!"v/" c!"r/" (by decide) (by decide) [(12, 30000, 0)] [80] [80]
  exact ⟨d, h, (h1 12).2 ⟨(12, 30000, 0), by simp, rfl⟩, (h2 80).2 (by simp)⟩

/-! ### C87 -/

section
variable {V : Type} [Field V] [DecidableEq V]

/-- C87: what is loaded belongs to the requested temperature: it is taken from the position of the
temperature in the list of temperatures, and the two ratios are the ones of the partition functions. -/
theorem C87_loaded {ts : List Nat} {lists : Str → Option (List V)} {T : Nat}
    {args : Option (Analytic.AnalyticData V)} {out : Option (Analytic.AnalyticData V)}
    (h : loadRhoSosData (.dict (some ts) lists) T args = .ok out) :
    ∃ (i : Nat) (a : Analytic.AnalyticData V), out = some a ∧ ts[i]? = some T ∧
      (∀ key v, (key, v) ∈ [(c!"Z_sampling", a.Z), (c!"E_sampling", a.E), (c!"Cv_sampling", a.Cv)] →
        ∃ l, lists key = some l ∧ l[i]? = some v) ∧
      (∃ l v, lists c!"Z_sampling+beta" = some l ∧ l[i]? = some v ∧ v ≠ 0 ∧ a.alphaPlus * v = a.Z) ∧
      (∃ l v, lists c!"Z_sampling-beta" = some l ∧ l[i]? = some v ∧ v ≠ 0 ∧ a.alphaMinus * v = a.Z) := by
  unfold loadRhoSosData at h
  simp only at h
  split at h
  · next hT =>
    obtain ⟨z, h1, h⟩ := bind_ok.1 h
    obtain ⟨e, h2, h⟩ := bind_ok.1 h
    obtain ⟨cv, h3, h⟩ := bind_ok.1 h
    obtain ⟨zp, h4, h⟩ := bind_ok.1 h
    obtain ⟨ap, h5, h⟩ := bind_ok.1 h
    obtain ⟨zm, h6, h⟩ := bind_ok.1 h
    obtain ⟨am, h7, h⟩ := bind_ok.1 h
    cases h
    have item : ∀ key v, sosItem lists key (ts.idxOf T) = .ok v →
        ∃ l, lists key = some l ∧ l[ts.idxOf T]? = some v := by
      intro key v hv
      unfold sosItem at hv
      split at hv
      · cases hv
      · next l hl =>
        split at hv
        · cases hv
        · next w hw => cases hv; exact ⟨l, hl, hw⟩
    have quot : ∀ z w a : V, Analytic.pyDiv z w = .ok a → w ≠ 0 ∧ a * w = z := by
      intro z w a ha
      unfold Analytic.pyDiv at ha
      split at ha
      · cases ha
      · next hw => cases ha; exact ⟨hw, div_mul_cancel₀ z hw⟩
    refine ⟨ts.idxOf T, _, rfl, List.getElem?_idxOf hT, ?_, ?_, ?_⟩
    · intro key v hkv
      simp only [List.mem_cons, Prod.mk.injEq, List.not_mem_nil, or_false] at hkv
      rcases hkv with ⟨rfl, rfl⟩ | ⟨rfl, rfl⟩ | ⟨rfl, rfl⟩
      · exact item _ _ h1
      · exact item _ _ h2
      · exact item _ _ h3
    · obtain ⟨l, e1, e2⟩ := item _ _ h4
      exact ⟨l, zp, e1, e2, quot _ _ _ h5⟩
    · obtain ⟨l, e1, e2⟩ := item _ _ h6
      exact ⟨l, zm, e1, e2, quot _ _ _ h7⟩
  · cases h

/-- C87: a missing file, a text that is not JSON, a file without temperatures and a temperature that is
not in the file are reported. -/
theorem C87_errors (T : Nat) (args : Option (Analytic.AnalyticData V)) (ts : List Nat)
    (lists : Str → Option (List V)) (hT : T ∉ ts) :
    loadRhoSosData .absent T args = .error .assertion ∧ loadRhoSosData .broken T args = .error .value ∧
    loadRhoSosData (.dict none lists) T args = .error .key ∧
    loadRhoSosData (.dict (some ts) lists) T args = .error .value := by
  refine ⟨rfl, rfl, rfl, ?_⟩
  simp [loadRhoSosData, hT]

/-- C87: a list that is missing, one that is too short, and a partition function that is zero are
reported: the first one in the order in which the lists are used. -/
theorem C87_bad_lists (T : Nat) (args : Option (Analytic.AnalyticData V)) (ts : List Nat)
    (lists : Str → Option (List V)) (hT : T ∈ ts) (before : List Str) (key : Str) (after : List Str)
    (hk : [c!"Z_sampling", c!"E_sampling", c!"Cv_sampling", c!"Z_sampling+beta", c!"Z_sampling-beta"]
      = before ++ key :: after)
    (hb : ∀ k ∈ before, ∃ l v, lists k = some l ∧ l[ts.idxOf T]? = some v ∧ v ≠ 0) :
    (lists key = none → loadRhoSosData (.dict (some ts) lists) T args = .error .key) ∧
    (∀ l, lists key = some l → l.length ≤ ts.idxOf T →
      loadRhoSosData (.dict (some ts) lists) T args = .error .index) ∧
    (∀ l, lists key = some l → l[ts.idxOf T]? = some 0 → '+' ∈ key ∨ '-' ∈ key →
      loadRhoSosData (.dict (some ts) lists) T args = .error .zeroDivision) := by
  have item : ∀ k, (∃ l v, lists k = some l ∧ l[ts.idxOf T]? = some v ∧ v ≠ 0) →
      ∃ v, sosItem lists k (ts.idxOf T) = .ok v ∧ v ≠ 0 := by
    rintro k ⟨l, v, h1, h2, h3⟩
    exact ⟨v, by simp [sosItem, h1, h2], h3⟩
  have hit : ∀ k ∈ before, ∃ v, sosItem lists k (ts.idxOf T) = .ok v ∧ v ≠ 0 :=
    fun k hk => item k (hb k hk)
  have key' : ∀ e, sosItem lists key (ts.idxOf T) = .error e →
      loadRhoSosData (.dict (some ts) lists) T args = .error e := by
    intro e he
    unfold loadRhoSosData
    simp only [if_pos hT]
    rcases before with _ | ⟨k1, _ | ⟨k2, _ | ⟨k3, _ | ⟨k4, _ | ⟨k5, before⟩⟩⟩⟩⟩ <;>
      simp only [List.nil_append, List.cons_append, List.cons.injEq] at hk
    · obtain ⟨rfl, -⟩ := hk
      simp [he, bind, Except.bind]
    · obtain ⟨rfl, rfl, -⟩ := hk
      obtain ⟨v1, h1, -⟩ := hit _ List.mem_cons_self
      simp [he, h1, bind, Except.bind]
    · obtain ⟨rfl, rfl, rfl, -⟩ := hk
      obtain ⟨v1, h1, -⟩ := hit _ List.mem_cons_self
      obtain ⟨v2, h2, -⟩ := hit _ (List.mem_cons_of_mem _ List.mem_cons_self)
      simp [he, h1, h2, bind, Except.bind]
    · obtain ⟨rfl, rfl, rfl, rfl, -⟩ := hk
      obtain ⟨v1, h1, -⟩ := hit _ List.mem_cons_self
      obtain ⟨v2, h2, -⟩ := hit _ (List.mem_cons_of_mem _ List.mem_cons_self)
      obtain ⟨v3, h3, -⟩ := hit _ (List.mem_cons_of_mem _ (List.mem_cons_of_mem _ List.mem_cons_self))
      simp [he, h1, h2, h3, bind, Except.bind]
    · obtain ⟨rfl, rfl, rfl, rfl, rfl, -⟩ := hk
      obtain ⟨v1, h1, -⟩ := hit _ List.mem_cons_self
      obtain ⟨v2, h2, -⟩ := hit _ (List.mem_cons_of_mem _ List.mem_cons_self)
      obtain ⟨v3, h3, -⟩ := hit _ (List.mem_cons_of_mem _ (List.mem_cons_of_mem _ List.mem_cons_self))
      obtain ⟨v4, h4, h4'⟩ := hit _ (List.mem_cons_of_mem _ (List.mem_cons_of_mem _
        (List.mem_cons_of_mem _ List.mem_cons_self)))
      simp [he, h1, h2, h3, h4, h4', Analytic.pyDiv, bind, Except.bind]
    · simp at hk
  refine ⟨fun h => key' _ (by simp [sosItem, h]), fun l h hl => key' _ ?_, fun l h hl hpm => ?_⟩
  · simp [sosItem, h, List.getElem?_eq_none_iff.2 hl]
  · have he : sosItem lists key (ts.idxOf T) = .ok 0 := by simp [sosItem, h, hl]
    unfold loadRhoSosData
    simp only [if_pos hT]
    rcases before with _ | ⟨k1, _ | ⟨k2, _ | ⟨k3, _ | ⟨k4, _ | ⟨k5, before⟩⟩⟩⟩⟩ <;>
      simp only [List.nil_append, List.cons_append, List.cons.injEq] at hk
    · obtain ⟨rfl, -⟩ := hk
      exact absurd hpm (by decide)
    · obtain ⟨rfl, rfl, -⟩ := hk
      exact absurd hpm (by decide)
    · obtain ⟨rfl, rfl, rfl, -⟩ := hk
      exact absurd hpm (by decide)
    · obtain ⟨rfl, rfl, rfl, rfl, -⟩ := hk
      obtain ⟨v1, h1, -⟩ := hit _ List.mem_cons_self
      obtain ⟨v2, h2, -⟩ := hit _ (List.mem_cons_of_mem _ List.mem_cons_self)
      obtain ⟨v3, h3, -⟩ := hit _ (List.mem_cons_of_mem _ (List.mem_cons_of_mem _ List.mem_cons_self))
      simp [he, h1, h2, h3, Analytic.pyDiv, bind, Except.bind]
    · obtain ⟨rfl, rfl, rfl, rfl, rfl, -⟩ := hk
      obtain ⟨v1, h1, -⟩ := hit _ List.mem_cons_self
      obtain ⟨v2, h2, -⟩ := hit _ (List.mem_cons_of_mem _ List.mem_cons_self)
      obtain ⟨v3, h3, -⟩ := hit _ (List.mem_cons_of_mem _ (List.mem_cons_of_mem _ List.mem_cons_self))
      obtain ⟨v4, h4, h4'⟩ := hit _ (List.mem_cons_of_mem _ (List.mem_cons_of_mem _
        (List.mem_cons_of_mem _ List.mem_cons_self)))
      simp [he, h1, h2, h3, h4, h4', Analytic.pyDiv, bind, Except.bind]
    · simp at hk

example (args : Option (Analytic.AnalyticData ℚ)) :
    loadRhoSosData (.dict (some [30000, 31000]) fun k => if k = c!"Z_sampling" then some [1, 2] else
      if k = c!"E_sampling" then some [3] else none) 31000 args = .error .index :=
  (C87_bad_lists 31000 args [30000, 31000] _ (by decide) [c!"Z_sampling"] c!"E_sampling" _ rfl
    (by
      intro k hk
      rw [List.mem_singleton] at hk
      subst hk
      exact ⟨[1, 2], 2, rfl, by decide, by norm_num⟩)).2.1 [3] rfl (by decide)

/-- C87, refuted: a file that exists and cannot be opened is skipped silently: the caller goes on with
whatever was loaded before, for instance for another temperature. -/
theorem C87_unreadable_refuted (T : Nat) (args : Option (Analytic.AnalyticData V)) :
    loadRhoSosData .unreadable T args = .ok args := rfl

/-- C87: if the file can be opened, a call that returns has loaded the results. -/
theorem C87_no_stale_partial {c : SosContents V} (hc : c ≠ .unreadable) {T : Nat}
    {args out : Option (Analytic.AnalyticData V)} (h : loadRhoSosData c T args = .ok out) :
    ∃ ts lists a, c = .dict (some ts) lists ∧ T ∈ ts ∧ out = some a := by
  cases c with
  | absent => cases h
  | unreadable => exact absurd rfl hc
  | broken => cases h
  | dict ts lists =>
    cases ts with
    | none => cases h
    | some ts =>
      obtain ⟨i, a, h1, h2, -⟩ := C87_loaded h
      exact ⟨ts, lists, a, rfl, List.mem_of_getElem? h2, h1⟩

end

example : loadRhoSosData (V := ℚ) (.dict (some [25000, 30000]) fun _ => some [2, 4]) 30000 none =
    .ok (some ⟨4, 4, 4, 1, 1⟩) := by
  norm_num [loadRhoSosData, sosItem, Analytic.pyDiv, bind, Except.bind, List.idxOf_cons]

end Pibronic.Props.JackknifeParameters
