import Verif.Model.Temperature
import Verif.Spec.Temperature
import Verif.Props.Postprocessing
import Verif.Props.Results
import Verif.Props.Analytic
import Mathlib.Tactic.Linarith
import Mathlib.Tactic.NormNum
import Mathlib.Tactic.Ring
import Mathlib.Tactic.FieldSimp
import Mathlib.Tactic.Positivity

set_option autoImplicit false

/-!
C116: the results of different temperatures are kept apart, and each is analysed at the temperature it
was obtained at.  This holds for temperatures that are whole numbers of hundredths of a kelvin, and only
for those.
-/
namespace Pibronic.Props.Temperature
open Pibronic.Py Pibronic.FileName Pibronic.FileStructure Pibronic.Results Pibronic.Postprocessing
open Pibronic.Analytic Pibronic.Temperature Pibronic.Spec.Temperature
open Pibronic.Props.Postprocessing

/-! ### Rounding -/

/-- The number of hundredths is at most half a hundredth away, and even if it is exactly half. -/
theorem hundredths_spec {K : Type} [Field K] [LinearOrder K] [IsStrictOrderedRing K] [FloorRing K] {T : K}
    (h : 0 ≤ T) :
    |T * 100 - hundredths T| ≤ 1 / 2 ∧
      (|T * 100 - hundredths T| = 1 / 2 → hundredths T % 2 = 0) := by
  have h0 : (0 : ℤ) ≤ ⌊T * 100⌋ := Int.floor_nonneg.2 (by positivity)
  obtain ⟨n, hn⟩ := Int.eq_ofNat_of_zero_le h0
  have hle : (n : K) ≤ T * 100 := by
    have := Int.floor_le (T * 100)
    rw [hn] at this; exact_mod_cast this
  have hlt : T * 100 < n + 1 := by
    have := Int.lt_floor_add_one (T * 100)
    rw [hn] at this; exact_mod_cast this
  have e : hundredths T = if T * 100 - n < 1 / 2 then n else if 1 / 2 < T * 100 - n then n + 1
      else if n % 2 = 0 then n else n + 1 := by
    simp only [hundredths, hn]
    rfl
  rw [e]
  split_ifs with h1 h2 h3
  · rw [abs_of_nonneg (by linarith)]
    exact ⟨h1.le, fun h => absurd h h1.ne⟩
  · push_cast
    rw [abs_of_nonpos (by linarith)]
    exact ⟨by linarith, fun h => by linarith⟩
  · rw [abs_of_nonneg (by linarith)]
    exact ⟨by linarith, fun _ => h3⟩
  · push_cast
    rw [abs_of_nonpos (by linarith)]
    exact ⟨by linarith, fun _ => by omega⟩

theorem whole_hundredths (n : Nat) : hundredths ((n : ℚ) / 100) = n := by
  have h := (hundredths_spec (T := (n : ℚ) / 100) (by positivity)).1
  rw [div_mul_cancel₀ _ (by norm_num)] at h
  have h1 := abs_le.1 h
  have a : (hundredths ((n : ℚ) / 100) : ℚ) < (n + 1 : ℕ) := by push_cast; linarith [h1.1]
  have b : (n : ℚ) < (hundredths ((n : ℚ) / 100) + 1 : ℕ) := by push_cast; linarith [h1.2]
  have a' := Nat.cast_lt.1 a
  have b' := Nat.cast_lt.1 b
  omega

/-- C116: a name or a key shows the nearest number of hundredths of a kelvin (and the even one of two
equally near ones). -/
theorem C116_shown {T : ℚ} (h : 0 ≤ T) :
    ∃ n : Nat, IsNearest n T ∧ formatF2 T = tempStr n := by
  refine ⟨hundredths T, fun m hm => ?_, rfl⟩
  obtain ⟨h1, h2⟩ := hundredths_spec h
  have e : ∀ k : Nat, |T - k / 100| = |T * 100 - k| / 100 := fun k => by
    rw [← abs_of_pos (show (0 : ℚ) < 100 by norm_num), ← abs_div]
    rw [abs_of_pos (show (0 : ℚ) < 100 by norm_num)]
    congr 1
    field_simp
  rw [e, e]
  have hd : (1 : ℚ) ≤ |(m : ℚ) - hundredths T| := by
    have : (1 : ℤ) ≤ |(m : ℤ) - hundredths T| := Int.one_le_abs (by omega)
    exact_mod_cast this
  have ht : |(m : ℚ) - hundredths T| ≤ |T * 100 - hundredths T| + |T * 100 - m| := by
    have := abs_sub_le (m : ℚ) (T * 100) (hundredths T)
    rw [abs_sub_comm (m : ℚ) (T * 100)] at this
    linarith
  rcases lt_or_eq_of_le h1 with hl | hl
  · left; linarith
  · rcases lt_or_eq_of_le (show |T * 100 - hundredths T| ≤ |T * 100 - m| by linarith) with hx | hx
    · left; linarith
    · right; exact ⟨by rw [hx], h2 hl⟩

/-- Two decimals: 300.004 is shown as 300.00; the tie 0.125 is shown as 0.12, the tie 0.375 as 0.38. -/
example : formatF2 300.004 = c!"300.00" ∧ formatF2 0.125 = c!"0.12" ∧ formatF2 0.375 = c!"0.38" := by
  refine ⟨?_, ?_, ?_⟩ <;> decide +kernel

/-! ### The temperature that the analysis uses -/

/-- C116: the temperature that the analysis takes from the name of a run's results is within half a
hundredth of a kelvin of the temperature of the run. -/
theorem C116_read_back (dir : Str) (hdir : ¬ c!"_T" <:+: dir) (P : Nat) {T : ℚ} (hT : 0 ≤ T) (J : Nat) :
    ∃ n : Nat, extractTemperature (dir ++ resultName P T J) = .ok n ∧ |T - n / 100| ≤ 1 / 200 := by
  refine ⟨hundredths T, C13_pimc_temperature dir hdir P _ J, ?_⟩
  have h := (hundredths_spec hT).1
  have e : T - (hundredths T : ℚ) / 100 = (T * 100 - hundredths T) / 100 := by field_simp
  rw [e, abs_div, abs_of_pos (show (0 : ℚ) < 100 by norm_num)]
  linarith

/-- C116: the temperature that the analysis takes from the name is that of the run exactly when the run's
temperature is a whole number of hundredths of a kelvin. -/
theorem C116_exact_iff (dir : Str) (hdir : ¬ c!"_T" <:+: dir) (P : Nat) (T : ℚ) (J : Nat) :
    (∃ n : Nat, extractTemperature (dir ++ resultName P T J) = .ok n ∧ (n : ℚ) / 100 = T) ↔ Whole T := by
  constructor
  · rintro ⟨n, -, h⟩; exact ⟨n, h.symm⟩
  · rintro ⟨n, rfl⟩
    refine ⟨n, ?_, rfl⟩
    have := C13_pimc_temperature dir hdir P n J
    rw [resultName, formatF2, whole_hundredths]
    exact this

/-- C116 (what the code does instead): a run at a temperature that is not a whole number of hundredths of a
kelvin is analysed at another temperature. -/
theorem C116_other_temperature_refuted (dir : Str) (hdir : ¬ c!"_T" <:+: dir) (P : Nat) {T : ℚ}
    (hT : ¬ Whole T) (J : Nat) :
    ∃ n : Nat, extractTemperature (dir ++ resultName P T J) = .ok n ∧ (n : ℚ) / 100 ≠ T :=
  ⟨hundredths T, C13_pimc_temperature dir hdir P _ J, fun h => hT ⟨_, h.symm⟩⟩

/-- There is such a temperature: 300.004 K. -/
example : ¬ Whole 300.004 := by
  rintro ⟨n, h⟩
  have h' : (n : ℚ) * 10 = (300004 : ℕ) := by push_cast; linarith
  have : n * 10 = 300004 := by exact_mod_cast h'
  omega

/-! ### Different temperatures are kept apart -/

/-- Two names are equal exactly when beads, job and the shown temperature agree. -/
theorem C116_same_name_iff (P P' J J' : Nat) (T T' : ℚ) :
    resultName P T J = resultName P' T' J' ↔ P = P' ∧ J = J' ∧ formatF2 T = formatF2 T' := by
  constructor
  · intro h
    obtain ⟨a, b, c⟩ := Pibronic.Props.Results.pimc_injective h
    exact ⟨a, c, by rw [formatF2, b, formatF2]⟩
  · rintro ⟨rfl, rfl, h⟩
    rw [resultName, h, resultName]

theorem hundredths_ne {T T' : ℚ} (hT : 0 ≤ T) (hT' : 0 ≤ T') (h : 1 / 100 < |T - T'|) :
    hundredths T ≠ hundredths T' := by
  intro he
  have a := (hundredths_spec hT).1
  have b := (hundredths_spec hT').1
  rw [he] at a
  have := abs_sub_le (T * 100) (hundredths T') (T' * 100)
  rw [abs_sub_comm (hundredths T' : ℚ)] at this
  have e : |T * 100 - T' * 100| = |T - T'| * 100 := by
    rw [← sub_mul, abs_mul, abs_of_pos (show (0 : ℚ) < 100 by norm_num)]
  rw [e] at this
  linarith

/-- C116, the part that holds: for two whole numbers of hundredths that differ, and for any two temperatures
that differ by more than a hundredth, the names of results differ, the results that the analysis loads for
the one temperature contain none of the other, and saving the results of the one leaves those of the other
as they are. -/
theorem C116_apart_partial {V : Type} {T T' : ℚ} (hT : 0 ≤ T) (hT' : 0 ≤ T')
    (h : (Whole T ∧ Whole T' ∧ T ≠ T') ∨ 1 / 100 < |T - T'|) :
    (∀ P P' J J', resultName P T J ≠ resultName P' T' J') ∧
    (∀ (s : FS) (dir : Str), s.templatePimc = dir ++ pimc fieldP fieldT c!"{J:s}" → '{' ∉ dir →
      '}' ∉ dir → '*' ∉ dir → ∀ (listing : List Str) (P : Nat),
      ∃ files, pimcFilesFor s listing P (hundredths T) = .ok files ∧
        (∀ J, dir ++ resultName P T J ∈ listing → dir ++ resultName P T J ∈ files) ∧
        ∀ P' J, dir ++ resultName P' T' J ∉ files) ∧
    (∀ (cls cls' : Cls) (P P' X X' J J' : Nat) (hv hr hv' hr' root path : Str) (d d' : Disk V),
      computePathToFile (runBox cls P T X J hv hr root : Box V) = .ok path →
      saveResults d (runBox cls' P' T' X' J' hv' hr' root) = .ok d' → d' path = d path) := by
  have hne : hundredths T ≠ hundredths T' := by
    rcases h with ⟨⟨n, rfl⟩, ⟨m, rfl⟩, h⟩ | h
    · rw [whole_hundredths, whole_hundredths]
      rintro rfl; exact h rfl
    · exact hundredths_ne hT hT' h
  have hn : ∀ P P' J J', resultName P T J ≠ resultName P' T' J' := fun P P' J J' he =>
    hne (Pibronic.Props.Results.pimc_injective he).2.1
  refine ⟨hn, ?_, ?_⟩
  · intro s dir htpl hb1 hb2 hst listing P
    obtain ⟨files, hf, hm⟩ := C17_selected_files s dir htpl hb1 hb2 hst listing P (hundredths T)
    refine ⟨files, hf, fun J hJ => (hm _).2 ⟨hJ, natStr J, notMem_natStr (by decide) _, rfl⟩, ?_⟩
    intro P' J hmem
    obtain ⟨files', hf', hm'⟩ := C17_selects_exactly s dir htpl hb1 hb2 hst listing P (hundredths T)
    rw [hf] at hf'
    obtain rfl := Except.ok.inj hf'
    have := (hm' P' (hundredths T') J ((hm _).1 hmem).1).1 hmem
    exact hne this.2.symm
  · intro cls cls' P P' X X' J J' hv hr hv' hr' root path d d' hp hs
    exact Pibronic.Props.Results.C62_jobs_do_not_overwrite (b := runBox cls P T X J hv hr root)
      (b' := runBox cls' P' T' X' J' hv' hr' root) (P := P) (T := hundredths T) (J := J)
      (P' := P') (T' := hundredths T') (J' := J') (root := root) d d' (by
        simp [runBox]) (by simp [runBox]) (by simp [runBox, init, initializeArrays])
      (by simp [runBox, init, initializeArrays]) (by simp [runBox]) (by simp [runBox])
      (by simp [hne]) hp hs

/-- C116 (what the code does instead): temperatures that show the same two decimals are not kept apart.
The results that the analysis loads for the one temperature contain the results of the other, so that the
samples are pooled; and a run with the same beads and the same job number replaces the saved results of the
other. -/
theorem C116_mixed_refuted {V : Type} {T T' : ℚ} (h : formatF2 T = formatF2 T') :
    (∀ (s : FS) (dir : Str), s.templatePimc = dir ++ pimc fieldP fieldT c!"{J:s}" → '{' ∉ dir →
      '}' ∉ dir → '*' ∉ dir → ∀ (listing : List Str) (P J J' : Nat),
      dir ++ resultName P T J ∈ listing → dir ++ resultName P T' J' ∈ listing →
      ∃ files, pimcFilesFor s listing P (hundredths T) = .ok files ∧
        dir ++ resultName P T J ∈ files ∧ dir ++ resultName P T' J' ∈ files) ∧
    (∀ (cls : Cls) (P X X' J : Nat) (hv hr root : Str) (d : Disk V), X ≠ 0 → X' ≠ 0 →
      ∃ path d', computePathToFile (runBox cls P T X J hv hr root : Box V) = .ok path ∧
        saveResults d (runBox cls P T' X' J hv hr root) = .ok d' ∧
        ∃ f, d' path = some f ∧ f.number = some X') := by
  have he : hundredths T = hundredths T' := tempStr_injective h
  refine ⟨?_, ?_⟩
  · intro s dir htpl hb1 hb2 hst listing P J J' h1 h2
    obtain ⟨files, hf, hm⟩ := C17_selected_files s dir htpl hb1 hb2 hst listing P (hundredths T)
    refine ⟨files, hf, (hm _).2 ⟨h1, natStr J, notMem_natStr (by decide) _, rfl⟩,
      (hm _).2 ⟨h2, natStr J', notMem_natStr (by decide) _, ?_⟩⟩
    rw [resultName, ← h, formatF2]
  · intro cls P X X' J hv hr root d hX hX'
    obtain ⟨X, rfl⟩ := Nat.exists_eq_succ_of_ne_zero hX
    obtain ⟨X', rfl⟩ := Nat.exists_eq_succ_of_ne_zero hX'
    have hs : ∃ f : ResultFile V, saveResults d (runBox cls P T' (X' + 1) J hv hr root) =
        .ok (d.write (join root (resultName P T J)) f) ∧ f.number = some (X' + 1) :=
      ⟨_, by
        simp only [saveResults, computePathToFile, runBox, init, initializeArrays, Count.isZeroLit, bind,
          Except.bind, Option.getD_some, ← he, resultName, formatF2]
        rfl, rfl⟩
    obtain ⟨f, hs, hf⟩ := hs
    refine ⟨join root (resultName P T J), _, ?_, hs, f, by rw [Disk.write, if_pos rfl], hf⟩
    simp [computePathToFile, runBox, init, initializeArrays, Count.isZeroLit, resultName, formatF2]

/-- There are such temperatures, and they differ: 300.001 K and 300.004 K. -/
example : formatF2 300.001 = formatF2 300.004 ∧ (300.001 : ℚ) ≠ 300.004 := by
  constructor
  · decide +kernel
  · norm_num

/-- A strict inequality is needed above: 0.015 K and 0.025 K differ by a hundredth, and both are shown as
0.02. -/
example : formatF2 0.015 = formatF2 0.025 ∧ |(0.015 : ℚ) - 0.025| = 1 / 100 := by
  constructor
  · decide +kernel
  · norm_num [abs_of_neg]

/-- The part that holds applies to 300 K and 300.02 K. -/
example : (1 : ℚ) / 100 < |300 - 300.02| := by norm_num [abs_of_neg]

/-! ### Analytic results -/

section
variable {V : Type} [Div V] [Zero V] [DecidableEq V]

/-- C116, the part that holds: a calculation at a temperature more than a hundredth away leaves the entry
in the file, and what the analysis gets, as they are. -/
theorem C116_analytic_apart_partial (float : Str → Except Err V) (m : Method) (h : Hashes) {T T' : ℚ}
    (hT : 0 ≤ T) (hT' : 0 ≤ T') (hfar : 1 / 100 < |T - T'|) (out : Str) (d : ADict V)
    (hc : Pibronic.Props.Analytic.Carries m h d) (c : Contents V)
    (hok : calculation float m h T' out (.dict d) = .ok c) :
    (∃ d', c = .dict d' ∧ d' (formatF2 T) = d (formatF2 T)) ∧
      analyticAt h T c = analyticAt h T (.dict d) := by
  obtain ⟨e, d', -, rfl, -, ho⟩ :=
    Pibronic.Props.Analytic.C51_keeps_other_temperatures float m h _ false out d hc c hok
  have h1 := ho c!"hash_vib" (Pibronic.Props.Analytic.tempStr_ne_hash_vib _).symm
  have h2 := ho c!"hash_rho" (Pibronic.Props.Analytic.tempStr_ne_hash_rho _).symm
  have h3 := ho (tempStr (hundredths T)) (fun h => hundredths_ne hT hT' hfar (tempStr_injective h))
  refine ⟨⟨d', rfl, h3⟩, ?_⟩
  simp only [analyticAt, loadAnalytic, hasHash, h1, h2, h3]
  rfl

/-- C116 (what the code does instead): a calculation at a temperature that shows the same two decimals
replaces the analytic results: the entry for `T` is then what the program printed for `T'`, whatever the file
held for `T` before. -/
theorem C116_analytic_replaced_refuted (float : Str → Except Err V) (m : Method) (h : Hashes) {T T' : ℚ}
    (he : formatF2 T = formatF2 T') (out : Str) (old c : Contents V)
    (hok : calculation float m h T' out old = .ok c) :
    ∃ e d, compute float false out = .ok (some e) ∧ c = .dict d ∧ d (formatF2 T) = some (.entry e) := by
  obtain ⟨d0, e, -, h2, rfl⟩ := Pibronic.Props.Analytic.baseFunc_ok hok
  exact ⟨e, _, h2, rfl, by rw [he]; simp [formatF2, ADict.set]⟩

end

end Pibronic.Props.Temperature
