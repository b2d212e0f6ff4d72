import Verif.Model.ExamplesGenerate
import Verif.Props.SetupPaper

set_option autoImplicit false
set_option linter.unusedSectionVars false

/-!
C134: new input models for the artificial systems.
-/
namespace Pibronic.Props.ExamplesGenerate
open Py FileName Pibronic.FileStructure Pibronic.Setup Pibronic.Examples Spec.FileStructure Spec.ModelIO
open Pibronic.ModelIO hiding Disk
open Pibronic.ExamplesGenerate Pibronic.Props.FileStructure Pibronic.Props.ModelGenerated Pibronic.Props.Setup
variable {α : Type} [Field α] [LinearOrder α] [IsStrictOrderedRing α] [AllClose α]

/-! ### Specification -/

/-- The input model of a system, `<directory of the script>/input_json/model_<name>.json`. -/
def inputFile (scriptDir name : Str) : Str :=
  join (join scriptDir c!"input_json") (c!"model_" ++ name ++ c!".json")

/-- A symmetric model with linear couplings only, whose frequencies are evenly spaced from `lo` to `hi`, whose
energies lie between `elo` and `ehi` and whose linear couplings are at most `0.04` over the frequency. -/
structure Regular (v : Verified α .coupled) (A N : Nat) (lo hi elo ehi : α) : Prop where
  surfaces : v.A = A
  modes : v.N = N
  symmetric : SurfaceSymmetric v.model.toDict
  modeSymmetric : ModeSymmetric v.model.toDict
  first : entry v.model.toDict .w [0] = lo
  last : entry v.model.toDict .w [N - 1] = hi
  spacing : ∀ i, i + 1 < N → entry v.model.toDict .w [i + 1] - entry v.model.toDict .w [i] = (hi - lo) / ((N : α) - 1)
  energies : ∀ a b, a < A → b < A → elo ≤ entry v.model.toDict .E [a, b] ∧ entry v.model.toDict .E [a, b] < ehi
  linear : ∀ i a b, i < N → a < A → b < A →
    |entry v.model.toDict .G1 [i, a, b]| ≤ 4 / 100 / entry v.model.toDict .w [i]
  higher : ∀ k idx, k = .G2 ∨ k = .G3 ∨ k = .G4 → entry v.model.toDict k idx = 0

/-- Random numbers between 0 and 1. -/
def Unit01 (u : Draws α) : Prop :=
  (∀ a b, 0 ≤ u.energy a b ∧ u.energy a b < 1) ∧ ∀ i a b, 0 ≤ u.linear i a b ∧ u.linear i a b < 1

/-! ### Theorems -/

theorem uniform_range {lo hi u : α} (h : lo < hi) (h0 : 0 ≤ u) (h1 : u < 1) :
    lo ≤ uniform lo hi u ∧ uniform lo hi u < hi := by
  unfold uniform
  have hp : 0 < hi - lo := sub_pos.2 h
  constructor
  · have := mul_nonneg hp.le h0
    linarith
  · have := mul_lt_mul_of_pos_left h1 hp
    linarith

theorem uniform_abs {d u : α} (h : 0 < d) (h0 : 0 ≤ u) (h1 : u < 1) : |uniform (-d) d u| ≤ d := by
  obtain ⟨h2, h3⟩ := uniform_range (lo := -d) (hi := d) (by linarith) h0 h1
  exact abs_le.2 ⟨h2, h3.le⟩

theorem linspace_pos {lo hi : α} {N : Nat} (h0 : 0 < lo) (h : lo < hi) (hN : 2 ≤ N) (i : Fin N) :
    0 < linspace lo hi N i := by
  unfold linspace
  rw [if_neg (by omega)]
  have hN' : (0 : α) < (N : α) - 1 := by
    have : (2 : α) ≤ (N : α) := by exact_mod_cast hN
    linarith
  have := mul_nonneg (Nat.cast_nonneg (α := α) i.1) (div_nonneg (sub_pos.2 h).le hN'.le)
  linarith

theorem generate_row (scriptDir name : Str) {p : GenParams α} (hp : parameters.lookup name = some p)
    (hs : p.linearScaling = 4 / 100) (hlo : 0 < p.frequencyLow) (hw : p.frequencyLow < p.frequencyHigh)
    (he : p.energyLow < p.energyHigh) (hN : 2 ≤ p.modes) {u : Draws α} (hu : Unit01 u) (disk : ModelIO.Disk α) :
    (generateInput scriptDir name u disk).1 = .ok () ∧
    (∀ q, q ≠ inputFile scriptDir name → (generateInput scriptDir name u disk).2 q = disk q) ∧
    ∃ f v, (generateInput scriptDir name u disk).2 (inputFile scriptDir name) = some f ∧ Reads f v ∧
      Regular v p.states p.modes p.frequencyLow p.frequencyHigh p.energyLow p.energyHigh := by
  obtain ⟨d, hd, hwf, hA, hN', hss, hms⟩ := C10_coupled_valid p.states p.modes p.frequencyLow p.frequencyHigh
    (fun a b => uniform p.energyLow p.energyHigh (u.energy a.1 b.1))
    (fun i a b => uniform (-displacement p i) (displacement p i) (u.linear i.1 a.1 b.1))
  obtain ⟨hE, hG, hW, -, hz⟩ := C10_coupled_values _ _ _ _ _ _ d hd
  have hrun : generateInput scriptDir name u disk = save .coupled (inputFile scriptDir name) d disk := by
    unfold generateInput
    simp only [hp, hd]
    rfl
  rw [hrun]
  have hok := (ModelFiles.C03_accepted_iff_wellFormed .coupled (inputFile scriptDir name) d disk).2 hwf
  obtain ⟨A, N, m, rfl, hf⟩ := ModelFiles.saved_file _ _ _ _ hok
  cases hA
  cases hN'
  obtain ⟨m', hr, hg⟩ := reads_saved m
  have hsame := (sameModel_of_get hg).2.2
  have hne : p.modes ≠ 1 := by omega
  have hN1 : (0 : α) < (p.modes : α) - 1 := by
    have : (2 : α) ≤ (p.modes : α) := by exact_mod_cast hN
    linarith
  refine ⟨hok, fun q hq => ?_, _, _, hf, hr, ⟨rfl, rfl, ?_, ?_, ?_, ?_, ?_, ?_, ?_, ?_⟩⟩
  · unfold save
    rw [verify_toDict]
    simp [ModelIO.Disk.write, hq]
  · intro k idx a b hk hl
    rw [hsame, hsame]
    exact hss k idx a b hk hl
  · exact ⟨fun i j a b => by rw [hsame, hsame]; exact hms.1 i j a b,
      fun i j k l a b => by rw [hsame, hsame]; exact hms.2 i j k l a b⟩
  · rw [hsame, hW ⟨0, by omega⟩ hne]
    simp
  · rw [hsame, hW ⟨p.modes - 1, by omega⟩ hne]
    have : ((p.modes - 1 : ℕ) : α) = (p.modes : α) - 1 := by
      rw [Nat.cast_sub (by omega)]; simp
    rw [this]
    field_simp
    ring
  · intro i hi
    rw [hsame, hsame, hW ⟨i + 1, hi⟩ hne, hW ⟨i, by omega⟩ hne]
    push_cast
    ring
  · intro a b ha hb
    rw [hsame, hE ⟨a, ha⟩ ⟨b, hb⟩]
    exact uniform_range he (hu.1 _ _).1 (hu.1 _ _).2
  · intro i a b hi ha hb
    rw [hsame, hsame, hG ⟨i, hi⟩ ⟨a, ha⟩ ⟨b, hb⟩, hW ⟨i, hi⟩ hne]
    have hpos := linspace_pos hlo hw hN ⟨i, hi⟩
    have hd : displacement p ⟨i, hi⟩ =
        4 / 100 / (p.frequencyLow + (i : α) * ((p.frequencyHigh - p.frequencyLow) / ((p.modes : α) - 1))) := by
      unfold displacement linspace
      rw [hs, if_neg hne]
    rw [← hd]
    refine uniform_abs ?_ (hu.2 _ _ _).1 (hu.2 _ _ _).2
    unfold displacement
    rw [hs]
    positivity
  · intro k idx hk
    rw [hsame]
    exact hz k idx hk

/-- C134: `generate_input_file` writes a regular model of the size of the system for every outcome of the random
draws, and touches no other file. -/
theorem C134_written (scriptDir : Str) {u : Draws α} (hu : Unit01 u) (disk : ModelIO.Disk α) :
    (∀ name, name = c!"4x6" ∨ name = c!"7x12" → (generateInput scriptDir name u disk).1 = .ok () ∧
      ∀ q, q ≠ inputFile scriptDir name → (generateInput scriptDir name u disk).2 q = disk q) ∧
    (∃ f v, (generateInput scriptDir c!"4x6" u disk).2 (inputFile scriptDir c!"4x6") = some f ∧ Reads f v ∧
      Regular v 4 6 (14 / 100) (45 / 100) (103 / 10) (109 / 10)) ∧
    ∃ f v, (generateInput scriptDir c!"7x12" u disk).2 (inputFile scriptDir c!"7x12") = some f ∧ Reads f v ∧
      Regular v 7 12 (10 / 100) (39 / 100) 14 (148 / 10) := by
  obtain ⟨a1, a2, a3⟩ := generate_row scriptDir c!"4x6" (p := ⟨14 / 100, 45 / 100, 103 / 10, 109 / 10, 4 / 100, 4, 6⟩) rfl
    rfl (by norm_num) (by norm_num) (by norm_num) (by norm_num) hu disk
  obtain ⟨b1, b2, b3⟩ := generate_row scriptDir c!"7x12"
    (p := ⟨10 / 100, 39 / 100, 140 / 10, 148 / 10, 4 / 100, 7, 12⟩) rfl
    rfl (by norm_num) (by norm_num) (by norm_num) (by norm_num) hu disk
  refine ⟨?_, a3, ?_⟩
  · rintro name (rfl | rfl)
    · exact ⟨a1, a2⟩
    · exact ⟨b1, b2⟩
  · have : (140 / 10 : α) = 14 := by norm_num
    simp only [this] at b3
    exact b3

/-- C134: the hand-made system and unknown systems are refused, no file is touched. -/
theorem C134_refused (scriptDir name : Str) (h : name ≠ c!"4x6" ∧ name ≠ c!"7x12") (u : Draws α) (disk : ModelIO.Disk α) :
    generateInput scriptDir name u disk = (.error .key, disk) := by
  unfold generateInput
  have : (parameters (α := α)).lookup name = none := by
    simp [parameters, List.lookup, beq_eq_false_iff_ne.2 h.1, beq_eq_false_iff_ne.2 h.2]
  simp only [this]

theorem inputFile_ne (scriptDir : Str) : inputFile scriptDir c!"4x6" ≠ inputFile scriptDir c!"7x12" := by
  intro h
  unfold inputFile at h
  generalize join scriptDir c!"input_json" = a at h
  have hj : ∀ x, join a ('m' :: x) = if a = [] ∨ a.getLast? = some '/' then a ++ 'm' :: x else a ++ '/' :: 'm' :: x :=
    fun x => rfl
  have h : join a ('m' :: c!"odel_4x6.json") = join a ('m' :: c!"odel_7x12.json") := h
  rw [hj, hj] at h
  split at h <;> simp at h

/-- C134: the program leaves a regular model of either size, whatever was there before, and does not touch the
hand-made model. -/
theorem C134_program (scriptDir : Str) {u : Str → Draws α} (hu : ∀ name, Unit01 (u name)) (disk : ModelIO.Disk α) :
    (generateAll scriptDir u [c!"4x6", c!"7x12"] disk).1 = .ok () ∧
    (∀ q, q ≠ inputFile scriptDir c!"4x6" → q ≠ inputFile scriptDir c!"7x12" →
      (generateAll scriptDir u [c!"4x6", c!"7x12"] disk).2 q = disk q) ∧
    (∃ f v, (generateAll scriptDir u [c!"4x6", c!"7x12"] disk).2 (inputFile scriptDir c!"4x6") = some f ∧ Reads f v ∧
      Regular v 4 6 (14 / 100) (45 / 100) (103 / 10) (109 / 10)) ∧
    ∃ f v, (generateAll scriptDir u [c!"4x6", c!"7x12"] disk).2 (inputFile scriptDir c!"7x12") = some f ∧ Reads f v ∧
      Regular v 7 12 (10 / 100) (39 / 100) 14 (148 / 10) := by
  obtain ⟨a, a3, -⟩ := C134_written scriptDir (hu c!"4x6") disk
  obtain ⟨a1, a2⟩ := a _ (.inl rfl)
  obtain ⟨b, -, b3⟩ := C134_written scriptDir (hu c!"7x12") (generateInput scriptDir c!"4x6" (u c!"4x6") disk).2
  obtain ⟨b1, b2⟩ := b _ (.inr rfl)
  have hrun : generateAll scriptDir u [c!"4x6", c!"7x12"] disk = generateInput scriptDir c!"7x12" (u c!"7x12")
      (generateInput scriptDir c!"4x6" (u c!"4x6") disk).2 := by
    rw [generateAll]
    rcases hg : generateInput scriptDir c!"4x6" (u c!"4x6") disk with ⟨r, k⟩
    rw [hg] at a1
    cases a1
    simp only
    rw [generateAll]
    rw [hg] at b1
    rcases hg2 : generateInput scriptDir c!"7x12" (u c!"7x12") k with ⟨r, k2⟩
    rw [hg2] at b1
    cases b1
    rfl
  rw [hrun]
  refine ⟨b1, fun q h1 h2 => by rw [b2 q h2, a2 q h1], ?_, b3⟩
  rw [b2 _ (inputFile_ne scriptDir)]
  exact a3

/-- C134: every data set of a larger system can be prepared from a newly generated input: its original coupled model is
the new input, and its coupled model is the new input in the basis of the matrix used. -/
theorem C134_prepared (e : Env α) {root absRoot : Str} (hr : RootOk root absRoot) {name : Str} {d : Nat}
    (hn : name = c!"4x6" ∧ 21 ≤ d ∧ d ≤ 25 ∨ name = c!"7x12" ∧ 31 ≤ d ∧ d ≤ 35) (hd : e.isDir root = true)
    (hdef : RootOk artificial.serverRoot (e.absolute artificial.serverRoot)) (w : World α) {u : Draws α}
    (hu : Unit01 u) (old : ModelIO.Disk α) (hi : e.inputs = (generateInput e.scriptDir name u old).2)
    (hM : ∀ A, A = 4 ∨ A = 7 → ∃ M : Matrix (Fin A) (Fin A) α,
      Uses e d (w.mats (param absRoot d c!"orthogonal_matrix.npy")) A M) :
    let w' := (prepareModel e (some (root, absRoot)) name d w).2
    ∃ f v M v₁, e.inputs (inputFile e.scriptDir name) = some f ∧ Reads f v ∧
      w'.mats (param absRoot d c!"orthogonal_matrix.npy") = some ⟨[v.A, v.A], fun a b => M a b⟩ ∧
      w'.files (param absRoot d c!"original_coupled_model.json") = some f ∧
      load .coupled (param absRoot d c!"coupled_model.json") w'.files = .ok v₁ ∧ v₁.A = v.A ∧ v₁.N = v.N ∧
      (∀ idx, entry v₁.model.toDict .w idx = entry v.model.toDict .w idx) ∧
      ∀ k idx, k ≠ .w → idx.length = order k → surfaceMatrix v₁.model.toDict v.A k idx
        = (M : Matrix (Fin v.A) (Fin v.A) α) * surfaceMatrix v.model.toDict v.A k idx * M.transpose := by
  have hv : artificial.assertId d = .ok () := by
    rcases hn with ⟨-, h1, h2⟩ | ⟨-, h1, h2⟩ <;> interval_cases d <;> rfl
  obtain ⟨-, ⟨f1, v1, g1, r1, R1⟩, ⟨f2, v2, g2, r2, R2⟩⟩ := C134_written e.scriptDir hu old
  have key : ∃ f v, e.inputs (inputFile e.scriptDir name) = some f ∧ Reads f v ∧ (v.A = 4 ∨ v.A = 7) ∧
      SurfaceSymmetric v.model.toDict ∧ ModeSymmetric v.model.toDict := by
    rcases hn with ⟨rfl, -⟩ | ⟨rfl, -⟩
    · exact ⟨f1, v1, by rw [hi, g1], r1, .inl R1.surfaces, R1.symmetric, R1.modeSymmetric⟩
    · exact ⟨f2, v2, by rw [hi, g2], r2, .inr R2.surfaces, R2.symmetric, R2.modeSymmetric⟩
  obtain ⟨f, v, hf, hv', hA, hs, hm⟩ := key
  obtain ⟨M, hM⟩ := hM v.A hA
  obtain ⟨h1, -, h3, v₁, h4, h5, h6, h7, h8, -⟩ := C125_models e hr name d hv hd hdef w hf hv' hs.near hm.near hM
  exact ⟨f, v, M, v₁, hf, hv', h1, h3, h4, h5, h6, h7, h8⟩

/-- Random numbers that are all one half. -/
def half : Draws ℚ := ⟨fun _ _ => 1 / 2, fun _ _ _ => 1 / 2⟩

theorem half_unit : Unit01 half := by constructor <;> intros <;> simp only [half] <;> norm_num

/-- A machine with the newly generated input of the system with 4 surfaces. -/
noncomputable def machine : Env ℚ where
  host := c!"nlogn"
  absolute := fun r => r.dropLast
  isDir := fun _ => true
  scriptDir := c!"/code"
  inputs := (generateInput c!"/code" c!"4x6" half fun _ => none).2
  listing := []
  orthonormal := fun _ A => .ok ⟨[A, A], fun a b => if a = b then 1 else 0⟩
  iterate := fun _ => .ok none
  minEig := fun _ _ => 0

/-- The data set 23 is prepared on it. -/
example : ∃ f, machine.inputs (inputFile c!"/code" c!"4x6") = some f ∧
    (prepareModel machine (some (c!"/tmp/run/", c!"/tmp/run")) c!"4x6" 23 ⟨fun _ => none, fun _ => none⟩).2.files
      (param c!"/tmp/run" 23 c!"original_coupled_model.json") = some f := by
  obtain ⟨f, v, M, v₁, h1, -, -, h2, -⟩ := C134_prepared machine (root := c!"/tmp/run/") (absRoot := c!"/tmp/run")
    (by unfold RootOk; decide) (name := c!"4x6") (d := 23) (.inl ⟨rfl, by decide, by decide⟩) rfl
    (show RootOk artificial.serverRoot artificial.serverRoot.dropLast by unfold RootOk; decide)
    ⟨fun _ => none, fun _ => none⟩ half_unit _ rfl
    (fun A _ => ⟨fun a b => if a = b then 1 else 0, .inr ⟨rfl, _, rfl, rfl⟩⟩)
  exact ⟨f, h1, h2⟩

end Pibronic.Props.ExamplesGenerate
