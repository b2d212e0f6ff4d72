import Verif.Lemmas.Results
import Verif.Lemmas.Postprocessing
import Verif.Props.Postprocessing

set_option autoImplicit false
set_option linter.unusedSectionVars false

/-!
Theorems about the block loops (C39) and about saving and loading result files
(C40, C41, C42, C62).
-/
namespace Pibronic.Props.Results
open Pibronic.Py Pibronic.FileName Pibronic.FileStructure Pibronic.Results Pibronic.Spec.Results

variable {V : Type}

/-! ### C39: blocks -/

/-- A result object as the submission scripts prepare it: built from the execution parameters, with
a directory to save to. -/
def prepared (cls : Cls) (P T X : Nat) (hv hr root : Str) : Box V :=
  { (init cls (some ⟨P, T, X, some hv, some hr⟩) none : Box V) with pathRoot := some root }

/-- Where job 0 of `P` beads and temperature `T` saves. -/
def savedPath (root : Str) (P T : Nat) : Str :=
  join root (pimc (natStr P) (tempStr T) (natStr 0))

/-- The values an output has at sample `0, 1, ...` when `n` samples were computed in blocks of `B`
and the array has room for `X`: sample `s` is position `s % B` of block `s / B`. -/
def computedThenNaN (val : Nat → Nat → V) (B n X : Nat) : Arr V :=
  (List.range n).map (fun s => some (val (s / B) (s % B))) ++ List.replicate (X - n) none

theorem filled_prepared (vals : BlockValues V) (cls : Cls) (P T X B : Nat) (hv hr root : Str) :
    Filled vals X B 0 (prepared cls P T X hv hr root) := by
  refine ⟨?_, ?_, fun hc => ?_, fun hc => ?_⟩ <;> rw [filled_zero]
  · simp [prepared, init, initializeArrays, Count.val]
  · simp [prepared, init, initializeArrays, Count.val]
  · have : cls = .pm := hc
    simp [prepared, init, initializeArrays, Count.val, this]
  · have : cls = .pm := hc
    simp [prepared, init, initializeArrays, Count.val, this]

/-- Blocks that fit are all computed, each sample of them exactly once and at its own place, and
saved; the samples beyond the last block stay NaN. -/
theorem blocks_saved (vals : BlockValues V) (d : Disk V) (cls : Cls) (P T X B blocks : Nat)
    (hv hr root : Str) (hX : 0 < X) (hb : 0 < blocks) (hfit : blocks * B ≤ X) :
    ∃ b, blockCompute vals X B blocks d (prepared cls P T X hv hr root) =
      .ok (b, d.write (savedPath root P T)
        ⟨some hv, some hr, some X,
          some (computedThenNaN vals.rho B (blocks * B) X),
          some (computedThenNaN vals.g B (blocks * B) X),
          if cls = .pm then some (computedThenNaN vals.gP B (blocks * B) X) else none,
          if cls = .pm then some (computedThenNaN vals.gM B (blocks * B) X) else none⟩) := by
  obtain ⟨b, e, m, f⟩ := blockLoop_ok vals X B blocks 0 (prepared cls P T X hv hr root)
    (by simpa using hfit) (filled_prepared vals cls P T X B hv hr root)
  rw [Nat.zero_add] at f
  refine ⟨b, ?_⟩
  have h1 : b.samples = .int X := m.samples
  have h2 : b.partialName = some (P, T) := m.partialName
  have h3 : b.idJob = none := m.idJob
  have h4 : b.pathRoot = some root := m.pathRoot
  have h5 : b.hashVib = some hv := m.hashVib
  have h6 : b.hashRho = some hr := m.hashRho
  have h7 : b.cls = cls := m.cls
  have hz : Count.isZeroLit (.int X) = false := by
    cases X with
    | zero => omega
    | succ n => rfl
  have hb' : blocks ≠ 0 := by omega
  cases cls with
  | plain =>
    simp [blockCompute, bind, Except.bind, e, hb', saveResults, computePathToFile, h1, hz, h2, h3,
      h4, h5, h6, h7, savedPath, f.rho, f.g, filled, computedThenNaN, Count.val]
  | pm =>
    simp [blockCompute, bind, Except.bind, e, hb', saveResults, computePathToFile, h1, hz, h2, h3,
      h4, h5, h6, h7, savedPath, f.rho, f.g, f.gP h7, f.gM h7, filled, computedThenNaN, Count.val]

/-- C39 (the case the scripts aim at): when the blocks make up the requested samples, the saved file
holds every sample exactly once: sample `s` is position `s % B` of block `s / B`, nothing is
missing and nothing else is stored. -/
theorem C39_blocks_cover_partial (vals : BlockValues V) (d : Disk V) (cls : Cls)
    (P T X B blocks : Nat) (hv hr root : Str) (hX : 0 < X) (hcover : blocks * B = X) :
    ∃ b d' f, blockCompute vals X B blocks d (prepared cls P T X hv hr root) = .ok (b, d') ∧
      d' (savedPath root P T) = some f ∧ (∀ p, p ≠ savedPath root P T → d' p = d p) ∧
      f.number = some X ∧
      f.rho = some ((List.range X).map fun s => some (vals.rho (s / B) (s % B))) ∧
      f.g = some ((List.range X).map fun s => some (vals.g (s / B) (s % B))) ∧
      (cls = .pm →
        f.gP = some ((List.range X).map fun s => some (vals.gP (s / B) (s % B))) ∧
        f.gM = some ((List.range X).map fun s => some (vals.gM (s / B) (s % B)))) := by
  have hb : 0 < blocks := by
    rcases Nat.eq_zero_or_pos blocks with h | h
    · subst h; simp at hcover; omega
    · exact h
  obtain ⟨b, e⟩ := blocks_saved vals d cls P T X B blocks hv hr root hX hb (by omega)
  rw [hcover] at e
  refine ⟨b, _, _, e, by simp [Disk.write]; rfl, fun p hp => by simp [Disk.write, hp], ?_⟩
  simp +contextual [computedThenNaN]

/-- C39: a block that reaches beyond the arrays is refused, nothing is saved. -/
theorem C39_beyond_refused (vals : BlockValues V) (d : Disk V) (cls : Cls) (P T X B blocks : Nat)
    (hv hr root : Str) (h : X < blocks * B) :
    blockCompute vals X B blocks d (prepared cls P T X hv hr root) = .error .broadcast := by
  have := blockLoop_overflow vals X B blocks 0 (prepared cls P T X hv hr root) (by simp)
    (by simpa using h) (filled_prepared vals cls P T X B hv hr root)
  simp [blockCompute, bind, Except.bind, this]

/-- C39 is false in general: with `samples // block_size` blocks and a block size that does not
divide the number of samples, the file states `X` samples but its last `X % B` entries are NaN. -/
theorem C39_remainder_refuted (vals : BlockValues V) (d : Disk V) (cls : Cls) (P T X B : Nat)
    (hv hr root : Str) (hB : 0 < B) (hBX : B ≤ X) (hdiv : ¬ B ∣ X) :
    ∃ b d' f a, blockCompute vals X B (X / B) d (prepared cls P T X hv hr root) = .ok (b, d') ∧
      d' (savedPath root P T) = some f ∧ f.number = some X ∧ f.rho = some a ∧ a.length = X ∧
      0 < X % B ∧ ∀ s, X - X % B ≤ s → s < X → a[s]? = some none := by
  have hb : 0 < X / B := Nat.div_pos hBX hB
  have hle : X / B * B ≤ X := Nat.div_mul_le_self X B
  obtain ⟨b, e⟩ := blocks_saved vals d cls P T X B (X / B) hv hr root (by omega) hb hle
  have hpos : 0 < X % B := Nat.pos_of_ne_zero fun h => hdiv (Nat.dvd_of_mod_eq_zero h)
  have hdm : X / B * B + X % B = X := by rw [Nat.mul_comm]; exact Nat.div_add_mod X B
  refine ⟨b, _, _, computedThenNaN vals.rho B (X / B * B) X, e, by simp [Disk.write]; rfl, rfl, rfl,
    by simp [computedThenNaN]; omega, hpos, fun s h1 h2 => ?_⟩
  rw [computedThenNaN, List.getElem?_append_right (by simp; omega)]
  rw [List.getElem?_replicate, if_pos (by simp; omega)]

/-- The instance: 10 samples in blocks of 4 leave two of the ten stored samples undefined. -/
example (vals : BlockValues Int) (d : Disk Int) :
    ∃ b d' f a, blockCompute vals 10 4 2 d (prepared .pm 12 30000 10 c!"v" c!"r" c!"out/")
        = .ok (b, d') ∧ d' (savedPath c!"out/" 12 30000) = some f ∧ f.number = some 10 ∧
      f.rho = some a ∧ a.length = 10 ∧ a[8]? = some none ∧ a[9]? = some none := by
  obtain ⟨b, d', f, a, h1, h2, h3, h4, h5, _, h6⟩ :=
    C39_remainder_refuted vals d .pm 12 30000 10 4 c!"v" c!"r" c!"out/" (by decide) (by decide)
      (by decide)
  exact ⟨b, d', f, a, h1, h2, h3, h4, h5, h6 8 (by decide) (by decide),
    h6 9 (by decide) (by decide)⟩

/-- Without any block nothing is saved: the call raises. -/
theorem C39_no_block_raises (vals : BlockValues V) (d : Disk V) (b : Box V) (X B : Nat) :
    blockCompute vals X B 0 d b = .error .unbound := by
  simp [blockCompute, blockLoop, bind, Except.bind]

/-- Every file written by a block computation is well formed: as many entries as it states. -/
theorem C39_saved_file_wellFormed (vals : BlockValues V) (d d' : Disk V) (cls : Cls)
    (P T X B blocks : Nat) (hv hr root : Str) (b : Box V)
    (h : blockCompute vals X B blocks d (prepared cls P T X hv hr root) = .ok (b, d')) :
    ∃ f, d' (savedPath root P T) = some f ∧ Usable cls f ∧ WellFormed f := by
  rcases Nat.eq_zero_or_pos blocks with h0 | hb
  · subst h0; rw [C39_no_block_raises] at h; cases h
  rcases Nat.lt_or_ge X (blocks * B) with hlt | hge
  · rw [C39_beyond_refused _ _ _ _ _ _ _ _ _ _ _ hlt] at h; cases h
  rcases Nat.eq_zero_or_pos X with h0 | hX
  · -- with no samples the save is refused
    subst h0
    obtain ⟨b', e, m, _⟩ := blockLoop_ok vals 0 B blocks 0 (prepared cls P T 0 hv hr root)
      (by simpa using hge) (filled_prepared vals cls P T 0 B hv hr root)
    have h1 : b'.samples = .int 0 := m.samples
    have hb' : blocks ≠ 0 := by omega
    simp [blockCompute, bind, Except.bind, e, hb', saveResults, computePathToFile, h1,
      Count.isZeroLit] at h
  obtain ⟨b', e⟩ := blocks_saved vals d cls P T X B blocks hv hr root hX hb hge
  rw [h] at e
  simp only [Except.ok.injEq, Prod.mk.injEq] at e
  obtain ⟨_, rfl⟩ := e
  have hlen : ∀ val : Nat → Nat → V, (computedThenNaN val B (blocks * B) X).length = X := by
    intro val; simp [computedThenNaN]; omega
  refine ⟨_, by simp [Disk.write]; rfl, ?_, ?_⟩
  · refine ⟨⟨X, rfl⟩, ⟨_, rfl⟩, ⟨_, rfl⟩, fun hc => ?_⟩
    simp [hc]
  · intro n hn
    simp only [Option.some.injEq] at hn
    subst hn
    refine ⟨?_, ?_, ?_, ?_⟩ <;> intro a ha
    · simp only [Option.some.injEq] at ha; rw [← ha, hlen]
    · simp only [Option.some.injEq] at ha; rw [← ha, hlen]
    · cases cls
      · simp at ha
      · simp at ha; rw [← ha, hlen]
    · cases cls
      · simp at ha
      · simp at ha; rw [← ha, hlen]

/-! ### C40, C41: loading several files -/

section
variable [Zero V] [DecidableEq V]

/-- What is asked of the files: they exist, and the usable ones are well formed (as all saved ones
are, `C39_saved_file_wellFormed`). -/
def FilesOk (d : Disk V) (cls : Cls) (paths : List Str) : Prop :=
  ∀ p ∈ paths, ∃ f, d p = some f ∧ (Usable cls f → WellFormed f)

/-- No usable file has a zero denominator. -/
def NoZeros (d : Disk V) (cls : Cls) (paths : List Str) : Prop :=
  ∀ p ∈ paths, ∀ f, d p = some f → Usable cls f → ∀ a, f.rho = some a → some 0 ∉ a

theorem usable_of_any {d : Disk V} {cls : Cls} {p : Str} :
    (d p).any (keysPresent cls) = true ↔ ∃ f, d p = some f ∧ Usable cls f := by
  cases h : d p with
  | none => simp
  | some f => simp [keysPresent_iff]

/-- The first pass finds the usable files; the loop then reads them in the order of the set. -/
theorem load_reduce (setOrder : List Str → List Str) (hperm : ∀ l, (setOrder l).Perm l)
    (d : Disk V) (b : Box V) (paths : List Str) (desired : Option Nat)
    (hf : ∀ p ∈ paths, ∃ f, d p = some f) (hu : ∃ p ∈ paths, ∃ f, d p = some f ∧ Usable b.cls f) :
    ∃ order, ListsUsable d b.cls paths order ∧
      ∀ n, n = ((paths.filter fun p => (d p).any (keysPresent b.cls)).map (numberAt d)).sum →
      loadMultiple setOrder d b paths desired =
        copyLoop d (desired.getD n) order 0 (initializeArrays { b with
          samples := match desired with
            | none => .np n
            | some k => if k ≤ n then .int k else .np n }) := by
  obtain ⟨bad, e, hbad⟩ := scan_ok d b.cls paths hf
  set l := paths.dedup.filter fun p => p ∉ bad with hl
  have hmem : ∀ p, p ∈ setOrder l ↔ p ∈ paths ∧ ∃ f, d p = some f ∧ Usable b.cls f := by
    intro p
    rw [(hperm l).mem_iff, hl, List.mem_filter, List.mem_dedup, decide_eq_true_iff, hbad p]
    constructor
    · rintro ⟨h1, h2⟩
      obtain ⟨f, h3⟩ := hf p h1
      refine ⟨h1, f, h3, ?_⟩
      by_contra h4; exact h2 ⟨h1, f, h3, h4⟩
    · rintro ⟨h1, f, h2, h3⟩
      refine ⟨h1, ?_⟩
      rintro ⟨_, f', h4, h5⟩
      rw [h2] at h4; cases h4; exact h5 h3
  refine ⟨setOrder l, ⟨(hperm l).nodup_iff.2 ((List.nodup_dedup paths).filter _), hmem⟩, ?_⟩
  rintro n rfl
  obtain ⟨p, hp, f, h1, h2⟩ := hu
  have hne : (setOrder l).length ≠ 0 := by
    have := List.length_pos_of_mem ((hmem p).2 ⟨hp, f, h1, h2⟩)
    omega
  have hne' : paths ≠ [] := by rintro rfl; simp at hp
  have hne2 : setOrder l ≠ [] := by rintro h; simp [h] at hne
  simp only [loadMultiple, bind, Except.bind, e, ← hl]
  rw [if_neg (by simpa using hne'), if_neg (by simpa using hne2)]
  cases desired <;> rfl

theorem padded_init (b : Box V) (c : Count) :
    Padded (initializeArrays { b with samples := c }) c.val 0 [] [] [] [] := by
  refine ⟨rfl, rfl, fun _ => rfl, fun _ => rfl, rfl, rfl, fun hc => ?_, fun hc => ?_⟩ <;>
  · have : b.cls = .pm := hc
    simp [initializeArrays, this]

theorem total_usable {d : Disk V} {cls : Cls} {paths order : List Str} (hnd : paths.Nodup)
    (hl : ListsUsable d cls paths order) :
    ((paths.filter fun p => (d p).any (keysPresent cls)).map (numberAt d)).sum = total d order := by
  rw [total]
  apply List.Perm.sum_eq
  apply List.Perm.map
  rw [List.perm_ext_iff_of_nodup (hnd.filter _) hl.1]
  intro p
  rw [List.mem_filter, hl.2 p, usable_of_any]

theorem sized_all {d : Disk V} {cls : Cls} {paths order : List Str} (hf : FilesOk d cls paths)
    (hl : ListsUsable d cls paths order) : ∀ p ∈ order, Sized d cls p := by
  intro p hp
  obtain ⟨h1, f, h2, h3⟩ := (hl.2 p).1 hp
  obtain ⟨f', h4, h5⟩ := hf p h1
  rw [h2] at h4; cases h4
  exact sized_of h2 h3 (h5 h3)

theorem nozero_all {d : Disk V} {cls : Cls} {paths order : List Str} (hz : NoZeros d cls paths)
    (hl : ListsUsable d cls paths order) : ∀ p ∈ order, some 0 ∉ rhoAt d p := by
  intro p hp
  obtain ⟨h1, f, h2, h3⟩ := (hl.2 p).1 hp
  obtain ⟨a, ha⟩ := h3.2.1
  have := hz p h1 f h2 h3 a ha
  simpa [rhoAt, h2, ha]

/-- The box holds the first `k` samples of the files in the given order, in all its arrays. -/
def Holds (b : Box V) (d : Disk V) (order : List Str) (k : Nat) : Prop :=
  b.scaledRho = (order.flatMap (rhoAt d)).take k ∧ b.scaledG = (order.flatMap (gAt d)).take k ∧
    (b.cls = .pm → b.gofrPlus = (order.flatMap (gPAt d)).take k ∧
      b.gofrMinus = (order.flatMap (gMAt d)).take k)

theorem length_flatMap_of (d : Disk V) (at' : Str → Arr V) (order : List Str)
    (h : ∀ p ∈ order, (at' p).length = numberAt d p) :
    (order.flatMap at').length = total d order := by
  induction order with
  | nil => rfl
  | cons p l ih =>
    simp only [List.flatMap_cons, List.length_append, total_cons]
    rw [h p List.mem_cons_self, ih fun q hq => h q (List.mem_cons_of_mem _ hq)]

/-- Without a limit the whole concatenation is loaded. -/
theorem load_all (setOrder : List Str → List Str) (hperm : ∀ l, (setOrder l).Perm l)
    (d : Disk V) (b : Box V) (paths : List Str) (hnd : paths.Nodup) (hf : FilesOk d b.cls paths)
    (hu : ∃ p ∈ paths, ∃ f, d p = some f ∧ Usable b.cls f) (hz : NoZeros d b.cls paths) :
    ∃ order, ListsUsable d b.cls paths order ∧ ∃ b', loadMultiple setOrder d b paths none = .ok b' ∧
      SameMeta { b with samples := .np (total d order) } b' ∧ Holds b' d order (total d order) := by
  obtain ⟨order, hl, hred⟩ := load_reduce setOrder hperm d b paths none
    (fun p hp => let ⟨f, h, _⟩ := hf p hp; ⟨f, h⟩) hu
  refine ⟨order, hl, ?_⟩
  rw [hred (total d order) (total_usable hnd hl).symm]
  obtain ⟨b', e, m, x⟩ := copy_ok d (total d order) (total d order) order 0
    (initializeArrays { b with samples := .np (total d order) }) [] [] [] []
    (sized_all hf hl) (nozero_all hz hl) (Nat.zero_le _) (by simp)
    (by rintro ⟨before, p, after, rfl, h1, h2, h3⟩; simp at h3)
    (padded_init b (.np (total d order)))
  refine ⟨b', e, ⟨m.cls, m.samples, m.partialName, m.idJob, m.pathRoot, m.hashVib, m.hashRho⟩, ?_⟩
  exact ⟨by simpa using x.rho, by simpa using x.g,
    fun hc => ⟨by simpa using x.gP hc, by simpa using x.gM hc⟩⟩

/-- C40: loading distinct files gives the samples of all usable files, each exactly once, in some
order of the files which is the same for all arrays; the sample count is the total; unusable files
are ignored. -/
theorem C40_concatenates (setOrder : List Str → List Str) (hperm : ∀ l, (setOrder l).Perm l)
    (d : Disk V) (b : Box V) (paths : List Str) (hnd : paths.Nodup) (hf : FilesOk d b.cls paths)
    (hu : ∃ p ∈ paths, ∃ f, d p = some f ∧ Usable b.cls f) (hz : NoZeros d b.cls paths) :
    ∃ order, ListsUsable d b.cls paths order ∧ ∃ b', loadMultiple setOrder d b paths none = .ok b' ∧
      b'.samples.val = total d order ∧
      b'.scaledRho = order.flatMap (rhoAt d) ∧ b'.scaledG = order.flatMap (gAt d) ∧
      (b.cls = .pm → b'.gofrPlus = order.flatMap (gPAt d) ∧
        b'.gofrMinus = order.flatMap (gMAt d)) := by
  obtain ⟨order, hl, b', e, m, h1, h2, h3⟩ := load_all setOrder hperm d b paths hnd hf hu hz
  have hs := sized_all hf hl
  refine ⟨order, hl, b', e, by rw [m.samples]; rfl, ?_, ?_, fun hc => ?_⟩
  · rw [h1, List.take_of_length_le (le_of_eq (length_flatMap_of d _ _ fun p hp => (hs p hp).rho))]
  · rw [h2, List.take_of_length_le (le_of_eq (length_flatMap_of d _ _ fun p hp => (hs p hp).g))]
  · obtain ⟨h4, h5⟩ := h3 (m.cls.trans hc)
    rw [h4, h5,
      List.take_of_length_le (le_of_eq (length_flatMap_of d _ _ fun p hp => (hs p hp).gP hc)),
      List.take_of_length_le (le_of_eq (length_flatMap_of d _ _ fun p hp => (hs p hp).gM hc))]
    exact ⟨rfl, rfl⟩

/-- C40: a zero denominator in any usable file is refused. -/
theorem C40_zero_refused (setOrder : List Str → List Str) (hperm : ∀ l, (setOrder l).Perm l)
    (d : Disk V) (b : Box V) (paths : List Str) (hnd : paths.Nodup) (hf : FilesOk d b.cls paths)
    (hz : ∃ p ∈ paths, ∃ f, d p = some f ∧ Usable b.cls f ∧ ∃ a, f.rho = some a ∧ some 0 ∈ a) :
    loadMultiple setOrder d b paths none = .error .assertion := by
  obtain ⟨p, hp, f, h1, h2, a, h3, h4⟩ := hz
  obtain ⟨order, hl, hred⟩ := load_reduce setOrder hperm d b paths none
    (fun p hp => let ⟨f, h, _⟩ := hf p hp; ⟨f, h⟩) ⟨p, hp, f, h1, h2⟩
  rw [hred (total d order) (total_usable hnd hl).symm]
  exact copy_zero d _ order 0 _ [] [] [] [] (sized_all hf hl)
    ⟨p, (hl.2 p).2 ⟨hp, f, h1, h2⟩, by simpa [rhoAt, h1, h3]⟩ (by simp)
    (padded_init b (.np (total d order)))

theorem load_single (setOrder : List Str → List Str) (hperm : ∀ l, (setOrder l).Perm l)
    (d : Disk V) (b : Box V) (p : Str) (f : ResultFile V) (n : Nat) (hf : d p = some f)
    (hk : keysPresent b.cls f = true) (hn : f.number = some n) :
    loadMultiple setOrder d b [p] none =
      copyLoop d n [p] 0 (initializeArrays { b with samples := .np n }) := by
  have h1 : setOrder [p] = [p] := List.perm_singleton.mp (hperm [p])
  simp [loadMultiple, scanLoop, hf, hk, hn, bind, Except.bind, h1]

/-- C40: a file whose denominators are neither one nor as many as it declares is refused. -/
theorem C40_wrong_length_refused (setOrder : List Str → List Str)
    (hperm : ∀ l, (setOrder l).Perm l) (d : Disk V) (b : Box V) (p : Str) (f : ResultFile V)
    (n : Nat) (g : Arr V) (hf : d p = some f) (hk : keysPresent b.cls f = true)
    (hn : f.number = some n) (h0 : 0 < n) (hg : f.g = some g) (hl : g.length < n)
    (h1 : g.length ≠ 1) (hz : ∀ a, f.rho = some a → some 0 ∉ a) :
    loadMultiple setOrder d b [p] none = .error .broadcast := by
  rw [load_single setOrder hperm d b p f n hf hk hn]
  have hz' : anyZero ((f.rho.getD []).take n) = false := by
    cases hr : f.rho with
    | none => simp [anyZero]
    | some a =>
      simp only [Option.getD_some, anyZero, List.any_eq_false, beq_iff_eq]
      intro x hx hx0
      exact hz a hr (hx0 ▸ List.mem_of_mem_take hx)
  have hs : assignSlice (initializeArrays { b with samples := .np n }).scaledG 0 n (g.take n) =
      .error .broadcast := by
    have hlen : (initializeArrays { b with samples := .np n }).scaledG.length = n := by
      simp [initializeArrays, Count.val]
    unfold assignSlice
    rw [hlen, List.take_of_length_le (by omega)]
    simp only [Nat.zero_min, Nat.zero_add, Nat.min_self, Nat.sub_zero]
    rw [if_neg (by omega)]
    match g, h1 with
    | [], _ => rfl
    | [_], h => exact absurd rfl h
    | _ :: _ :: _, _ => rfl
  simp only [copyLoop, hf, hn, hg, Option.getD_some, Nat.min_self, hz', Bool.false_eq_true, if_false,
    if_neg (show ¬ (0 ≥ n) by omega), hs, bind, Except.bind]

/-- C40: a file that declares `n` samples and holds a single value per array is not refused: the
value is taken `n` times. -/
theorem C40_single_value_repeated (setOrder : List Str → List Str)
    (hperm : ∀ l, (setOrder l).Perm l) (d : Disk V) (b : Box V) (p : Str) (f : ResultFile V)
    (n : Nat) (x y : V) (hf : d p = some f) (hc : b.cls = .plain) (h0 : 1 < n) (hx : x ≠ 0)
    (hn : f.number = some n) (hr : f.rho = some [some x]) (hg : f.g = some [some y]) :
    ∃ b', loadMultiple setOrder d b [p] none = .ok b' ∧ b'.samples.val = n ∧
      b'.scaledRho = List.replicate n (some x) ∧ b'.scaledG = List.replicate n (some y) := by
  have hk : keysPresent b.cls f = true := by simp [keysPresent, hc, hn, hr, hg]
  rw [load_single setOrder hperm d b p f n hf hk hn]
  have hz : anyZero [some x] = false := by simp [anyZero, hx]
  have hs : ∀ v : V, assignSlice (List.replicate n none) 0 n [some v] =
      .ok (List.replicate n (some v)) := by
    intro v
    unfold assignSlice
    simp only [List.length_replicate, Nat.zero_min, Nat.zero_add, Nat.min_self, Nat.sub_zero,
      List.length_singleton]
    rw [if_neg (by omega)]
    simp
  have ht : ∀ v : V, List.take n [some v] = [some v] := by
    intro v; rw [List.take_of_length_le]; simp; omega
  refine ⟨{ initializeArrays { b with samples := .np n } with
    scaledG := List.replicate n (some y), scaledRho := List.replicate n (some x) }, ?_, rfl, rfl, rfl⟩
  simp only [copyLoop, hf, hn, hr, hg, Option.getD_some, Nat.min_self, ht, hz, Bool.false_eq_true,
    if_false, if_neg (show ¬ (0 ≥ n) by omega), bind, Except.bind, initializeArrays, Count.val, hs, hc]
  rfl

/-- C40: a file that does not exist is an error, not a file without samples. -/
theorem C40_missing_file (setOrder : List Str → List Str) (d : Disk V) (b : Box V) (paths : List Str)
    (desired : Option Nat) (h : ∃ p ∈ paths, d p = none) :
    loadMultiple setOrder d b paths desired = .error .os := by
  have hs : scanLoop d b.cls paths = .error .os := by
    obtain ⟨p, hp, hd⟩ := h
    induction paths with
    | nil => cases hp
    | cons q qs ih =>
      unfold scanLoop
      cases hq : d q with
      | none => rfl
      | some f =>
        rcases List.mem_cons.1 hp with rfl | hp
        · rw [hd] at hq; cases hq
        · simp only [ih hp]; rfl
  obtain ⟨p, hp, -⟩ := h
  have h0 : paths.length ≠ 0 := by
    intro e
    rw [List.length_eq_zero_iff.1 e] at hp; cases hp
  unfold loadMultiple
  rw [if_neg h0, hs]
  rfl

/-- C40: an empty list, or one without a usable file, is refused. -/
theorem C40_nothing_usable_refused (setOrder : List Str → List Str)
    (hperm : ∀ l, (setOrder l).Perm l) (d : Disk V) (b : Box V) (paths : List Str)
    (desired : Option Nat) (hf : ∀ p ∈ paths, ∃ f, d p = some f ∧ ¬ Usable b.cls f) :
    loadMultiple setOrder d b paths desired = .error .assertion := by
  rcases List.eq_nil_or_concat paths with rfl | _
  · simp [loadMultiple]
  obtain ⟨bad, e, hbad⟩ := scan_ok d b.cls paths
    (fun p hp => let ⟨f, h, _⟩ := hf p hp; ⟨f, h⟩)
  have hnil : paths.dedup.filter (fun p => decide (p ∉ bad)) = [] := by
    rw [List.filter_eq_nil_iff]
    intro p hp
    have hp := List.mem_dedup.1 hp
    simp only [decide_eq_true_eq, not_not]
    obtain ⟨f, h1, h2⟩ := hf p hp
    exact (hbad p).2 ⟨hp, f, h1, h2⟩
  have hs : setOrder [] = [] := List.Perm.eq_nil (hperm [])
  by_cases hp : paths = []
  · simp [loadMultiple, hp]
  · simp only [loadMultiple, bind, Except.bind, e, hnil, hs]
    simp [hp]

/-- C41 (exact description of what the code does): with a limit `k`, for the order in which the set
is iterated, either the limit falls strictly inside a file that is not the first one with samples,
and then loading fails with a `ValueError`; or exactly the first `min k total` samples are loaded. -/
theorem C41_limit_partial (setOrder : List Str → List Str) (hperm : ∀ l, (setOrder l).Perm l)
    (d : Disk V) (b : Box V) (paths : List Str) (k : Nat) (hnd : paths.Nodup)
    (hf : FilesOk d b.cls paths) (hu : ∃ p ∈ paths, ∃ f, d p = some f ∧ Usable b.cls f)
    (hz : NoZeros d b.cls paths) :
    ∃ order, ListsUsable d b.cls paths order ∧
      (SplitsLaterFile d order k → loadMultiple setOrder d b paths (some k) = .error .broadcast) ∧
      (¬ SplitsLaterFile d order k → ∃ b', loadMultiple setOrder d b paths (some k) = .ok b' ∧
        b'.samples.val = min k (total d order) ∧ b'.scaledRho.length = min k (total d order) ∧
        Holds b' d order k) := by
  obtain ⟨order, hl, hred⟩ := load_reduce setOrder hperm d b paths (some k)
    (fun p hp => let ⟨f, h, _⟩ := hf p hp; ⟨f, h⟩) hu
  have hred := hred (total d order) (total_usable hnd hl).symm
  simp only [Option.getD_some] at hred
  set c : Count := if k ≤ total d order then .int k else .np (total d order) with hc
  have hcv : c.val = min k (0 + total d order) := by
    rw [hc, Nat.zero_add]; split <;> simp [Count.val] <;> omega
  have hbad : Bad d k 0 order ↔ SplitsLaterFile d order k := by
    simp [Bad, SplitsLaterFile]
  refine ⟨order, hl, fun h => ?_, fun h => ?_⟩
  · rw [hred]
    exact copy_bad d k c.val order 0 _ [] [] [] [] (sized_all hf hl) (nozero_all hz hl)
      (Nat.zero_le _) hcv (hbad.2 h) (padded_init b c)
  · obtain ⟨b', e, m, x⟩ := copy_ok d k c.val order 0
      (initializeArrays { b with samples := c }) [] [] [] [] (sized_all hf hl)
      (nozero_all hz hl) (Nat.zero_le _) hcv (fun hb => h (hbad.1 hb)) (padded_init b c)
    refine ⟨b', by rw [hred, e], ?_, ?_, ?_⟩
    · rw [m.samples]; simpa [initializeArrays] using hcv
    · rw [x.rho, List.nil_append, List.length_take,
        length_flatMap_of d _ _ fun p hp => (sized_all hf hl p hp).rho]
    · exact ⟨by simpa using x.rho, by simpa using x.g,
        fun hc => ⟨by simpa using x.gP hc, by simpa using x.gM hc⟩⟩

/-- C41 (positive case a user can rely on): a limit not smaller than the available samples loads
all of them, whatever the order. -/
theorem C41_large_limit_partial (setOrder : List Str → List Str) (hperm : ∀ l, (setOrder l).Perm l)
    (d : Disk V) (b : Box V) (paths : List Str) (k : Nat) (hnd : paths.Nodup)
    (hf : FilesOk d b.cls paths) (hu : ∃ p ∈ paths, ∃ f, d p = some f ∧ Usable b.cls f)
    (hz : NoZeros d b.cls paths)
    (hk : ∀ order, ListsUsable d b.cls paths order → total d order ≤ k) :
    ∃ order, ListsUsable d b.cls paths order ∧
      ∃ b', loadMultiple setOrder d b paths (some k) = .ok b' ∧
        b'.samples.val = total d order ∧ b'.scaledRho = order.flatMap (rhoAt d) ∧
        b'.scaledG = order.flatMap (gAt d) := by
  obtain ⟨order, hl, _, h⟩ := C41_limit_partial setOrder hperm d b paths k hnd hf hu hz
  have hkt := hk order hl
  obtain ⟨b', e, h1, _, h2, h3, _⟩ := h (by
    rintro ⟨before, p, after, rfl, _, h2, h3⟩
    simp at hkt; omega)
  have hs := sized_all hf hl
  refine ⟨order, hl, b', e, by omega, ?_, ?_⟩
  · rw [h2, List.take_of_length_le]
    rw [length_flatMap_of d _ _ fun p hp => (hs p hp).rho]; omega
  · rw [h3, List.take_of_length_le]
    rw [length_flatMap_of d _ _ fun p hp => (hs p hp).g]; omega

end

/-! Two files of three samples each. -/

/-- a saved file of three samples -/
def threeSamples (x : Int) : ResultFile Int :=
  ⟨some c!"v", some c!"r", some 3, some [some 1, some 2, some x], some [some 4, some 5, some x],
    some [some 7, some 8, some x], some [some 9, some 10, some x]⟩

/-- two such files, and one that lacks the energies -/
def twoFiles : Disk Int := fun p =>
  if p = c!"a" then some (threeSamples 3) else if p = c!"b" then some (threeSamples 6)
  else if p = c!"c" then some { threeSamples 1 with gP := none } else none

theorem threeSamples_usable (x : Int) : Usable .pm (threeSamples x) :=
  ⟨⟨_, rfl⟩, ⟨_, rfl⟩, ⟨_, rfl⟩, fun _ => ⟨⟨_, rfl⟩, ⟨_, rfl⟩⟩⟩
theorem threeSamples_wellFormed (x : Int) : WellFormed (threeSamples x) := by
  intro n hn
  simp only [threeSamples, Option.some.injEq] at hn
  subst hn
  refine ⟨?_, ?_, ?_, ?_⟩ <;> intro a ha <;>
  · simp only [threeSamples, Option.some.injEq] at ha; rw [← ha]; rfl

theorem twoFiles_ok : FilesOk twoFiles .pm [c!"a", c!"b", c!"c"] := by
  intro p hp
  simp only [List.mem_cons, List.not_mem_nil, or_false] at hp
  rcases hp with rfl | rfl | rfl
  · exact ⟨_, rfl, fun _ => threeSamples_wellFormed _⟩
  · exact ⟨_, rfl, fun _ => threeSamples_wellFormed _⟩
  · refine ⟨_, rfl, fun h => ?_⟩
    obtain ⟨a, ha⟩ := (h.2.2.2 rfl).1
    simp at ha

theorem twoFiles_noZeros : NoZeros twoFiles .pm [c!"a", c!"b", c!"c"] := by
  intro p hp f hf hu a ha
  simp only [List.mem_cons, List.not_mem_nil, or_false] at hp
  rcases hp with rfl | rfl | rfl
  · cases hf; simp [threeSamples] at ha; subst ha; simp
  · cases hf; simp [threeSamples] at ha; subst ha; simp
  · cases hf
    obtain ⟨b, hb⟩ := (hu.2.2.2 rfl).1
    simp at hb

/-- The hypotheses of `C40_concatenates` are met, and its conclusion is not trivial. -/
example (setOrder : List Str → List Str) (hperm : ∀ l, (setOrder l).Perm l) :
    ∃ b', loadMultiple setOrder twoFiles (init .pm none none) [c!"a", c!"b", c!"c"] none = .ok b' ∧
      b'.samples.val = 6 := by
  obtain ⟨order, hl, b', e, h, _⟩ := C40_concatenates setOrder hperm twoFiles (init .pm none none)
    [c!"a", c!"b", c!"c"] (by decide) twoFiles_ok
    ⟨_, List.mem_cons_self, _, rfl, threeSamples_usable 3⟩ twoFiles_noZeros
  refine ⟨b', e, ?_⟩
  have hp : order.Perm [c!"a", c!"b"] := by
    rw [List.perm_ext_iff_of_nodup hl.1 (by decide)]
    intro p
    rw [hl.2 p]
    simp only [List.mem_cons, List.not_mem_nil, or_false]
    constructor
    · rintro ⟨rfl | rfl | rfl, f, hf, hu⟩
      · exact .inl rfl
      · exact .inr rfl
      · cases hf
        obtain ⟨b, hb⟩ := (hu.2.2.2 rfl).1
        simp at hb
    · rintro (rfl | rfl)
      · exact ⟨.inl rfl, _, rfl, threeSamples_usable _⟩
      · exact ⟨.inr (.inl rfl), _, rfl, threeSamples_usable _⟩
  rw [h, total, (hp.map (numberAt twoFiles)).sum_eq]
  rfl

/-- C41 is false: with two files of three samples, a limit of four makes loading fail, in whatever
order the set of paths is iterated. -/
theorem C41_limit_refuted (setOrder : List Str → List Str) (hperm : ∀ l, (setOrder l).Perm l) :
    loadMultiple setOrder twoFiles (init .pm none none) [c!"a", c!"b"] (some 4)
      = .error .broadcast := by
  have hsub : ∀ p ∈ [c!"a", c!"b"], p ∈ [c!"a", c!"b", c!"c"] := by simp +contextual
  obtain ⟨order, hl, h, _⟩ := C41_limit_partial setOrder hperm twoFiles (init .pm none none)
    [c!"a", c!"b"] 4 (by decide) (fun p hp => twoFiles_ok p (hsub p hp))
    ⟨_, List.mem_cons_self, _, rfl, threeSamples_usable 3⟩
    (fun p hp => twoFiles_noZeros p (hsub p hp))
  apply h
  have hp : order.Perm [c!"a", c!"b"] := by
    rw [List.perm_ext_iff_of_nodup hl.1 (by decide)]
    intro p
    rw [hl.2 p]
    simp only [List.mem_cons, List.not_mem_nil, or_false]
    constructor
    · exact fun h => h.1
    · rintro (rfl | rfl)
      · exact ⟨.inl rfl, _, rfl, threeSamples_usable _⟩
      · exact ⟨.inr rfl, _, rfl, threeSamples_usable _⟩
  have h3 : ∀ p ∈ order, numberAt twoFiles p = 3 := by
    intro p hpo
    have := hp.mem_iff.1 hpo
    simp only [List.mem_cons, List.not_mem_nil, or_false] at this
    rcases this with rfl | rfl <;> rfl
  match order, hp.length_eq, h3 with
  | [p, q], _, h3 =>
    exact ⟨[p], q, [], rfl, by simp [h3 p], by simp [h3 p], by simp [h3 p, h3 q]⟩

/-- The iteration order of a set exists: identity is one. -/
example : ∀ l : List Str, (id l).Perm l := fun _ => .refl _

/-! ### C42: saving and loading one file -/

/-- C42 (what does work): an object created without a sample count loads a saved file and has the
same arrays and sample count. -/
theorem C42_fresh_object_partial (d d' : Disk V) (b : Box V) (h : saveResults d b = .ok d') :
    ∃ path b', computePathToFile b = .ok path ∧
      loadResults d' (init b.cls none none) path = .ok b' ∧
      b'.samples.val = b.samples.val ∧ b'.scaledG = b.scaledG ∧ b'.scaledRho = b.scaledRho ∧
      (b.cls = .pm → b'.gofrPlus = b.gofrPlus ∧ b'.gofrMinus = b.gofrMinus) := by
  simp only [saveResults, bind, Except.bind] at h
  split at h
  · cases h
  · next path hp =>
    split at h
    · next hv hr h1 h2 =>
      simp only [Except.ok.injEq] at h
      subst h
      refine ⟨path, ?_⟩
      rcases hc : b.cls with _ | _ <;>
      · simp [hp, loadResults, Disk.write, keysPresent, init, initializeArrays, Count.isZeroLit,
          Count.val]
    · cases h

/-- C42 is false: an object that expects a number of samples can never load a file, not even the
one it has just saved (identity of numbers is compared instead of equality). -/
theorem C42_expected_count_refuted (d : Disk V) (b : Box V) (path : Str)
    (hn : b.samples.val ≠ 0) :
    loadResults d b path = .error (if d path = none then .os else .assertion) := by
  have hz : b.samples.isZeroLit = false := by
    cases h : b.samples with
    | int n => cases n with
      | zero => simp [h, Count.val] at hn
      | succ n => rfl
    | np n => rfl
  simp only [loadResults]
  split
  · next h => simp [h]
  · next h =>
    split
    · simp [h]
    · simp [h, hz]

/-- C42: a file that lacks an entry the class needs is refused, and a missing file is an `OSError`. -/
theorem C42_incomplete_refused (d : Disk V) (b : Box V) (path : Str) :
    (d path = none → loadResults d b path = .error .os) ∧
    ∀ f, d path = some f → ¬ Usable b.cls f → loadResults d b path = .error .assertion := by
  refine ⟨fun h => by simp [loadResults, h], fun f hf hu => ?_⟩
  have hk : keysPresent b.cls f = false := by
    rw [← Bool.not_eq_true, keysPresent_iff]; exact hu
  simp [loadResults, hf, hk]

/-- A file without the arrays of the shifted temperatures is complete for the plain class only. -/
example : let f : ResultFile Int := ⟨none, none, some 1, some [some 1], some [some 2], none, none⟩
    Usable .plain f ∧ ¬ Usable .pm f := by
  refine ⟨⟨⟨1, rfl⟩, ⟨_, rfl⟩, ⟨_, rfl⟩, fun h => by cases h⟩, fun h => ?_⟩
  obtain ⟨a, ha⟩ := (h.2.2.2 rfl).1
  cases ha

/-- C42: the file of a saved object with well-sized arrays is also read back by
`load_multiple_results`. -/
theorem C42_multi_loader_partial [Zero V] [DecidableEq V] (setOrder : List Str → List Str)
    (hperm : ∀ l, (setOrder l).Perm l) (d d' : Disk V) (b : Box V)
    (h : saveResults d b = .ok d') (hr : b.scaledRho.length = b.samples.val)
    (hg : b.scaledG.length = b.samples.val)
    (hpm : b.cls = .pm → b.gofrPlus.length = b.samples.val ∧ b.gofrMinus.length = b.samples.val)
    (hz : some 0 ∉ b.scaledRho) :
    ∃ path b', computePathToFile b = .ok path ∧
      loadMultiple setOrder d' (init b.cls none none) [path] none = .ok b' ∧
      b'.samples.val = b.samples.val ∧ b'.scaledG = b.scaledG ∧ b'.scaledRho = b.scaledRho ∧
      (b.cls = .pm → b'.gofrPlus = b.gofrPlus ∧ b'.gofrMinus = b.gofrMinus) := by
  simp only [saveResults, bind, Except.bind] at h
  split at h
  · cases h
  · next path hp =>
    split at h
    · next hv hrr h1 h2 =>
      simp only [Except.ok.injEq] at h
      subst h
      set f : ResultFile V := ⟨some hv, some hrr, some b.samples.val, some b.scaledRho,
        some b.scaledG, if b.cls = .pm then some b.gofrPlus else none,
        if b.cls = .pm then some b.gofrMinus else none⟩ with hf
      have hd : d.write path f path = some f := by simp [Disk.write]
      have hcls : (init b.cls none none : Box V).cls = b.cls := rfl
      have hus : Usable b.cls f := ⟨⟨_, rfl⟩, ⟨_, rfl⟩, ⟨_, rfl⟩, fun hc => by simp [hf, hc]⟩
      have hwf : WellFormed f := by
        intro n hn
        simp only [hf, Option.some.injEq] at hn
        subst hn
        refine ⟨?_, ?_, ?_, ?_⟩ <;> intro a ha
        · simp only [hf, Option.some.injEq] at ha; rw [← ha, hr]
        · simp only [hf, Option.some.injEq] at ha; rw [← ha, hg]
        · rcases hc : b.cls with _ | _
          · simp [hf, hc] at ha
          · simp [hf, hc] at ha; rw [← ha, (hpm hc).1]
        · rcases hc : b.cls with _ | _
          · simp [hf, hc] at ha
          · simp [hf, hc] at ha; rw [← ha, (hpm hc).2]
      obtain ⟨order, hl, b', e, h3, h4, h5, h6⟩ := C40_concatenates setOrder hperm
        (d.write path f) (init b.cls none none) [path] (by simp)
        (fun p hp => by
          simp only [List.mem_singleton] at hp; subst hp
          exact ⟨f, hd, fun _ => hwf⟩)
        ⟨path, List.mem_singleton_self _, f, hd, hus⟩
        (fun p hp f' hf' _ a ha => by
          simp only [List.mem_singleton] at hp; subst hp
          rw [hd] at hf'; cases hf'
          simp only [hf, Option.some.injEq] at ha
          rwa [← ha])
      have ho : order = [path] := by
        have : order.Perm [path] := by
          rw [List.perm_ext_iff_of_nodup hl.1 (by simp)]
          intro p
          rw [hl.2 p]
          constructor
          · exact fun h => h.1
          · intro h
            have := List.mem_singleton.1 h
            subst this
            exact ⟨h, f, hd, hus⟩
        exact List.perm_singleton.1 this
      subst ho
      refine ⟨path, b', hp, e, ?_, ?_, ?_, fun hc => ?_⟩
      · rw [h3, total_cons, numberAt_of hd]; rfl
      · rw [h5, List.flatMap_singleton, gAt_of hd]; rfl
      · rw [h4, List.flatMap_singleton, rhoAt_of hd]; rfl
      · obtain ⟨h7, h8⟩ := h6 hc
        rw [h7, h8, List.flatMap_singleton, List.flatMap_singleton, gPAt_of hd, gMAt_of hd]; simp [hf, hc]
    · cases h

/-- A saved object exists. -/
example : ∃ d', saveResults (fun _ => none)
    (prepared .pm 12 30000 10 c!"v" c!"r" c!"out/" : Box Int) = .ok d' :=
  ⟨_, rfl⟩

/-! ### C62: jobs do not overwrite each other -/

theorem pimc_injective {P T J P' T' J' : Nat}
    (h : pimc (natStr P) (tempStr T) (natStr J) = pimc (natStr P') (tempStr T') (natStr J')) :
    P = P' ∧ T = T' ∧ J = J' := by
  have hb := Pibronic.Props.Postprocessing.C13_pimc_bead [] (by simp) P T J
  have hb' := Pibronic.Props.Postprocessing.C13_pimc_bead [] (by simp) P' T' J'
  have ht := Pibronic.Props.Postprocessing.C13_pimc_temperature [] (by simp) P T J
  have ht' := Pibronic.Props.Postprocessing.C13_pimc_temperature [] (by simp) P' T' J'
  have hj := Pibronic.Props.Postprocessing.C13_pimc_job [] (by simp) P T J
  have hj' := Pibronic.Props.Postprocessing.C13_pimc_job [] (by simp) P' T' J'
  simp only [Pibronic.Props.Postprocessing.pimcPath, List.nil_append] at hb hb' ht ht' hj hj'
  rw [h] at hb ht hj
  rw [hb'] at hb; rw [ht'] at ht; rw [hj'] at hj
  simp only [Except.ok.injEq] at hb ht hj
  exact ⟨hb.symm, ht.symm, hj.symm⟩

theorem join_pimc (root : Str) :
    ∃ pre, ∀ P T J, join root (pimc P T J) = pre ++ pimc P T J := by
  by_cases h : root = [] ∨ root.getLast? = some '/'
  · exact ⟨root, fun P T J => by simp [pimc, join, h]⟩
  · exact ⟨root ++ ['/'], fun P T J => by simp [pimc, join, h]⟩

/-- Two objects with ids save to the same path only if beads, temperature and job id agree. -/
theorem path_injective {b b' : Box V} {P T J P' T' J' : Nat} {root path path' : Str}
    (hr : b.pathRoot = some root) (hr' : b'.pathRoot = some root)
    (hn : b.partialName = some (P, T)) (hn' : b'.partialName = some (P', T'))
    (hj : b.idJob = some J) (hj' : b'.idJob = some J')
    (h : computePathToFile b = .ok path) (h' : computePathToFile b' = .ok path')
    (he : path = path') : P = P' ∧ T = T' ∧ J = J' := by
  subst he
  simp only [computePathToFile, hr, hn, hj] at h
  simp only [computePathToFile, hr', hn', hj'] at h'
  split at h
  · cases h
  split at h'
  · cases h'
  simp only [Option.getD_some, Except.ok.injEq] at h h'
  obtain ⟨pre, hpre⟩ := join_pimc root
  rw [hpre] at h h'
  rw [← h'] at h
  exact pimc_injective (List.append_cancel_left h)

/-- C62: an object that lacks what the name of its file is made of is not saved: with no samples, and
without hashes, the save is refused, without a directory or a name it raises an `AttributeError`. -/
theorem C62_not_saved (d : Disk V) (b : Box V) :
    (b.samples = .int 0 → saveResults d b = .error .assertion) ∧
    (∀ n, b.samples = .int n → n ≠ 0 → b.partialName = none ∨ b.pathRoot = none →
      saveResults d b = .error .attribute) ∧
    (∀ n P T root, b.samples = .int n → n ≠ 0 → b.partialName = some (P, T) → b.pathRoot = some root →
      b.hashVib = none ∨ b.hashRho = none → saveResults d b = .error .assertion) := by
  refine ⟨fun h => ?_, fun n h h0 hn => ?_, fun n P T root h h0 hn hr hh => ?_⟩
  · simp [saveResults, computePathToFile, h, Count.isZeroLit, bind, Except.bind]
  · obtain ⟨n, rfl⟩ : ∃ m, n = m + 1 := ⟨n - 1, by omega⟩
    cases hb : b.partialName with
    | none => simp [saveResults, computePathToFile, h, hb, Count.isZeroLit, bind, Except.bind]
    | some q =>
      rcases hn with hn | hn
      · rw [hb] at hn; cases hn
      · simp [saveResults, computePathToFile, h, hb, hn, Count.isZeroLit, bind, Except.bind]
  · obtain ⟨n, rfl⟩ : ∃ m, n = m + 1 := ⟨n - 1, by omega⟩
    rcases hh with hh | hh <;> cases hv : b.hashVib <;> cases hw : b.hashRho <;>
      simp_all [saveResults, computePathToFile, Count.isZeroLit, bind, Except.bind]

/-- C62: saving the results of one job leaves the saved results of every other job (one with
another number of beads, temperature or job id) in the same directory untouched. -/
theorem C62_jobs_do_not_overwrite {b b' : Box V} {P T J P' T' J' : Nat} {root path : Str}
    (d d' : Disk V)
    (hr : b.pathRoot = some root) (hr' : b'.pathRoot = some root)
    (hn : b.partialName = some (P, T)) (hn' : b'.partialName = some (P', T'))
    (hj : b.idJob = some J) (hj' : b'.idJob = some J')
    (hne : (P, T, J) ≠ (P', T', J'))
    (hp : computePathToFile b = .ok path) (hs : saveResults d b' = .ok d') :
    d' path = d path := by
  simp only [saveResults, bind, Except.bind] at hs
  split at hs
  · cases hs
  · next path' hp' =>
    split at hs
    · simp only [Except.ok.injEq] at hs
      subst hs
      have : path ≠ path' := fun he => hne (by
        obtain ⟨rfl, rfl, rfl⟩ := path_injective hr hr' hn hn' hj hj' hp hp' he; rfl)
      simp [Disk.write, this]
    · cases hs

/-- C62: objects without a job id all count as job 0: two of them with the same beads and
temperature write the same file (the code's own comment calls this dangerous). -/
theorem C62_unnumbered_jobs_share_file {b b' : Box V} {root : Str} {P T : Nat}
    (hr : b.pathRoot = some root) (hr' : b'.pathRoot = some root)
    (hn : b.partialName = some (P, T)) (hn' : b'.partialName = some (P, T))
    (hj : b.idJob = none) (hj' : b'.idJob = none)
    (hs : b.samples.val ≠ 0) (hs' : b'.samples.val ≠ 0) :
    computePathToFile b = computePathToFile b' := by
  have hz : ∀ c : Count, c.val ≠ 0 → c.isZeroLit = false := by
    intro c hc
    cases c with
    | int n => cases n with
      | zero => exact absurd rfl hc
      | succ n => rfl
    | np n => rfl
  simp [computePathToFile, hr, hr', hn, hn', hj, hj', hz _ hs, hz _ hs']

/-- The hypotheses are met by two jobs of the same run. -/
example : let mk := fun J : Nat => ({ (prepared .pm 12 30000 10 c!"v" c!"r" c!"out/" : Box Int) with
      idJob := some J } : Box Int)
    (∃ p, computePathToFile (mk 1) = .ok p) ∧ ∃ d', saveResults (fun _ => none) (mk 2) = .ok d' :=
  ⟨⟨_, rfl⟩, ⟨_, rfl⟩⟩

end Pibronic.Props.Results
