import Verif.Model.TrainingFiles
import Verif.Lemmas.Results
import Verif.Props.Results
import Verif.Props.Grids

set_option autoImplicit false

/-! Theorems about the files made for training (C102). -/
namespace Pibronic.Props.TrainingFiles
open Pibronic.Py Pibronic.FileName Pibronic.FileStructure
open Pibronic.Results hiding Disk Disk.write saveResults
open Pibronic.TrainingFiles

variable {V R : Type}

/-! ### what the theorems speak about -/

/-- A result object built from the execution parameters, with a directory and a job number. -/
def fresh (P T X J : Nat) (hv hr root : Str) : TBox V :=
  ⟨{ (Props.Results.prepared .plain P T X hv hr root : Box V) with idJob := some J }, .pimc⟩

/-- The file of g values of job `J`. -/
def gPath (root : Str) (P T J : Nat) : Str :=
  join root (c!"P" ++ natStr P ++ c!"_T" ++ tempStr T ++ c!"_J" ++ natStr J ++ c!"_training_data_g_output.npz")

/-- The file of coordinates of job `J`. -/
def rPath (root : Str) (P T J : Nat) : Str :=
  join root (c!"P" ++ natStr P ++ c!"_T" ++ tempStr T ++ c!"_J" ++ natStr J ++ c!"_training_data_input.npz")

/-! ### helpers -/

theorem names_differ (P T J P' T' J' : Str) :
    trainingDataGOutput P T J ≠ trainingDataInput P' T' J' := by
  intro h
  have := congrArg (fun l => l.reverse.take 9) h
  simp [trainingDataGOutput, trainingDataInput] at this

theorem paths_differ (root : Str) (P T J P' T' J' : Nat) :
    gPath root P T J ≠ rPath root P' T' J' := fun h =>
  names_differ _ _ _ _ _ _ (Props.Grids.join_inj (by simp [trainingDataGOutput])
    (by simp [trainingDataInput]) h)

theorem mapM_values {α β : Type} (f : α → Except Err β) (v : α → β) :
    ∀ l : List α, (∀ a ∈ l, f a = .ok (v a)) → l.mapM f = .ok (l.map v)
  | [], _ => rfl
  | a :: l, h => by
    rw [List.mapM_cons, h a (by simp), mapM_values f v l fun b hb => h b (by simp [hb])]
    rfl

theorem mapM_fails {α β : Type} (f : α → Except Err β) (e : Err) (a : α) (he : f a = .error e) :
    ∀ l : List α, a ∈ l → ∃ e', l.mapM f = .error e'
  | b :: l, h => by
    rw [List.mapM_cons]
    cases hb : f b with
    | error e' => exact ⟨e', rfl⟩
    | ok x =>
      have : a ≠ b := fun h => by rw [h, hb] at he; cases he
      obtain ⟨e', h'⟩ := mapM_fails f e a he l (by simpa [this] using h)
      exact ⟨e', by simp [h', bind, Except.bind]⟩

theorem gStep_ok (draw : Nat → Nat → R) (value : R → Except Err V) (v : Nat → Nat → V)
    (X B i : Nat) (hv : ∀ j < B, value (draw i j) = .ok (v i j)) (h : (i + 1) * B ≤ X) :
    gStep draw value X B i (filled v B X i, filled draw B X i) =
      .ok (filled v B X (i + 1), filled draw B X (i + 1)) := by
  have hrows : min ((i + 1) * B) X - min (i * B) X = B := by
    have : i * B + B ≤ X := by rwa [Nat.succ_mul] at h
    rw [Nat.succ_mul]; omega
  have e := mapM_values (fun j => value (draw i j)) (v i) (List.range B)
    (fun j hj => hv j (by simpa using hj))
  have e2 : ((List.range B).map (v i)).map some = blockRow v B i := by simp [blockRow]
  simp only [gStep, assign_filled draw B X i h, bind, Except.bind, hrows, ne_eq,
    not_true_eq_false, if_false, e, e2, assign_filled v B X i h]

theorem gLoop_ok (draw : Nat → Nat → R) (value : R → Except Err V) (v : Nat → Nat → V)
    (X B : Nat) : ∀ (k i : Nat), (∀ i' < i + k, ∀ j < B, value (draw i' j) = .ok (v i' j)) →
      (i + k) * B ≤ X →
      gLoop draw value X B i k (filled v B X i, filled draw B X i) =
        .ok (filled v B X (i + k), filled draw B X (i + k))
  | 0, i, _, _ => rfl
  | k + 1, i, hv, h => by
    have h1 : (i + 1) * B ≤ X := le_trans (Nat.mul_le_mul_right B (by omega)) h
    have := gLoop_ok draw value v X B k (i + 1) (fun i' hi => hv i' (by omega))
      (by rw [show i + 1 + k = i + (k + 1) by omega]; exact h)
    rw [show i + 1 + k = i + (k + 1) by omega] at this
    simp [gLoop, gStep_ok draw value v X B i (hv i (by omega)) h1, bind, Except.bind, this]

theorem saved (draw : Nat → Nat → R) (value : R → Except Err V) (v : Nat → Nat → V)
    (P T X B blocks J : Nat) (hv hr root : Str) (hX : 0 < X) (hfit : blocks * B ≤ X)
    (hval : ∀ i < blocks, ∀ j < B, value (draw i j) = .ok (v i j)) :
    ∃ b, computeGR draw value P T X B blocks (fresh P T X J hv hr root) =
      .ok (b, [(gPath root P T J, .g X (Props.Results.computedThenNaN v B (blocks * B) X)),
               (rPath root P T J, .input X (Props.Results.computedThenNaN draw B (blocks * B) X))])
      ∧ pathOf b = .ok (rPath root P T J) ∧ b.box.hashVib = some hv ∧ b.box.hashRho = some hr ∧
      b.box.samples = .int X := by
  have hz : Count.isZeroLit (.int X) = false := by
    cases X with
    | zero => omega
    | succ n => rfl
  have e := gLoop_ok draw value v X B blocks 0 (by simpa using hval) (by simpa using hfit)
  rw [filled_zero, filled_zero, Nat.zero_add] at e
  have hg : (fresh P T X J hv hr root : TBox V).box.scaledG = List.replicate X none := by
    simp [fresh, Props.Results.prepared, init, initializeArrays, Count.val]
  refine ⟨⟨{ (fresh P T X J hv hr root : TBox V).box with
    scaledG := filled v B X blocks, partialName := some (P, T) }, .input⟩, ?_, ?_, ?_, ?_, ?_⟩
  · simp only [computeGR, hg, e, bind, Except.bind, saveOps]
    simp [pathOf, fresh, Props.Results.prepared, init, initializeArrays, hz, Template.name, trainingDataGOutput, trainingDataInput,
      gPath, rPath, Count.val, filled, Props.Results.computedThenNaN]
  · simp [pathOf, fresh, Props.Results.prepared, init, initializeArrays, hz, Template.name, trainingDataInput, rPath]
  all_goals simp [fresh, Props.Results.prepared, init, initializeArrays]

theorem apply_two (d : Disk V R) (p q : Str) (a b : Entry V R) (h : p ≠ q) :
    apply d [(p, a), (q, b)] p = some a ∧ apply d [(p, a), (q, b)] q = some b ∧
      ∀ r, r ≠ p → r ≠ q → apply d [(p, a), (q, b)] r = d r := by
  refine ⟨?_, ?_, fun r h1 h2 => ?_⟩ <;> simp_all [apply, TrainingFiles.Disk.write]

/-! ### C102 -/

/-- C102 (when the blocks make up the requested samples): the two files have the same number of
rows, the stated number, and row `s` of the one is the value of g at row `s` of the other.  No
other file changes. -/
theorem C102_rows_correspond_partial (draw : Nat → Nat → R) (value : R → Except Err V)
    (d : Disk V R) (P T X B blocks J : Nat) (hv hr root : Str) (hX : 0 < X)
    (hcover : blocks * B = X) (hval : ∀ i < blocks, ∀ j < B, ∃ v, value (draw i j) = .ok v) :
    ∃ b ops gs rs, computeGR draw value P T X B blocks (fresh P T X J hv hr root) = .ok (b, ops) ∧
      apply d ops (gPath root P T J) = some (.g X gs) ∧
      apply d ops (rPath root P T J) = some (.input X rs) ∧
      gs.length = X ∧ rs.length = X ∧
      (∀ s < X, ∃ r v, rs[s]? = some (some r) ∧ gs[s]? = some (some v) ∧ value r = .ok v ∧
        r = draw (s / B) (s % B)) ∧
      ∀ p, p ≠ gPath root P T J → p ≠ rPath root P T J → apply d ops p = d p := by
  classical
  have hB : 0 < B := by
    rcases Nat.eq_zero_or_pos B with h | h
    · subst h; simp at hcover; omega
    · exact h
  have hb : 0 < blocks := by
    rcases Nat.eq_zero_or_pos blocks with h | h
    · subst h; simp at hcover; omega
    · exact h
  obtain ⟨v0, _⟩ := hval 0 hb 0 hB
  let v : Nat → Nat → V := fun i j =>
    if h : ∃ v, value (draw i j) = .ok v then h.choose else v0
  have hv' : ∀ i < blocks, ∀ j < B, value (draw i j) = .ok (v i j) := by
    intro i hi j hj
    have h := hval i hi j hj
    simp only [v, dif_pos h]
    exact h.choose_spec
  obtain ⟨b, e, _⟩ := saved draw value v P T X B blocks J hv hr root hX (by omega) hv'
  obtain ⟨a1, a2, a3⟩ := apply_two d (gPath root P T J) (rPath root P T J)
    (.g X (Props.Results.computedThenNaN v B (blocks * B) X))
    (.input X (Props.Results.computedThenNaN draw B (blocks * B) X)) (paths_differ root P T J P T J)
  refine ⟨b, _, _, _, e, a1, a2, ?_, ?_, fun s hs => ?_, a3⟩
  · simp [Props.Results.computedThenNaN, hcover]
  · simp [Props.Results.computedThenNaN, hcover]
  · refine ⟨draw (s / B) (s % B), v (s / B) (s % B), ?_, ?_, ?_, rfl⟩
    · simp [Props.Results.computedThenNaN, hcover, hs]
    · simp [Props.Results.computedThenNaN, hcover, hs]
    · exact hv' _ (by rw [Nat.div_lt_iff_lt_mul hB, hcover]; exact hs) _ (Nat.mod_lt _ hB)

/-- The hypotheses are met: four samples in two blocks of two. -/
example : ∃ b ops gs rs, computeGR (V := Nat) (fun i j => 10 * i + j) (fun r => .ok (r + 1))
      12 30000 4 2 2 (fresh 12 30000 4 7 c!"hv" c!"hr" c!"/d") = .ok (b, ops) ∧
    apply (fun _ => none) ops (gPath c!"/d" 12 30000 7) = some (.g 4 gs) ∧
    apply (fun _ => none) ops (rPath c!"/d" 12 30000 7) = some (.input 4 rs) ∧
    rs[3]? = some (some 11) ∧ gs[3]? = some (some 12) := by
  obtain ⟨b, ops, gs, rs, h1, h2, h3, _, _, h6, _⟩ := C102_rows_correspond_partial (V := Nat)
    (fun i j => 10 * i + j) (fun r => .ok (r + 1)) (fun _ => none) 12 30000 4 2 2 7
    c!"hv" c!"hr" c!"/d" (by decide) (by decide) (fun i _ j _ => ⟨_, rfl⟩)
  obtain ⟨r, v, k1, k2, k3, k4⟩ := h6 3 (by decide)
  simp only [Nat.reduceDiv, Nat.reduceMod, Nat.reduceMul, Nat.reduceAdd] at k4
  subst k4
  simp only [Except.ok.injEq] at k3
  subst k3
  exact ⟨b, ops, gs, rs, h1, h2, h3, k1, k2⟩

theorem assignSlice_kind {α : Type} {dst : List α} {start len : Nat} {src : List α} {e : Err}
    (h : assignSlice dst start len src = .error e) : e = .broadcast := by
  unfold assignSlice at h
  simp only at h
  split at h
  · cases h
  · split at h <;> cases h
    rfl

theorem gLoop_kind {draw : Nat → Nat → R} {value : R → Except Err V} {X B : Nat}
    (hval : ∀ r, ∃ v, value r = .ok v) (k i : Nat) (s : Arr V × List (Option R)) (e : Err)
    (h : gLoop draw value X B i k s = .error e) : e = .broadcast := by
  induction k generalizing i s with
  | zero => cases h
  | succ k ih =>
    simp only [gLoop, bind, Except.bind] at h
    cases hst : gStep draw value X B i s with
    | ok s1 => rw [hst] at h; exact ih _ _ h
    | error e' =>
      rw [hst] at h
      cases h
      simp only [gStep, bind, Except.bind] at hst
      split at hst
      · next h1 => cases hst; exact assignSlice_kind h1
      · split at hst
        · cases hst; rfl
        · obtain ⟨l, hl⟩ := (Pibronic.Postprocessing.mapM_isOk (f := fun j => value (draw i j))
            (xs := List.range B)).2 (fun j _ => hval _)
          rw [hl] at hst
          simp only at hst
          split at hst
          · next h1 => cases hst; exact assignSlice_kind h1
          · cases hst

/-- C102: a block that reaches beyond the requested samples, or a sample whose value cannot be
computed, is an error, and neither file is written.  When all values can be computed it is numpy's
`ValueError` about shapes. -/
theorem C102_beyond_refused (draw : Nat → Nat → R) (value : R → Except Err V)
    (P T X B blocks J : Nat) (hv hr root : Str)
    (h : X < blocks * B ∨ ∃ i < blocks, ∃ j < B, ∃ e, value (draw i j) = .error e) :
    ∃ e, computeGR draw value P T X B blocks (fresh P T X J hv hr root) = .error e ∧
      ((∀ r, ∃ v, value r = .ok v) → e = .broadcast) := by
  have hg : (fresh P T X J hv hr root : TBox V).box.scaledG = List.replicate X none := by
    simp [fresh, Props.Results.prepared, init, initializeArrays, Count.val]
  suffices hs : ∀ (k i : Nat) (s : Arr V × List (Option R)),
      (∀ s', gLoop draw value X B i k s = .ok s' →
        (0 < k → (i + k) * B ≤ X ∨ B = 0) ∧
          ∀ i', i ≤ i' → i' < i + k → ∀ j < B, ∃ v, value (draw i' j) = .ok v) by
    simp only [computeGR, hg]
    cases hl : gLoop draw value X B 0 blocks (List.replicate X none, List.replicate X none) with
    | error e => exact ⟨e, rfl, fun hval => gLoop_kind hval _ _ _ _ hl⟩
    | ok s' =>
      exfalso
      obtain ⟨h1, h2⟩ := hs _ _ _ _ hl
      rcases h with h | ⟨i, hi, j, hj, e, he⟩
      · have hk : 0 < blocks := by
          rcases Nat.eq_zero_or_pos blocks with h0 | h0
          · subst h0; simp at h
          · exact h0
        rcases h1 hk with h1 | h1
        · simp at h1; omega
        · subst h1; simp at h
      · obtain ⟨v, h2⟩ := h2 i (by omega) (by omega) j hj
        rw [he] at h2; cases h2
  intro k
  induction k with
  | zero => intro i s s' _; exact ⟨by simp, fun i' h1 h2 => by omega⟩
  | succ k ih =>
    intro i s s' hl
    simp only [gLoop] at hl
    cases hst : gStep draw value X B i s with
    | error e => simp [hst, bind, Except.bind] at hl
    | ok s1 =>
      simp only [hst, bind, Except.bind] at hl
      obtain ⟨h1, h2⟩ := ih (i + 1) s1 s' hl
      have hthis : ((i + 1) * B ≤ X ∨ B = 0) ∧ ∀ j < B, ∃ v, value (draw i j) = .ok v := by
        simp only [gStep, bind, Except.bind] at hst
        split at hst
        · cases hst
        · split at hst
          · cases hst
          · rename_i hrows
            refine ⟨?_, ?_⟩
            · rw [Nat.succ_mul] at hrows ⊢; omega
            · intro j hj
              cases hj' : value (draw i j) with
              | ok v => exact ⟨v, rfl⟩
              | error e =>
                obtain ⟨e', h'⟩ := mapM_fails (fun j => value (draw i j)) e j hj'
                  (List.range B) (by simpa using hj)
                simp [h'] at hst
      refine ⟨fun _ => ?_, fun i' a b j hj => ?_⟩
      · rcases Nat.eq_zero_or_pos k with hk | hk
        · subst hk; exact hthis.1
        · rw [show i + (k + 1) = i + 1 + k by omega]; exact h1 hk
      · rcases Nat.eq_or_lt_of_le a with a | a
        · subst a; exact hthis.2 j hj
        · exact h2 i' (by omega) (by omega) j hj

/-- C102 is false when the block size does not divide the number of samples: the files state `X`
samples and have `X` rows, but row `samples // block_size * block_size` (and every later one) has no
value of g, and its coordinates were never drawn. -/
theorem C102_remainder_refuted (draw : Nat → Nat → R) (value : R → Except Err V) (d : Disk V R)
    (P T X B J : Nat) (hv hr root : Str) (hX : 0 < X) (hB : 0 < B) (hdiv : X % B ≠ 0)
    (hval : ∀ r, ∃ v, value r = .ok v) :
    ∃ b ops gs rs,
      computeGR draw value P T X B (X / B) (fresh P T X J hv hr root) = .ok (b, ops) ∧
      apply d ops (gPath root P T J) = some (.g X gs) ∧
      apply d ops (rPath root P T J) = some (.input X rs) ∧
      X / B * B < X ∧ ∀ s, X / B * B ≤ s → s < X → gs[s]? = some none ∧ rs[s]? = some none := by
  choose v hv' using hval
  have hle : X / B * B ≤ X := Nat.div_mul_le_self X B
  obtain ⟨b, e, _⟩ := saved draw value (fun i j => v (draw i j)) P T X B (X / B) J hv hr root hX
    hle (fun i _ j _ => hv' _)
  obtain ⟨a1, a2, _⟩ := apply_two d (gPath root P T J) (rPath root P T J)
    (.g X (Props.Results.computedThenNaN (fun i j => v (draw i j)) B (X / B * B) X))
    (.input X (Props.Results.computedThenNaN draw B (X / B * B) X)) (paths_differ root P T J P T J)
  refine ⟨b, _, _, _, e, a1, a2, ?_, fun s h1 h2 => ?_⟩
  · have := Nat.div_add_mod' X B; omega
  · constructor <;>
    · simp only [Props.Results.computedThenNaN]
      rw [List.getElem?_append_right (by simpa using h1)]
      simp only [List.length_map, List.length_range, List.getElem?_replicate]
      rw [if_pos (by omega)]

/-- The hypotheses are met: five samples in blocks of two. -/
example : ∃ b ops gs rs, computeGR (V := Nat) (fun i j => 10 * i + j) (fun r => .ok (r + 1))
      12 30000 5 2 2 (fresh 12 30000 5 7 c!"hv" c!"hr" c!"/d") = .ok (b, ops) ∧
    apply (fun _ => none) ops (gPath c!"/d" 12 30000 7) = some (.g 5 gs) ∧
    apply (fun _ => none) ops (rPath c!"/d" 12 30000 7) = some (.input 5 rs) ∧
    gs[4]? = some none ∧ rs[4]? = some none := by
  obtain ⟨b, ops, gs, rs, h1, h2, h3, _, h6⟩ := C102_remainder_refuted (V := Nat)
    (fun i j => 10 * i + j) (fun r => .ok (r + 1)) (fun _ => none) 12 30000 5 2 7
    c!"hv" c!"hr" c!"/d" (by decide) (by decide) (by decide) (fun _ => ⟨_, rfl⟩)
  exact ⟨b, ops, gs, rs, h1, h2, h3, h6 4 (by decide) (by decide)⟩

/-- C102 is false of an interrupted run: when the job was run before and the second run stops after
its first write, the file of g values is the new one and the file of coordinates still the old
one.  Row `0` then pairs the new value with the old coordinates. -/
theorem C102_crash_refuted (draw draw' : Nat → Nat → R) (value : R → Except Err V) (d : Disk V R)
    (P T X B blocks J : Nat) (hv hr root : Str) (hX : 0 < X) (hcover : blocks * B = X)
    (hval : ∀ r, ∃ v, value r = .ok v) (hne : value (draw 0 0) ≠ value (draw' 0 0)) :
    ∃ b ops b' ops' gs rs v r,
      computeGR draw value P T X B blocks (fresh P T X J hv hr root) = .ok (b, ops) ∧
      computeGR draw' value P T X B blocks (fresh P T X J hv hr root) = .ok (b', ops') ∧
      apply (apply d ops) (ops'.take 1) (gPath root P T J) = some (.g X gs) ∧
      apply (apply d ops) (ops'.take 1) (rPath root P T J) = some (.input X rs) ∧
      gs[0]? = some (some v) ∧ rs[0]? = some (some r) ∧ value r ≠ .ok v := by
  choose v hv' using hval
  obtain ⟨b, e, _⟩ := saved draw value (fun i j => v (draw i j)) P T X B blocks J hv hr root hX
    (by omega) (fun i _ j _ => hv' _)
  obtain ⟨b', e', _⟩ := saved draw' value (fun i j => v (draw' i j)) P T X B blocks J hv hr root hX
    (by omega) (fun i _ j _ => hv' _)
  have hp := paths_differ root P T J P T J
  refine ⟨b, _, b', _,
    Props.Results.computedThenNaN (fun i j => v (draw' i j)) B (blocks * B) X,
    Props.Results.computedThenNaN draw B (blocks * B) X,
    v (draw' 0 0), draw 0 0, e, e', ?_, ?_, ?_, ?_, ?_⟩
  · simp [apply, TrainingFiles.Disk.write]
  · simp [apply, TrainingFiles.Disk.write, hp.symm]
  · simp [Props.Results.computedThenNaN, hcover, hX]
  · simp [Props.Results.computedThenNaN, hcover, hX]
  · rw [← hv']; exact hne

/-- C102 is false of an object that is used again: after the training files were saved,
`save_results` of the same object replaces the file of coordinates by a results file. -/
theorem C102_later_save_refuted (draw : Nat → Nat → R) (value : R → Except Err V) (d : Disk V R)
    (P T X B blocks J : Nat) (hv hr root : Str) (hX : 0 < X) (hcover : blocks * B = X)
    (hval : ∀ r, ∃ v, value r = .ok v) :
    ∃ b ops d' f, computeGR draw value P T X B blocks (fresh P T X J hv hr root) = .ok (b, ops) ∧
      saveResults (apply d ops) b = .ok d' ∧ d' (rPath root P T J) = some (.results f) := by
  choose v hv' using hval
  obtain ⟨b, e, hp, h1, h2, h3⟩ := saved draw value (fun i j => v (draw i j)) P T X B blocks J
    hv hr root hX (by omega) (fun i _ j _ => hv' _)
  have h : ∀ d : TrainingFiles.Disk V R, saveResults d b = .ok (d.write (rPath root P T J)
      (.results ⟨some hv, some hr, some b.box.samples.val, some b.box.scaledRho,
        some b.box.scaledG, none, none⟩)) := by
    intro d
    simp only [saveResults, hp, bind, Except.bind, h1, h2]
  exact ⟨b, _, _, _, e, h _, by simp [TrainingFiles.Disk.write]; rfl⟩

/-- C102: rho evaluated at the points that were read back keeps the rows: value `s` is rho at row
`s`. -/
theorem C102_rho_rows (value : Option R → V) (rs : List (Option R)) (B blocks : Nat)
    (h : blocks * B = rs.length) :
    rhoLoop value rs B 0 blocks (List.replicate rs.length none) =
      .ok (rs.map fun r => some (value r)) := by
  suffices hs : ∀ k i, (i + k) * B = rs.length →
      rhoLoop value rs B i k ((rs.take (i * B)).map (fun r => some (value r)) ++
        List.replicate (rs.length - i * B) none) = .ok (rs.map fun r => some (value r)) by
    simpa using hs blocks 0 (by simpa using h)
  intro k
  induction k with
  | zero =>
    intro i hi
    rw [Nat.add_zero] at hi
    simp [rhoLoop, hi]
  | succ k ih =>
    intro i hi
    have hle : i * B + B ≤ rs.length := by
      rw [← hi, ← Nat.succ_mul]; exact Nat.mul_le_mul_right B (by omega)
    have hl : ((rs.drop (i * B)).take B).length = B := by simp; omega
    have hlen : ((rs.take (i * B)).map (fun r => some (value r))).length = i * B := by
      simp; omega
    have ha := assignSlice_append ((rs.take (i * B)).map (fun r => some (value r)))
      (List.replicate (rs.length - i * B) none)
      (((rs.drop (i * B)).take B).map fun r => some (value r)) B (by rw [List.length_map]; exact hl)
      (by simp; omega)
    rw [hlen] at ha
    have := ih (i + 1) (by rw [← hi]; congr 1; omega)
    simp only [rhoLoop, rhoStep, hl, if_true, Except.bind, ha, bind]
    rw [← this]
    congr 1
    rw [Nat.succ_mul, List.take_add, List.map_append, List.drop_replicate, Nat.sub_sub]

/-- C102: a single row in the last block is not an error: with at least two samples wanted per
block and one row left, rho at that row would be stored for a whole block. -/
theorem C102_single_row_repeated (value : Option R → V) (r : Option R) (B : Nat) (hB : 0 < B) :
    rhoLoop value [r] B 0 1 (List.replicate B none) =
      .ok (List.replicate B (some (value r))) := by
  have hl : ([r].take B) = [r] := by
    cases B with
    | zero => omega
    | succ n => simp
  have ha := assignSlice_append ([] : Arr V) (List.replicate B none)
    (List.replicate B (some (value r))) B (by simp) (by simp)
  rcases Nat.eq_or_lt_of_le hB with h1 | h1
  · have : B = 1 := by omega
    subst this
    simp only [List.length_nil, List.nil_append, List.replicate_one] at ha
    simp [rhoLoop, rhoStep, bind, Except.bind, ha]
  · have hne : 1 ≠ B := by omega
    simp only [List.length_nil, List.nil_append] at ha
    simp [rhoLoop, rhoStep, bind, Except.bind, hl, hne, ha]

/-- C102: with fewer points than the blocks need, rho is not evaluated: numpy refuses the first block that is not
filled, whatever the size of the result array, unless exactly one point is left for it (`C102_single_row_repeated`). -/
theorem C102_rho_too_few (value : Option R → V) (rs : List (Option R)) (B blocks : Nat) (rho : Arr V)
    (h : rs.length < blocks * B) (h1 : rs.length % B ≠ 1) :
    rhoLoop value rs B 0 blocks rho = .error .broadcast := by
  have hB : 0 < B := by
    rcases Nat.eq_zero_or_pos B with rfl | hB
    · omega
    · exact hB
  suffices hs : ∀ k i (rho : Arr V), i ≤ rs.length / B → rs.length / B < i + k →
      rhoLoop value rs B i k rho = .error .broadcast by
    exact hs blocks 0 rho (Nat.zero_le _) (by rw [Nat.zero_add]; exact (Nat.div_lt_iff_lt_mul hB).2 h)
  intro k
  induction k with
  | zero => intro i rho a b; omega
  | succ k ih =>
    intro i rho a b
    rcases Nat.eq_or_lt_of_le a with a | a
    · have hm := Nat.mod_lt rs.length hB
      have hd := Nat.div_add_mod rs.length B
      have hl : ((rs.drop (i * B)).take B).length = rs.length % B := by
        rw [List.length_take, List.length_drop, a, Nat.mul_comm]; omega
      have : rhoStep value rs B i rho = .error .broadcast := by
        unfold rhoStep
        simp only [hl, if_neg (Nat.ne_of_lt hm)]
        split
        · next r hr => rw [hr] at hl; exact absurd hl.symm h1
        · rfl
      simp only [rhoLoop, this, bind, Except.bind]
    · cases hst : rhoStep value rs B i rho with
      | ok rho' =>
        simp only [rhoLoop, hst, bind, Except.bind]
        exact ih (i + 1) rho' a (by omega)
      | error e =>
        have : e = .broadcast := by
          unfold rhoStep at hst
          simp only [Except.bind] at hst
          split at hst
          · next h2 =>
            cases hst
            split at h2
            · cases h2
            · split at h2 <;> cases h2
              rfl
          · exact assignSlice_kind hst
        simp only [rhoLoop, hst, bind, Except.bind, this]

example : rhoLoop (fun r : Option Nat => r) [some 1, some 2, some 3, some 4, some 5] 3 0 2
      (List.replicate 6 none) = .error .broadcast ∧
    [some 1, some 2, some 3, some 4, some 5].length < 2 * 3 ∧ 5 % 3 ≠ 1 := ⟨rfl, by decide, by decide⟩

/-- C102: nothing is saved by an object without samples, without a directory or, for results, without hashes. -/
theorem C102_not_saved (d : Disk V R) (b : TBox V) (P T : Nat) (rows : List (Option R)) :
    (b.box.samples = .int 0 → saveOps P T b rows = .error .assertion ∧ saveResults d b = .error .assertion) ∧
    (b.box.samples ≠ .int 0 → b.box.pathRoot = none →
      saveOps P T b rows = .error .attribute ∧ saveResults d b = .error .attribute) ∧
    (∀ root P' T', b.box.samples ≠ .int 0 → b.box.pathRoot = some root → b.box.partialName = some (P', T') →
      (b.box.hashVib = none ∨ b.box.hashRho = none) → saveResults d b = .error .assertion) := by
  have hz : ∀ c : Count, c ≠ .int 0 → c.isZeroLit = false := by
    intro c hc
    cases c with
    | int n =>
      cases n with
      | zero => exact absurd rfl hc
      | succ n => rfl
    | np n => rfl
  refine ⟨fun h => ⟨?_, ?_⟩, fun h hr => ⟨?_, ?_⟩, fun root P' T' h hr hp hh => ?_⟩
  · simp [saveOps, pathOf, h, Count.isZeroLit, bind, Except.bind]
  · simp [saveResults, pathOf, h, Count.isZeroLit, bind, Except.bind]
  · simp [saveOps, pathOf, hz _ h, hr, bind, Except.bind]
  · simp only [saveResults, pathOf, hz _ h, hr, bind, Except.bind]
    cases b.box.partialName <;> simp
  · simp only [saveResults, pathOf, hz _ h, hr, hp, bind, Except.bind]
    rcases hh with hh | hh
    · simp [hh]
    · cases b.box.hashVib <;> simp [hh]

/-- C102: two jobs of a directory never share a training file. -/
theorem C102_jobs_apart (root : Str) (P T J P' T' J' : Nat)
    (h : gPath root P T J = gPath root P' T' J' ∨ rPath root P T J = rPath root P' T' J') :
    P = P' ∧ T = T' ∧ J = J' := by
  have key : ∀ suffix : Str,
      c!"P" ++ natStr P ++ c!"_T" ++ tempStr T ++ c!"_J" ++ natStr J ++ ('_' :: suffix) =
        c!"P" ++ natStr P' ++ c!"_T" ++ tempStr T' ++ c!"_J" ++ natStr J' ++ ('_' :: suffix) →
      P = P' ∧ T = T' ∧ J = J' := by
    intro suffix e
    have e' := congrArg (fun l => (l.take (l.length - (suffix.length + 1))) ++
      c!"_data_points.npz") e
    have hcut : ∀ a : Str, (a ++ '_' :: suffix).take ((a ++ '_' :: suffix).length -
        (suffix.length + 1)) = a := by
      intro a
      simp
    simp only [hcut] at e'
    exact Props.Results.pimc_injective (by simpa [pimc] using e')
  rcases h with h | h
  · exact key c!"training_data_g_output.npz" (by
      simpa [trainingDataGOutput] using Props.Grids.join_inj (by simp [trainingDataGOutput])
        (by simp [trainingDataGOutput]) h)
  · exact key c!"training_data_input.npz" (by
      simpa [trainingDataInput] using Props.Grids.join_inj (by simp [trainingDataInput])
        (by simp [trainingDataInput]) h)

end Pibronic.Props.TrainingFiles
