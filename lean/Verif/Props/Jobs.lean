import Verif.Lemmas.Jobs
import Verif.Props.Examples

set_option autoImplicit false

/-!
C123: calculations that run at the same time.  C124: repeating the submission until nothing is missing.
-/
namespace Pibronic.Props.Jobs
open Py FileName Pibronic.Analytic Pibronic.Jobs Pibronic.Props.Analytic Pibronic.Props.AnalyticText
open Pibronic.Props.Examples (Done)
variable {V : Type}

/-! ### Different results files -/

/-- The operations of the job `i` in a schedule. -/
def stepsOf (i : Nat) (sched : Schedule) : List Nat := (sched.filter fun a => a.1 == i).map (·.2)

theorem run_alone (jobs : Nat → Job) (hd : ∀ i k, i ≠ k → (jobs i).path ≠ (jobs k).path) (i : Nat)
    (sched : Schedule) (s : State) :
    ((run jobs s sched).phase i, (run jobs s sched).disk (jobs i).path) =
      (jobs i).alone (s.phase i, s.disk (jobs i).path) (stepsOf i sched) := by
  induction sched generalizing s with
  | nil => rfl
  | cons a sched ih =>
    have hrun : run jobs s (a :: sched) = run jobs (s.step jobs a.1 a.2) sched := rfl
    rw [hrun, ih]
    by_cases h : a.1 = i
    · have h2 : stepsOf i (a :: sched) = a.2 :: stepsOf i sched := by simp [stepsOf, h]
      rw [h2]
      simp [Job.alone, State.step, h]
    · have h2 : stepsOf i (a :: sched) = stepsOf i sched := by simp [stepsOf, h]
      rw [h2]
      simp [State.step, Ne.symm h, hd i a.1 (Ne.symm h)]

/-- The states of one job that works on its file alone. -/
def Alone (j : Job) (f0 : Option Str) : Phase × Option Str → Prop
  | (.start, f) => f = f0
  | (.computing l, f) => f = f0 ∧ ∃ l0, readItems f0 = .ok l0 ∧ l = validateItems j.rhoToo j.hashes l0
  | (.writing rest pos, f) => ∃ l0 e w, readItems f0 = .ok l0 ∧ j.result = .ok (some e) ∧ f = some w ∧
      pos = w.length ∧ w ++ rest = textOf (j.update (validateItems j.rhoToo j.hashes l0) e)
  | (.done, f) => ∃ l0 e, readItems f0 = .ok l0 ∧ j.result = .ok (some e) ∧
      f = some (textOf (j.update (validateItems j.rhoToo j.hashes l0) e))
  | (.failed e, f) => f = f0 ∧ (readItems f0 = .error e ∨ ∃ l0, readItems f0 = .ok l0 ∧
      (j.result = .error e ∨ j.result = .ok none ∧ e = .exception))

theorem alone_step (j : Job) (f0 : Option Str) (n : Nat) (x : Phase × Option Str) (h : Alone j f0 x) :
    Alone j f0 (j.step n x) := by
  obtain ⟨ph, f⟩ := x
  cases ph with
  | start =>
    have h : f = f0 := h
    subst h
    simp only [Job.step]
    cases hr : readItems f with
    | error e => exact ⟨rfl, Or.inl hr⟩
    | ok l => exact ⟨rfl, l, hr, rfl⟩
  | computing l =>
    obtain ⟨rfl, l0, hl0, rfl⟩ := h
    simp only [Job.step]
    cases hr : j.result with
    | error e => exact ⟨rfl, Or.inr ⟨l0, hl0, Or.inl hr⟩⟩
    | ok r =>
      cases r with
      | none => exact ⟨rfl, Or.inr ⟨l0, hl0, Or.inr ⟨hr, rfl⟩⟩⟩
      | some e => exact ⟨l0, e, [], hl0, hr, rfl, rfl, rfl⟩
  | writing rest pos =>
    obtain ⟨l0, e, w, hl0, he, rfl, rfl, ht⟩ := h
    simp only [Job.step, Option.getD_some, overlay_append]
    by_cases hn : rest.length ≤ n
    · rw [if_pos hn, List.take_of_length_le hn]
      exact ⟨l0, e, hl0, he, by rw [ht]⟩
    · rw [if_neg hn]
      refine ⟨l0, e, w ++ rest.take n, hl0, he, rfl, by rw [List.length_append], ?_⟩
      rw [← ht, List.append_assoc, List.take_append_drop]
  | done => exact h
  | failed e => exact h

theorem alone_all (j : Job) (f0 : Option Str) (ns : List Nat) (x : Phase × Option Str) (h : Alone j f0 x) :
    Alone j f0 (j.alone x ns) := by
  induction ns generalizing x with
  | nil => exact h
  | cons n ns ih => exact ih _ (alone_step j f0 n x h)

/-- All jobs begin. -/
def begin (disk : Str → Option Str) : State := ⟨fun _ => .start, disk⟩

theorem update_valid {j : Job} {f0 : Option Str} (hf : Clean f0) {l0 e : List (Str × Json)}
    (h0 : readItems f0 = .ok l0) (he : (Json.dict e).Valid) :
    (Json.dict (j.update (validateItems j.rhoToo j.hashes l0) e)).Valid :=
  valid_validate _ _ _ (valid_set _ _ he _ (valid_validate j.rhoToo j.hashes l0 (readItems_clean hf h0)))

theorem view_update (number : Str → V) {j : Job} {f0 : Option Str} (hf : Clean f0) {l0 e : List (Str × Json)}
    (h0 : readItems f0 = .ok l0) (he : (Json.dict e).Valid) :
    view number (some (textOf (j.update (validateItems j.rhoToo j.hashes l0) e))) =
      .dict (validate j.rhoToo j.hashes
        ((validate j.rhoToo j.hashes (dictOfItems number l0)).set (tempStr j.temp) (.entry (entryOf number e)))) := by
  unfold view
  simp only
  rw [C50_text_round_trip number _ (update_valid hf h0 he)]
  unfold Job.update
  rw [dictOfItems_validate, dictOfItems_set number _ _ (.entry (entryOf number e)) rfl, dictOfItems_validate]

/-- C123: jobs that have different results files do not disturb each other, whatever the schedule is. A job that has
ended leaves in its file exactly what the calculation leaves that runs alone (`baseFunc`); one that fails leaves
its file as it was; before that the file holds its old text or the beginning of the new one; the other files do not
change. -/
theorem C123_own_file (number : Str → V) (jobs : Nat → Job)
    (hd : ∀ i k, i ≠ k → (jobs i).path ≠ (jobs k).path) (disk : Str → Option Str) (sched : Schedule) (i : Nat)
    (hf : Clean (disk (jobs i).path)) (hv : ∀ e, (jobs i).result = .ok (some e) → (Json.dict e).Valid) :
    let s := run jobs (begin disk) sched
    let p := (jobs i).path
    (∀ (float : Str → Except Err V) (killed : Bool) (out : Str) (e : List (Str × Json)),
      s.phase i = .done → (jobs i).result = .ok (some e) → compute float killed out = .ok (some (entryOf number e)) →
      baseFunc float (jobs i).rhoToo (jobs i).hashes (jobs i).temp killed out (view number (disk p)) =
        .ok (view number (s.disk p))) ∧
    (s.phase i = .done → ∃ e, (jobs i).result = .ok (some e)) ∧
    (∀ e, s.phase i = .failed e → s.disk p = disk p) ∧
    (s.disk p = disk p ∨ ∃ l n, (Json.dict l).Valid ∧ s.disk p = some ((textOf l).take n)) ∧
    (∀ q, (∀ k, (jobs k).path ≠ q) → s.disk q = disk q) := by
  intro s p
  have hA : Alone (jobs i) (disk p) (s.phase i, s.disk p) := by
    have := run_alone jobs hd i sched (begin disk)
    change (s.phase i, s.disk p) = _ at this
    rw [this]
    exact alone_all _ _ _ _ rfl
  refine ⟨?_, ?_, ?_, ?_, ?_⟩
  · intro float killed out e hdone he hc
    rw [hdone] at hA
    obtain ⟨l0, e', hl0, he', hfile⟩ := hA
    rw [he] at he'
    cases he'
    rw [hfile, view_update number hf hl0 (hv e he)]
    unfold baseFunc
    rw [readOld_view number hl0]
    simp only [bind, Except.bind, hc]
  · intro hdone
    rw [hdone] at hA
    obtain ⟨l0, e, -, he, -⟩ := hA
    exact ⟨e, he⟩
  · intro e hfail
    rw [hfail] at hA
    exact hA.1
  · cases hph : s.phase i with
    | start => rw [hph] at hA; exact Or.inl hA
    | computing l => rw [hph] at hA; exact Or.inl hA.1
    | failed e => rw [hph] at hA; exact Or.inl hA.1
    | writing rest pos =>
      rw [hph] at hA
      obtain ⟨l0, e, w, hl0, he, hw, -, ht⟩ := hA
      refine Or.inr ⟨_, w.length, update_valid (j := jobs i) hf hl0 (hv e he), ?_⟩
      rw [hw, ← ht]
      simp
    | done =>
      rw [hph] at hA
      obtain ⟨l0, e, hl0, he, hw⟩ := hA
      refine Or.inr ⟨_, (textOf ((jobs i).update (validateItems (jobs i).rhoToo (jobs i).hashes l0) e)).length,
        update_valid (j := jobs i) hf hl0 (hv e he), ?_⟩
      rw [hw, List.take_length]
  · intro q hq
    have : ∀ (sched : Schedule) (s : State), (run jobs s sched).disk q = s.disk q := by
      intro sched
      induction sched with
      | nil => intro s; rfl
      | cons a sched ih =>
        intro s
        have hrun : run jobs s (a :: sched) = run jobs (s.step jobs a.1 a.2) sched := rfl
        rw [hrun, ih]
        simp [State.step, Ne.symm (hq a.1)]
    exact this sched _

/-- C123: such a job ends when it gets enough turns: one for the read, one for the calculation, and at most one for
each character of the text. -/
theorem C123_ends (jobs : Nat → Job) (hd : ∀ i k, i ≠ k → (jobs i).path ≠ (jobs k).path)
    (disk : Str → Option Str) (sched : Schedule) (i : Nat) (l0 e : List (Str × Json))
    (h0 : readItems (disk (jobs i).path) = .ok l0) (he : (jobs i).result = .ok (some e))
    (hn : ∀ n ∈ stepsOf i sched, 1 ≤ n)
    (hl : (textOf ((jobs i).update (validateItems (jobs i).rhoToo (jobs i).hashes l0) e)).length + 2 ≤
      (stepsOf i sched).length) :
    (run jobs (begin disk) sched).phase i = .done := by
  have key : ∀ (ns : List Nat) (rest : Str) (pos : Nat) (f : Option Str), (∀ n ∈ ns, 1 ≤ n) → rest ≠ [] →
      rest.length ≤ ns.length → ((jobs i).alone (.writing rest pos, f) ns).1 = .done := by
    intro ns
    induction ns with
    | nil =>
      intro rest pos f _ hr hl
      simp at hl
      exact absurd hl hr
    | cons n ns ih =>
      intro rest pos f hn hr hl
      have h1 := hn n (by simp)
      have hstep : (jobs i).alone (.writing rest pos, f) (n :: ns) =
          (jobs i).alone ((jobs i).step n (.writing rest pos, f)) ns := rfl
      rw [hstep]
      simp only [Job.step]
      by_cases hle : rest.length ≤ n
      · rw [if_pos hle]
        have : ∀ (ns : List Nat) f, (jobs i).alone (.done, f) ns = (.done, f) := by
          intro ns
          induction ns with
          | nil => intro f; rfl
          | cons n ns ih => intro f; exact ih f
        rw [this]
      · rw [if_neg hle]
        refine ih _ _ _ (fun n hn' => hn n (List.mem_cons_of_mem _ hn')) ?_ ?_
        · intro h
          rw [List.drop_eq_nil_iff] at h
          exact hle h
        · rw [List.length_drop]
          simp only [List.length_cons] at hl
          omega
  have := congrArg Prod.fst (run_alone jobs hd i sched (begin disk))
  simp only at this
  rw [this]
  generalize hns : stepsOf i sched = ns at hn hl
  match ns, hn, hl with
  | [], _, hl => simp at hl
  | [_], _, hl =>
    have := textOf_pos ((jobs i).update (validateItems (jobs i).rhoToo (jobs i).hashes l0) e)
    simp at hl
  | a :: b :: ns, hn, hl =>
    have e1 : (jobs i).alone ((begin disk).phase i, (begin disk).disk (jobs i).path) (a :: b :: ns) =
        (jobs i).alone (.writing (textOf ((jobs i).update (validateItems (jobs i).rhoToo (jobs i).hashes l0) e)) 0,
          some []) ns := by
      simp [Job.alone, Job.step, begin, h0, he]
    rw [e1]
    refine key ns _ _ _ (fun n h => hn n (by simp [h])) ?_ ?_
    · have := textOf_pos ((jobs i).update (validateItems (jobs i).rhoToo (jobs i).hashes l0) e)
      intro h
      rw [h] at this
      simp at this
    · simp only [List.length_cons] at hl
      omega

/-! ### One results file -/

/-- Two jobs. -/
def two (a b : Job) : Nat → Job := fun i => if i = 0 then a else b

/-- The text that a job writes that has read the items `l`. -/
def written (j : Job) (l e : List (Str × Json)) : Str :=
  textOf (j.update (validateItems j.rhoToo j.hashes l) e)

theorem overlay_longer (old new : Str) (h : new.length ≤ old.length) :
    overlay old 0 new = new ++ old.drop new.length := by
  simp [overlay]

theorem overlay_shorter (old new : Str) (h : old.length ≤ new.length) : overlay old 0 new = new := by
  simp [overlay, h]

section
variable {a b : Job} {disk : Str → Option Str} {l0 ea eb : List (Str × Json)}

theorem run_lost (hp : b.path = a.path) (h0 : readItems (disk a.path) = .ok l0)
    (ha : a.result = .ok (some ea)) (hb : b.result = .ok (some eb)) (N M : Nat)
    (hN : (written a l0 ea).length ≤ N) (hM : (written b l0 eb).length ≤ M) :
    let s := run (two a b) (begin disk) [(0, 0), (1, 0), (0, 0), (0, N), (1, 0), (1, M)]
    s.phase 0 = .done ∧ s.phase 1 = .done ∧ s.disk a.path = some (written b l0 eb) := by
  unfold written at *
  simp [run, State.step, two, begin, Job.step, h0, ha, hb, hp, hN, hM, overlay_zero, List.take_of_length_le]

theorem run_torn (hp : b.path = a.path) (h0 : readItems (disk a.path) = .ok l0)
    (ha : a.result = .ok (some ea)) (hb : b.result = .ok (some eb)) (N M : Nat)
    (hN : (written a l0 ea).length ≤ N) (hM : (written b [] eb).length ≤ M) :
    let s := run (two a b) (begin disk) [(0, 0), (0, 0), (1, 0), (0, N), (1, 0), (1, M)]
    s.phase 0 = .done ∧ s.phase 1 = .done ∧ s.disk a.path = some (written b [] eb) := by
  have hr : readItems (some []) = .ok [] := rfl
  unfold written at *
  simp [run, State.step, two, begin, Job.step, h0, ha, hb, hp, hN, hM, overlay_zero, List.take_of_length_le, hr]

theorem run_both (hp : b.path = a.path) (h0 : readItems (disk a.path) = .ok l0)
    (ha : a.result = .ok (some ea)) (hb : b.result = .ok (some eb)) (N M : Nat)
    (hN : (written a l0 ea).length ≤ N) (hM : (written b l0 eb).length ≤ M) :
    let s := run (two a b) (begin disk) [(0, 0), (1, 0), (0, 0), (1, 0), (0, N), (1, M)]
    s.phase 0 = .done ∧ s.phase 1 = .done ∧
      s.disk a.path = some (overlay (written a l0 ea) 0 (written b l0 eb)) := by
  unfold written at *
  simp [run, State.step, two, begin, Job.step, h0, ha, hb, hp, hN, hM, overlay_zero, List.take_of_length_le]

theorem run_half (hp : b.path = a.path) (h0 : readItems (disk a.path) = .ok l0)
    (ha : a.result = .ok (some ea)) (n : Nat) (hn : n < (written a l0 ea).length) :
    let s := run (two a b) (begin disk) [(0, 0), (0, 0), (0, n), (1, 0)]
    s.phase 1 = (match readItems (some ((written a l0 ea).take n)) with
      | .error e => .failed e
      | .ok l => .computing (validateItems b.rhoToo b.hashes l)) := by
  unfold written at *
  simp only [run, State.step, two, begin, Job.step, h0, ha, hp, overlay_zero, List.foldl_cons, List.foldl_nil, if_true,
    Option.getD_some, if_neg (by decide : ¬ (1 : Nat) = 0)]
  cases readItems (some ((textOf (a.update (validateItems a.rhoToo a.hashes l0) ea)).take n)) <;> rfl

end

/-- A result that is there for the present model. -/
def Has (number : Str → V) (h : Str) (f : Option Str) (T : Nat) (x : Str → Option V) : Prop :=
  ∃ D, view number f = .dict D ∧ D c!"hash_vib" = some (.hash h) ∧ D (tempStr T) = some (.entry x)

/-- Nothing is there for a temperature. -/
def Missing (number : Str → V) (h : Str) (f : Option Str) (T : Nat) : Prop :=
  ∀ D, view number f = .dict D → D c!"hash_vib" = some (.hash h) → D (tempStr T) = none

theorem view_written (number : Str → V) {j : Job} {f0 : Option Str} (hf : Clean f0) {l0 e : List (Str × Json)}
    (h0 : readItems f0 = .ok l0) (he : (Json.dict e).Valid) (hr : j.rhoToo = false) :
    view number (some (written j l0 e)) =
      .dict ((validate false j.hashes (dictOfItems number l0)).set (tempStr j.temp) (.entry (entryOf number e))) := by
  unfold written
  rw [view_update number hf h0 he, hr]
  congr 1
  have hc : Carries (.sos 0) j.hashes ((validate false j.hashes (dictOfItems number l0)).set (tempStr j.temp)
      (.entry (entryOf number e))) := by
    refine ⟨?_, fun h => by cases h⟩
    rw [set_other _ _ _ _ (tempStr_ne_hash_vib _).symm]
    exact (validate_carries (.sos 0) j.hashes _).1
  exact validate_of_carries (.sos 0) j.hashes _ hc

theorem validate_current (h : Hashes) (d : ADict V) (hd : d c!"hash_vib" = some (.hash h.vib)) :
    validate false h d = d := validate_of_carries (.sos 0) h d ⟨hd, fun h => by cases h⟩

theorem validate_stale (h : Hashes) (d : ADict V) (hd : d c!"hash_vib" ≠ some (.hash h.vib)) (T : Nat) :
    validate false h d (tempStr T) = none :=
  validate_of_not_carries (.sos 0) h d (fun hc => hd hc.1) _ (tempStr_ne_hash_vib T) (tempStr_ne_hash_rho T)

theorem validate_vib (h : Hashes) (d : ADict V) : validate false h d c!"hash_vib" = some (.hash h.vib) :=
  (validate_carries (.sos 0) h d).1

/-- C123 fails for two temperatures, which share a results file: whatever they are and whatever the file
held, there is a schedule in which both jobs end without an error and the result of the first one is lost. -/
theorem C123_lost_update_refuted (number : Str → V) (a b : Job) (hp : b.path = a.path) (hT : a.temp ≠ b.temp)
    (hh : b.hashes = a.hashes) (rb : b.rhoToo = false) (disk : Str → Option Str)
    (hf : Clean (disk a.path)) (l0 ea eb : List (Str × Json)) (h0 : readItems (disk a.path) = .ok l0)
    (ha : a.result = .ok (some ea)) (hb : b.result = .ok (some eb))
    (vb : (Json.dict eb).Valid) (hm : Missing number a.hashes.vib (disk a.path) a.temp) :
    ∃ sched, let s := run (two a b) (begin disk) sched
      s.phase 0 = .done ∧ s.phase 1 = .done ∧
      Has number a.hashes.vib (s.disk a.path) b.temp (entryOf number eb) ∧
      Missing number a.hashes.vib (s.disk a.path) a.temp := by
  refine ⟨[(0, 0), (1, 0), (0, 0), (0, (written a l0 ea).length), (1, 0), (1, (written b l0 eb).length)], ?_⟩
  obtain ⟨h1, h2, h3⟩ := run_lost hp h0 ha hb _ _ (Nat.le_refl _) (Nat.le_refl _)
  refine ⟨h1, h2, ?_, ?_⟩
  · rw [h3]
    refine ⟨_, view_written number hf h0 vb rb, ?_, ?_⟩
    · rw [set_other _ _ _ _ (tempStr_ne_hash_vib _).symm, hh]
      exact validate_vib _ _
    · rw [set_same]
  · rw [h3]
    intro D hD hv
    rw [view_written number hf h0 vb rb] at hD
    cases hD
    rw [set_other _ _ _ _ (fun h => hT (tempStr_injective h)), hh]
    by_cases hc : dictOfItems number l0 c!"hash_vib" = some (.hash a.hashes.vib)
    · rw [validate_current _ _ hc]
      cases hfile : view number (disk a.path) with
      | dict D' =>
        have := readOld_view number h0
        rw [hfile] at this
        cases this
        exact hm _ hfile hc
      | absent =>
        have := readOld_view number h0
        rw [hfile] at this
        simp only [readOld, Except.ok.injEq] at this
        rw [← this]
      | short =>
        have := readOld_view number h0
        rw [hfile] at this
        simp only [readOld, Except.ok.injEq] at this
        rw [← this]
      | broken =>
        have := readOld_view number h0
        rw [hfile] at this
        cases this
    · exact validate_stale _ _ hc _

/-- C123 fails: a job that reads the file while another one has just opened it for writing finds it empty, and in
the end every result that was there before is lost, whatever the file held; again both jobs end without an
error. -/
theorem C123_old_results_lost_refuted (number : Str → V) (a b : Job) (hp : b.path = a.path)
    (hh : b.hashes = a.hashes) (rb : b.rhoToo = false) (disk : Str → Option Str)
    (l0 ea eb : List (Str × Json)) (h0 : readItems (disk a.path) = .ok l0)
    (ha : a.result = .ok (some ea)) (hb : b.result = .ok (some eb)) (vb : (Json.dict eb).Valid) :
    ∃ sched, let s := run (two a b) (begin disk) sched
      s.phase 0 = .done ∧ s.phase 1 = .done ∧
      Has number a.hashes.vib (s.disk a.path) b.temp (entryOf number eb) ∧
      ∀ T, T ≠ b.temp → Missing number a.hashes.vib (s.disk a.path) T := by
  refine ⟨[(0, 0), (0, 0), (1, 0), (0, (written a l0 ea).length), (1, 0), (1, (written b [] eb).length)], ?_⟩
  obtain ⟨h1, h2, h3⟩ := run_torn hp h0 ha hb _ _ (Nat.le_refl _) (Nat.le_refl _)
  have hw := view_written number (j := b) (f0 := none) (Or.inl rfl) (l0 := []) rfl vb rb
  refine ⟨h1, h2, ?_, ?_⟩
  · rw [h3]
    refine ⟨_, hw, ?_, ?_⟩
    · rw [set_other _ _ _ _ (tempStr_ne_hash_vib _).symm, hh]
      exact validate_vib _ _
    · rw [set_same]
  · intro T hT
    rw [h3]
    intro D hD hv
    rw [hw] at hD
    cases hD
    rw [set_other _ _ _ _ (fun h => hT (tempStr_injective h))]
    exact validate_stale _ _ (by simp [dictOfItems, dictGet]) _

theorem alone_failed (j : Job) (e : Err) (f : Option Str) (ns : List Nat) :
    j.alone (.failed e, f) ns = (.failed e, f) := by
  induction ns with
  | nil => rfl
  | cons n ns ih => exact ih

theorem alone_unreadable (j : Job) {f : Option Str} {e : Err} (h : readItems f = .error e) {ns : List Nat}
    (hn : ns ≠ []) : j.alone (.start, f) ns = (.failed e, f) := by
  cases ns with
  | nil => exact absurd rfl hn
  | cons n ns =>
    have hs : j.step n (.start, f) = (.failed e, f) := by simp only [Job.step, h]
    have : j.alone (.start, f) (n :: ns) = j.alone (j.step n (.start, f)) ns := rfl
    rw [this, hs, alone_failed]

/-- C123: a results file that holds no dictionary is left as it is, and the job fails before it calculates: with a
ValueError when the text is no JSON, an AttributeError for a text, and a TypeError for everything else. -/
theorem C123_no_dictionary (jobs : Nat → Job) (hd : ∀ i k, i ≠ k → (jobs i).path ≠ (jobs k).path)
    (disk : Str → Option Str) (sched : Schedule) (i : Nat) (text : Str)
    (hf : disk (jobs i).path = some text) (hlen : 2 ≤ text.length) (hs : ∃ n, (i, n) ∈ sched) :
    let s := run jobs (begin disk) sched
    ((∀ v, loads text ≠ .ok v) → s.phase i = .failed .value ∧ s.disk (jobs i).path = some text) ∧
    (∀ t, loads text = .ok (.str t) → ¬ c!"hash_vib" <:+: t →
      s.phase i = .failed .attribute ∧ s.disk (jobs i).path = some text) ∧
    (∀ v, loads text = .ok v → (∀ t, v ≠ .str t) → (∀ l, v ≠ .dict l) →
      s.phase i = .failed .type ∧ s.disk (jobs i).path = some text) := by
  have hne : stepsOf i sched ≠ [] := by
    obtain ⟨n, hn⟩ := hs
    intro h
    have : n ∈ stepsOf i sched := by
      simp only [stepsOf, List.mem_map, List.mem_filter]
      exact ⟨(i, n), ⟨hn, by simp⟩, rfl⟩
    rw [h] at this
    exact absurd this (by simp)
  have hlen' : 1 < text.length := by omega
  have key : ∀ e, readItems (some text) = .error e →
      (run jobs (begin disk) sched).phase i = .failed e ∧
        (run jobs (begin disk) sched).disk (jobs i).path = some text := by
    intro e he
    have h := run_alone jobs hd i sched (begin disk)
    have hb : ((begin disk).phase i, (begin disk).disk (jobs i).path) = (Phase.start, some text) := by
      simp only [begin, hf]
    rw [hb, alone_unreadable (jobs i) he hne] at h
    exact ⟨(Prod.mk.inj h).1, (Prod.mk.inj h).2⟩
  refine ⟨fun h => key _ ?_, fun t h _ => key _ ?_, fun v h h1 h2 => key _ ?_⟩
  · cases hl : loads text with
    | ok v => exact absurd hl (h v)
    | error e =>
      have := loads_error hl
      subst this
      simp only [readItems, hlen', if_true, hl]
  · simp only [readItems, hlen', if_true, h]
  · cases v with
    | str t => exact absurd rfl (h1 t)
    | dict l => exact absurd rfl (h2 l)
    | _ => simp only [readItems, hlen', if_true, h]

/-- A list in the results file of the first of two jobs. -/
example : 2 ≤ (dumpsDefault (.list [.null, .null])).length ∧
    ∃ v, loads (dumpsDefault (.list [.null, .null])) = .ok v ∧ (∀ t, v ≠ .str t) ∧ ∀ l, v ≠ .dict l :=
  ⟨by decide +kernel, .list [.null, .null], loads_dumpsDefault _ (by simp [Json.Valid, validItems]), by simp, by simp⟩

/-- C123 fails: a job that reads the file while another one is in the middle of writing it ends with a ValueError,
without calculating. -/
theorem C123_half_file_refuted (a b : Job) (hp : b.path = a.path) (disk : Str → Option Str)
    (hf : Clean (disk a.path)) (l0 ea : List (Str × Json)) (h0 : readItems (disk a.path) = .ok l0)
    (ha : a.result = .ok (some ea)) (va : (Json.dict ea).Valid) (n : Nat) (h2 : 2 ≤ n)
    (hn : n < (written a l0 ea).length) :
    (run (two a b) (begin disk) [(0, 0), (0, 0), (0, n), (1, 0)]).phase 1 = .failed .value := by
  rw [run_half hp h0 ha n hn]
  have := (C50_incomplete_file (fun s => s) _ (update_valid (j := a) hf h0 va) n hn).1
  have hlen : 1 < ((written a l0 ea).take n).length := by
    rw [List.length_take]; omega
  have hr : readItems (some ((written a l0 ea).take n)) = .error .value := by
    unfold readItems
    simp only [hlen, if_true]
    rw [show loads ((written a l0 ea).take n) = .error .value from this]
  rw [hr]

theorem textOf_last (l : List (Str × Json)) : (textOf l).getLast? = some '}' := by
  have hp : ∀ l : List (Str × Json), (dumpsDefaultPairs l).getLast? = some '}' := by
    intro l
    induction l with
    | nil => rw [dumpsDefaultPairs]; rfl
    | cons p l ih =>
      obtain ⟨k, v⟩ := p
      rw [dumpsDefaultPairs]
      rw [show (',' :: ' ' :: (encStr k ++ ':' :: ' ' :: (dumpsDefault v ++ dumpsDefaultPairs l))) =
        (',' :: ' ' :: (encStr k ++ ':' :: ' ' :: dumpsDefault v)) ++ dumpsDefaultPairs l by simp,
        List.getLast?_append, ih]
      rfl
  unfold textOf
  rcases l with _ | ⟨⟨k, v⟩, l⟩
  · rw [dumpsDefault]; rfl
  · rw [dumpsDefault, show ('{' :: (encStr k ++ ':' :: ' ' :: (dumpsDefault v ++ dumpsDefaultPairs l))) =
        ('{' :: (encStr k ++ ':' :: ' ' :: dumpsDefault v)) ++ dumpsDefaultPairs l by simp,
        List.getLast?_append, hp]
    rfl

theorem skipWs_ne_nil {s : Str} (h : '}' ∈ s) : skipWs s ≠ [] := by
  induction s with
  | nil => cases h
  | cons c s ih =>
    rcases List.mem_cons.1 h with rfl | h
    · simp [skipWs]
    · rw [skipWs]
      split
      · exact ih h
      · simp

theorem loads_rest (l : List (Str × Json)) (hl : (Json.dict l).Valid) (rest : Str) (hr : '}' ∈ rest) :
    loads (textOf l ++ rest) = .error .value := by
  have h := scanValue_dumpsDefault (.dict l) hl ((dumpsDefault (.dict l)).length + 1) [] (by omega) (by simp [Stop])
  rw [List.append_nil] at h
  obtain ⟨r, hr0⟩ : ∃ r, textOf l = '{' :: r := by
    unfold textOf
    rcases l with _ | ⟨⟨k, v⟩, l⟩ <;> rw [dumpsDefault] <;> exact ⟨_, rfl⟩
  change scanValue ((textOf l).length + 1) (textOf l) = _ at h
  have h2 := scanValue_append _ ((textOf l ++ rest).length + 1) (by simp) (textOf l) rest _ h
    (.inl (scanValue_closed (c := '{') (r := r) (Or.inr (Or.inr rfl)) (by rw [← hr0]; exact h)))
  unfold loads
  have hs : skipWs (textOf l ++ rest) = textOf l ++ rest := by
    rw [hr0]; simp [skipWs]
  rw [hs, h2]
  simp only [bind, Except.bind, List.nil_append]
  cases hw : skipWs rest with
  | nil => exact absurd hw (skipWs_ne_nil hr)
  | cons c t => rfl

/-- C123 fails: when two jobs open the file before either writes and their texts have different lengths, there is a
schedule in which both end without an error and leave a file that nothing can read: the rest of the longer text
stands behind the shorter one. From then on every calculation for this file ends with ValueError. -/
theorem C123_unreadable_refuted (a b : Job) (hp : b.path = a.path) (disk : Str → Option Str)
    (hf : Clean (disk a.path)) (l0 ea eb : List (Str × Json)) (h0 : readItems (disk a.path) = .ok l0)
    (ha : a.result = .ok (some ea)) (hb : b.result = .ok (some eb))
    (vb : (Json.dict eb).Valid) (hlen : (written b l0 eb).length < (written a l0 ea).length) :
    ∃ sched, let s := run (two a b) (begin disk) sched
      s.phase 0 = .done ∧ s.phase 1 = .done ∧ readItems (s.disk a.path) = .error .value ∧
      ∀ (c : Job) (n : Nat), (c.step n (.start, s.disk a.path)).1 = .failed .value := by
  refine ⟨[(0, 0), (1, 0), (0, 0), (1, 0), (0, (written a l0 ea).length), (1, (written b l0 eb).length)], ?_⟩
  obtain ⟨h1, h2, h3⟩ := run_both hp h0 ha hb _ _ (Nat.le_refl _) (Nat.le_refl _)
  have hr : readItems (some (overlay (written a l0 ea) 0 (written b l0 eb))) = .error .value := by
    rw [overlay_longer _ _ (by omega)]
    unfold readItems
    have hl2 : 1 < (written b l0 eb ++ (written a l0 ea).drop (written b l0 eb).length).length := by
      have := textOf_pos (b.update (validateItems b.rhoToo b.hashes l0) eb)
      rw [List.length_append]
      unfold written at *
      omega
    simp only [hl2, if_true]
    have hlast : '}' ∈ (written a l0 ea).drop (written b l0 eb).length := by
      have h4 := textOf_last (a.update (validateItems a.rhoToo a.hashes l0) ea)
      change (written a l0 ea).getLast? = some '}' at h4
      rw [← List.take_append_drop (written b l0 eb).length (written a l0 ea), List.getLast?_append] at h4
      cases h5 : ((written a l0 ea).drop (written b l0 eb).length).getLast? with
      | none =>
        rw [List.getLast?_eq_none_iff, List.drop_eq_nil_iff] at h5
        omega
      | some c =>
        rw [h5] at h4
        simp only [Option.some_or, Option.some.injEq] at h4
        rw [← h4]
        exact List.mem_of_getLast? h5
    rw [show loads (written b l0 eb ++ _) = .error .value from
      loads_rest _ (update_valid (j := b) hf h0 vb) _ hlast]
  refine ⟨h1, h2, by rw [h3]; exact hr, ?_⟩
  intro c n
  rw [h3]
  simp only [Job.step, hr]

/-- The items of a sum over states with one number. -/
def result0 (z : Str) : List (Str × Json) := [(c!"Z_sos", .float z)]

/-- Two jobs for the same file: 1.5 at 300 K, 2.5 at 310 K. -/
def job0 (T : Nat) (z : Str) : Job := ⟨c!"/f", false, ⟨c!"h", c!"r"⟩, T, .ok (some (result0 z))⟩

theorem valid_result0 : (Json.dict (result0 c!"1.5")).Valid ∧ (Json.dict (result0 c!"2.5")).Valid := by
  constructor <;> simp only [Json.Valid, validPairs, result0] <;> refine ⟨by decide, ?_, trivial⟩
  · exact .inr (.inr (.inr ⟨[], c!"1", c!".5", [], rfl, .inl rfl,
      .inr ⟨'1', [], rfl, by decide, by decide⟩, .inr ⟨['5'], by decide, by decide, rfl⟩, .inl rfl,
      .inl (by decide)⟩))
  · exact .inr (.inr (.inr ⟨[], c!"2", c!".5", [], rfl, .inl rfl,
      .inr ⟨'2', [], rfl, by decide, by decide⟩, .inr ⟨['5'], by decide, by decide, rfl⟩, .inl rfl,
      .inl (by decide)⟩))

/-- C123 fails: while the second of two jobs replaces the text of the first one, the file can be read, and the number
of the first job stands under the temperature of the second. If the second job is killed it stays there. -/
theorem C123_mixed_refuted :
    let a := job0 30000 c!"1.5"
    let b := job0 31000 c!"2.5"
    ∃ sched, let s := run (two a b) (begin fun _ => none) sched
      Has (fun t => t) c!"h" (s.disk c!"/f") 31000 (entryOf (fun t => t) (result0 c!"1.5")) := by
  intro a b
  refine ⟨[(0, 0), (1, 0), (0, 0), (1, 0), (0, 100), (1, 30)], ?_⟩
  have hfile : (run (two a b) (begin fun _ => none)
      [(0, 0), (1, 0), (0, 0), (1, 0), (0, 100), (1, 30)]).disk c!"/f" = some (written (job0 31000 c!"1.5") []
        (result0 c!"1.5")) := by decide +kernel
  simp only
  rw [hfile]
  have hw := view_written (fun t : Str => t) (j := job0 31000 c!"1.5") (f0 := none) (Or.inl rfl) (l0 := []) rfl
    valid_result0.1 rfl
  refine ⟨_, hw, ?_, ?_⟩
  · rw [set_other _ _ _ _ (tempStr_ne_hash_vib _).symm]
    exact validate_vib _ _
  · exact set_same _ _ _

/-! ### Repeating the submission -/

/-- No job does anything while another one writes. -/
def Orderly (jobs : Nat → Job) (s : State) (sched : Schedule) : Prop :=
  ∀ before a after, sched = before ++ a :: after → ∀ i rest pos,
    (run jobs s before).phase i = .writing rest pos → a.1 = i

/-- The jobs for one results file, numbered by their temperatures. -/
structure OneFile (jobs : Nat → Job) (p : Str) (h : Hashes) (e : Nat → List (Str × Json)) : Prop where
  path : ∀ T, (jobs T).path = p
  hashes : ∀ T, (jobs T).hashes = h
  rho : ∀ T, (jobs T).rhoToo = false
  temp : ∀ T, (jobs T).temp = T
  result : ∀ T, (jobs T).result = .ok (some (e T))
  valid : ∀ T, (Json.dict (e T)).Valid

section
variable (number : Str → V) (h : Hashes) (e : Nat → List (Str × Json)) (ids : List Nat) (l0 : List (Str × Json))

/-- The results that were there at the beginning. -/
def Old (T : Nat) (x : AVal V) : Prop :=
  dictOfItems number l0 c!"hash_vib" = some (.hash h.vib) ∧ dictOfItems number l0 (tempStr T) = some x

/-- A dictionary with the results that were there, and perhaps some of the jobs. -/
structure Good (l : List (Str × Json)) : Prop where
  valid : (Json.dict l).Valid
  hash : dictOfItems number l c!"hash_vib" = some (.hash h.vib)
  honest : ∀ T x, dictOfItems number l (tempStr T) = some x →
    Old number h l0 T x ∨ T ∈ ids ∧ x = .entry (entryOf number (e T))
  keeps : ∀ T x, Old number h l0 T x → T ∉ ids → dictOfItems number l (tempStr T) = some x

/-- One result of the jobs is in a dictionary. -/
def Gains (l : List (Str × Json)) : Prop :=
  ∃ T ∈ ids, dictOfItems number l (tempStr T) = some (.entry (entryOf number (e T)))

variable {number h e ids l0}

theorem good_validate (hv : (Json.dict l0).Valid) : Good number h e ids l0 (validateItems false h l0) where
  valid := valid_validate _ _ _ hv
  hash := by rw [dictOfItems_validate]; exact validate_vib _ _
  honest := by
    intro T x hx
    rw [dictOfItems_validate] at hx
    by_cases hc : dictOfItems number l0 c!"hash_vib" = some (.hash h.vib)
    · rw [validate_current _ _ hc] at hx
      exact Or.inl ⟨hc, hx⟩
    · rw [validate_stale _ _ hc] at hx
      cases hx
  keeps := by
    intro T x hx _
    rw [dictOfItems_validate, validate_current _ _ hx.1]
    exact hx.2

theorem good_again {l : List (Str × Json)} (hg : Good number h e ids l0 l) :
    Good number h e ids l0 (validateItems false h l) := by
  have he : dictOfItems number (validateItems false h l) = dictOfItems number l := by
    rw [dictOfItems_validate, validate_current _ _ hg.hash]
  exact ⟨valid_validate _ _ _ hg.valid, by rw [he]; exact hg.hash, fun T x hx => hg.honest T x (by rw [← he]; exact hx),
    fun T x ho hn => by rw [he]; exact hg.keeps T x ho hn⟩

theorem good_update {jobs : Nat → Job} {p : Str} (ho : OneFile jobs p h e) {l : List (Str × Json)}
    (hg : Good number h e ids l0 l) {T : Nat} (hT : T ∈ ids) :
    Good number h e ids l0 ((jobs T).update l (e T)) ∧ Gains number e ids ((jobs T).update l (e T)) := by
  have hd : dictOfItems number ((jobs T).update l (e T)) =
      (dictOfItems number l).set (tempStr T) (.entry (entryOf number (e T))) := by
    unfold Job.update
    rw [ho.rho, ho.hashes, ho.temp, dictOfItems_validate, dictOfItems_set number _ _ (.entry (entryOf number (e T))) rfl]
    apply validate_current
    rw [set_other _ _ _ _ (tempStr_ne_hash_vib _).symm]
    exact hg.hash
  refine ⟨⟨valid_validate _ _ _ (valid_set _ _ (ho.valid T) _ hg.valid), ?_, ?_, ?_⟩, T, hT, ?_⟩
  · rw [hd, set_other _ _ _ _ (tempStr_ne_hash_vib _).symm]
    exact hg.hash
  · intro T' x hx
    rw [hd] at hx
    by_cases ht : T' = T
    · subst ht
      rw [set_same] at hx
      cases hx
      exact Or.inr ⟨hT, rfl⟩
    · rw [set_other _ _ _ _ (fun h => ht (tempStr_injective h))] at hx
      exact hg.honest T' x hx
  · intro T' x hx hn
    rw [hd, set_other _ _ _ _ (fun h => hn (by rw [tempStr_injective h]; exact hT))]
    exact hg.keeps T' x hx hn
  · rw [hd, set_same]

/-- The invariant of orderly schedules. -/
structure Inv (number : Str → V) (p : Str) (h : Hashes) (e : Nat → List (Str × Json))
    (ids : List Nat) (l0 : List (Str × Json)) (f0 : Option Str) (s : State) : Prop where
  mem : ∀ T l, s.phase T = .computing l → Good number h e ids l0 l
  quiet : (∀ T rest pos, s.phase T ≠ .writing rest pos) →
    ((∀ T, s.phase T ≠ .done) ∧ s.disk p = f0) ∨
    ∃ l, s.disk p = some (textOf l) ∧ Good number h e ids l0 l ∧ Gains number e ids l
  busy : ∀ T rest pos, s.phase T = .writing rest pos →
    (∀ T' rest' pos', s.phase T' = .writing rest' pos' → T' = T) ∧
    ∃ w l, s.disk p = some w ∧ pos = w.length ∧ w ++ rest = textOf l ∧ Good number h e ids l0 l ∧ Gains number e ids l
  fails : ∀ T err, s.phase T ≠ .failed err

theorem inv_step {jobs : Nat → Job} {p : Str} (ho : OneFile jobs p h e) {f0 : Option Str}
    (h0 : readItems f0 = .ok l0) (hv : (Json.dict l0).Valid) {s : State}
    (hi : Inv number p h e ids l0 f0 s) {T : Nat} (hT : T ∈ ids) (n : Nat)
    (hw : ∀ i rest pos, s.phase i = .writing rest pos → T = i) :
    Inv number p h e ids l0 f0 (s.step jobs T n) := by
  have hph : ∀ k, (s.step jobs T n).phase k =
      if k = T then ((jobs T).step n (s.phase T, s.disk p)).1 else s.phase k := by
    intro k; simp only [State.step, ho.path]
  have hdk : (s.step jobs T n).disk p = ((jobs T).step n (s.phase T, s.disk p)).2 := by
    simp only [State.step, ho.path, if_true]
  generalize hs' : s.step jobs T n = s' at hph hdk
  have other : ∀ k, k ≠ T → s'.phase k = s.phase k := fun k hk => by rw [hph, if_neg hk]
  have own : s'.phase T = ((jobs T).step n (s.phase T, s.disk p)).1 := by rw [hph, if_pos rfl]
  cases hp : s.phase T with
  | start =>
    have nowriter : ∀ i rest pos, s.phase i ≠ .writing rest pos := by
      intro i rest pos hi'
      have := hw i rest pos hi'
      subst this
      rw [hp] at hi'
      cases hi'
    obtain ⟨l, hl, hg⟩ : ∃ l, readItems (s.disk p) = .ok l ∧ Good number h e ids l0 (validateItems false h l) := by
      rcases hi.quiet nowriter with ⟨-, hf⟩ | ⟨l, hf, hg, -⟩
      · exact ⟨l0, by rw [hf]; exact h0, good_validate hv⟩
      · exact ⟨l, by rw [hf]; exact readItems_textOf l hg.valid, good_again hg⟩
    have hstep : (jobs T).step n (.start, s.disk p) = (.computing (validateItems false h l), s.disk p) := by
      simp only [Job.step, hl, ho.rho, ho.hashes]
    rw [hp, hstep] at own hdk
    have nw' : ∀ i rest pos, s'.phase i ≠ .writing rest pos := by
      intro i rest pos
      by_cases hiT : i = T
      · rw [hiT, own]; intro hc; cases hc
      · rw [other i hiT]; exact nowriter i rest pos
    refine ⟨?_, ?_, ?_, ?_⟩
    · intro i m hm
      by_cases hiT : i = T
      · rw [hiT, own] at hm; cases hm; exact hg
      · rw [other i hiT] at hm; exact hi.mem i m hm
    · intro _
      rw [hdk]
      rcases hi.quiet nowriter with ⟨hd, hf⟩ | hx
      · refine Or.inl ⟨fun i => ?_, hf⟩
        by_cases hiT : i = T
        · rw [hiT, own]; intro hc; cases hc
        · rw [other i hiT]; exact hd i
      · exact Or.inr hx
    · intro i rest pos hc
      exact absurd hc (nw' i rest pos)
    · intro i err
      by_cases hiT : i = T
      · rw [hiT, own]; intro hc; cases hc
      · rw [other i hiT]; exact hi.fails i err
  | computing l =>
    have nowriter : ∀ i rest pos, s.phase i ≠ .writing rest pos := by
      intro i rest pos hi'
      have := hw i rest pos hi'
      subst this
      rw [hp] at hi'
      cases hi'
    obtain ⟨hg, hgain⟩ := good_update ho (hi.mem T l hp) hT
    have hstep : (jobs T).step n (.computing l, s.disk p) =
        (.writing (textOf ((jobs T).update l (e T))) 0, some []) := by
      simp only [Job.step, ho.result]
    rw [hp, hstep] at own hdk
    refine ⟨?_, ?_, ?_, ?_⟩
    · intro i m hm
      by_cases hiT : i = T
      · rw [hiT, own] at hm; cases hm
      · rw [other i hiT] at hm; exact hi.mem i m hm
    · intro hn
      exact absurd own (hn T _ _)
    · intro i rest pos hc
      by_cases hiT : i = T
      · subst hiT
        rw [own] at hc
        cases hc
        refine ⟨?_, [], _, hdk, rfl, rfl, hg, hgain⟩
        intro k rest' pos' hk
        by_contra hne
        rw [other k hne] at hk
        exact nowriter k _ _ hk
      · rw [other i hiT] at hc
        exact absurd hc (nowriter i rest pos)
    · intro i err
      by_cases hiT : i = T
      · rw [hiT, own]; intro hc; cases hc
      · rw [other i hiT]; exact hi.fails i err
  | writing rest pos =>
    obtain ⟨honly, w, l, hf, rfl, ht, hg, hgain⟩ := hi.busy T rest pos hp
    have nw : ∀ i, i ≠ T → ∀ rest pos, s.phase i ≠ .writing rest pos :=
      fun i hne rest pos hc => hne (honly i rest pos hc)
    by_cases hle : rest.length ≤ n
    · have hstep : (jobs T).step n (.writing rest w.length, s.disk p) = (.done, some (textOf l)) := by
        simp only [Job.step, hf, Option.getD_some, overlay_append, if_pos hle, List.take_of_length_le hle, ht]
      rw [hp, hstep] at own hdk
      refine ⟨?_, ?_, ?_, ?_⟩
      · intro i m hm
        by_cases hiT : i = T
        · rw [hiT, own] at hm; cases hm
        · rw [other i hiT] at hm; exact hi.mem i m hm
      · intro _
        exact Or.inr ⟨l, hdk, hg, hgain⟩
      · intro i rest' pos' hc
        by_cases hiT : i = T
        · rw [hiT, own] at hc; cases hc
        · rw [other i hiT] at hc
          exact absurd hc (nw i hiT rest' pos')
      · intro i err
        by_cases hiT : i = T
        · rw [hiT, own]; intro hc; cases hc
        · rw [other i hiT]; exact hi.fails i err
    · have hstep : (jobs T).step n (.writing rest w.length, s.disk p) =
          (.writing (rest.drop n) (w.length + (rest.take n).length), some (w ++ rest.take n)) := by
        simp only [Job.step, hf, Option.getD_some, overlay_append, if_neg hle]
      rw [hp, hstep] at own hdk
      refine ⟨?_, ?_, ?_, ?_⟩
      · intro i m hm
        by_cases hiT : i = T
        · rw [hiT, own] at hm; cases hm
        · rw [other i hiT] at hm; exact hi.mem i m hm
      · intro hn
        exact absurd own (hn T _ _)
      · intro i rest' pos' hc
        by_cases hiT : i = T
        · subst hiT
          rw [own] at hc
          cases hc
          refine ⟨?_, w ++ rest.take n, l, hdk, by rw [List.length_append], ?_, hg, hgain⟩
          · intro k rest' pos' hk
            by_contra hne
            rw [other k hne] at hk
            exact nw k hne _ _ hk
          · rw [List.append_assoc, List.take_append_drop, ht]
        · rw [other i hiT] at hc
          exact absurd hc (nw i hiT rest' pos')
      · intro i err
        by_cases hiT : i = T
        · rw [hiT, own]; intro hc; cases hc
        · rw [other i hiT]; exact hi.fails i err
  | done =>
    have hstep : (jobs T).step n (.done, s.disk p) = (.done, s.disk p) := rfl
    rw [hp, hstep] at own hdk
    have same : s'.phase = s.phase := by
      funext k
      by_cases hk : k = T
      · rw [hk, own, hp]
      · exact other k hk
    exact ⟨by rw [same]; exact hi.mem, by rw [same, hdk]; exact hi.quiet, by rw [same, hdk]; exact hi.busy,
      by rw [same]; exact hi.fails⟩
  | failed err => exact absurd hp (hi.fails T err)

theorem inv_run {jobs : Nat → Job} {p : Str} (ho : OneFile jobs p h e) {f0 : Option Str}
    (h0 : readItems f0 = .ok l0) (hv : (Json.dict l0).Valid) :
    ∀ (sched : Schedule) (s : State), Inv number p h e ids l0 f0 s → (∀ a ∈ sched, a.1 ∈ ids) →
      Orderly jobs s sched → Inv number p h e ids l0 f0 (run jobs s sched) := by
  intro sched
  induction sched with
  | nil => intro s hi _ _; exact hi
  | cons a sched ih =>
    intro s hi hids hord
    have hrun : run jobs s (a :: sched) = run jobs (s.step jobs a.1 a.2) sched := rfl
    rw [hrun]
    refine ih _ (inv_step ho h0 hv hi (hids a (by simp)) a.2 (fun i rest pos hp => ?_))
      (fun b hb => hids b (List.mem_cons_of_mem _ hb)) ?_
    · exact hord [] a sched rfl i rest pos hp
    · intro before b after hsp i rest pos hp
      exact hord (a :: before) b after (by rw [hsp]; rfl) i rest pos hp

end

/-- C124: whatever the order in which jobs for one results file read, calculate and write, as long as nobody touches
the file while another one writes: no job fails, the results that were there before are still there, everything that
is there is an old result or the result of a job at its own temperature, and when at least one job has ended and none
writes any more, at least one new result is there. -/
theorem C124_round (number : Str → V) {jobs : Nat → Job} {p : Str} {h : Hashes} {e : Nat → List (Str × Json)}
    (ho : OneFile jobs p h e) (disk : Str → Option Str) (hf : Clean (disk p))
    (l0 : List (Str × Json)) (h0 : readItems (disk p) = .ok l0) (ids : List Nat) (sched : Schedule)
    (hids : ∀ a ∈ sched, a.1 ∈ ids)
    (hord : Orderly jobs (begin disk) sched) :
    let s := run jobs (begin disk) sched
    (∀ T err, s.phase T ≠ .failed err) ∧
    ((∀ T rest pos, s.phase T ≠ .writing rest pos) →
      (∃ l, readItems (s.disk p) = .ok l) ∧ Clean (s.disk p) ∧
      (∀ T x, Has number h.vib (disk p) T x → T ∉ ids → Has number h.vib (s.disk p) T x) ∧
      (∀ T, Done h.vib T (view number (disk p)) → T ∉ ids → Done h.vib T (view number (s.disk p))) ∧
      (∀ T x, Has number h.vib (s.disk p) T x →
        Has number h.vib (disk p) T x ∨ T ∈ ids ∧ x = entryOf number (e T)) ∧
      ((∃ T, s.phase T = .done) → ∃ T ∈ ids, Has number h.vib (s.disk p) T (entryOf number (e T)))) := by
  intro s
  have hv := readItems_clean hf h0
  have hi : Inv number p h e ids l0 (disk p) s := by
    refine inv_run ho h0 hv sched (begin disk) ?_ hids hord
    refine ⟨?_, ?_, ?_, ?_⟩
    · intro T l hl; cases hl
    · intro _; exact Or.inl ⟨fun T hc => (by cases hc), rfl⟩
    · intro T rest pos hc; cases hc
    · intro T err hc; cases hc
  have hold : ∀ T x, Has number h.vib (disk p) T x ↔ Old number h l0 T (.entry x) := by
    intro T x
    have hr := readOld_view number h0
    constructor
    · rintro ⟨D, hD, h1, h2⟩
      rw [hD] at hr
      simp only [readOld, Except.ok.injEq] at hr
      subst hr
      exact ⟨h1, h2⟩
    · rintro ⟨h1, h2⟩
      cases hview : view number (disk p) with
      | dict D =>
        rw [hview] at hr
        simp only [readOld, Except.ok.injEq] at hr
        subst hr
        exact ⟨_, hview, h1, h2⟩
      | broken => rw [hview] at hr; cases hr
      | absent =>
        rw [hview] at hr
        simp only [readOld, Except.ok.injEq] at hr
        rw [← hr] at h1
        cases h1
      | short =>
        rw [hview] at hr
        simp only [readOld, Except.ok.injEq] at hr
        rw [← hr] at h1
        cases h1
  refine ⟨hi.fails, fun hn => ?_⟩
  rcases hi.quiet hn with ⟨hd, hfile⟩ | ⟨l, hfile, hg, T0, hT0, hgain⟩
  · rw [hfile]
    exact ⟨⟨l0, h0⟩, hf, fun T x hx _ => hx, fun T hx _ => hx, fun T x hx => Or.inl hx, fun ⟨T, hT⟩ => absurd hT (hd T)⟩
  · have hview : view number (some (textOf l)) = .dict (dictOfItems number l) :=
      C50_text_round_trip number l hg.valid
    rw [hfile]
    refine ⟨⟨l, readItems_textOf l hg.valid⟩,
      Or.inr ⟨l, (textOf l).length, hg.valid, by rw [List.take_length]⟩, ?_, ?_, ?_, ?_⟩
    · intro T x hx hT
      exact ⟨_, hview, hg.hash, hg.keeps T _ ((hold T x).1 hx) hT⟩
    · rintro T ⟨D, hD, h1, h2⟩ hT
      have hr := readOld_view number h0
      rw [hD] at hr
      simp only [readOld, Except.ok.injEq] at hr
      subst hr
      obtain ⟨v, hv'⟩ := Option.ne_none_iff_exists'.1 h2
      refine ⟨_, hview, hg.hash, ?_⟩
      rw [hg.keeps T v ⟨h1, hv'⟩ hT]
      exact Option.some_ne_none v
    · rintro T x ⟨D, hD, -, hx⟩
      rw [hview] at hD
      cases hD
      rcases hg.honest T _ hx with ho' | ⟨hT, he⟩
      · exact Or.inl ((hold T x).2 ho')
      · cases he
        exact Or.inr ⟨hT, rfl⟩
    · intro _
      exact ⟨T0, hT0, _, hview, hg.hash, hgain⟩

open Classical in
/-- The temperatures that a submission finds missing. -/
noncomputable def missingTemps (number : Str → V) (h : Str) (Ts : List Nat) (f : Option Str) : List Nat :=
  Ts.filter fun T => ¬ Done h T (view number f)

/-- One round of submissions: jobs for missing temperatures only, orderly, until none writes any more; if something
was missing, at least one job ends. Jobs that never start, or are killed before they write, are allowed. -/
def Round (number : Str → V) (jobs : Nat → Job) (p : Str) (h : Str) (Ts : List Nat)
    (disk disk' : Str → Option Str) : Prop :=
  ∃ sched : Schedule, (∀ a ∈ sched, a.1 ∈ missingTemps number h Ts (disk p)) ∧
    Orderly jobs (begin disk) sched ∧
    (∀ T rest pos, (run jobs (begin disk) sched).phase T ≠ .writing rest pos) ∧
    (missingTemps number h Ts (disk p) ≠ [] → ∃ T, (run jobs (begin disk) sched).phase T = .done) ∧
    disk' = (run jobs (begin disk) sched).disk

/-- Several rounds, each submitted from the files the one before has left. -/
inductive Rounds (number : Str → V) (jobs : Nat → Job) (p : Str) (h : Str) (Ts : List Nat) :
    Nat → (Str → Option Str) → (Str → Option Str) → Prop
  | none (disk) : Rounds number jobs p h Ts 0 disk disk
  | more {k disk disk' disk''} : Round number jobs p h Ts disk disk' → Rounds number jobs p h Ts k disk' disk'' →
      Rounds number jobs p h Ts (k + 1) disk disk''

theorem filter_length_le {α : Type*} {P Q : α → Bool} :
    ∀ l : List α, (∀ x ∈ l, Q x = true → P x = true) → (l.filter Q).length ≤ (l.filter P).length
  | [], _ => Nat.le_refl _
  | a :: l, h => by
    have ih := filter_length_le l (fun x hx => h x (List.mem_cons_of_mem _ hx))
    have ha := h a (by simp)
    cases hQ : Q a <;> cases hP : P a <;> simp_all <;> omega

theorem filter_length_lt {α : Type*} {P Q : α → Bool} {x : α} :
    ∀ l : List α, (∀ x ∈ l, Q x = true → P x = true) → x ∈ l → P x = true → Q x = false →
      (l.filter Q).length < (l.filter P).length
  | a :: l, h, hx, hp, hq => by
    have hl := filter_length_le l (fun x hx => h x (List.mem_cons_of_mem _ hx))
    have ha := h a (by simp)
    rcases List.mem_cons.1 hx with rfl | hx
    · rw [List.filter_cons_of_pos hp, List.filter_cons_of_neg (by simp [hq])]
      simp only [List.length_cons]; omega
    · have ih := filter_length_lt l (fun x hx => h x (List.mem_cons_of_mem _ hx)) hx hp hq
      cases hQ : Q a <;> cases hP : P a <;> simp_all <;> omega

theorem has_done {number : Str → V} {h : Str} {f : Option Str} {T : Nat} {x : Str → Option V}
    (hx : Has number h f T x) : Done h T (view number f) := by
  obtain ⟨D, h1, h2, h3⟩ := hx
  exact ⟨D, h1, h2, by rw [h3]; exact Option.some_ne_none _⟩

/-- One round leaves the file readable, its entries honest, and one temperature less to do. -/
theorem round_progress (number : Str → V) {jobs : Nat → Job} {p : Str} {h : Hashes} {e : Nat → List (Str × Json)}
    (ho : OneFile jobs p h e) (Ts : List Nat) {disk disk' : Str → Option Str} (hf : Clean (disk p))
    (l0 : List (Str × Json)) (h0 : readItems (disk p) = .ok l0) (hr : Round number jobs p h.vib Ts disk disk') :
    (∃ l, readItems (disk' p) = .ok l) ∧ Clean (disk' p) ∧
    (∀ T x, Has number h.vib (disk' p) T x → Has number h.vib (disk p) T x ∨ x = entryOf number (e T)) ∧
    (∀ T x, Has number h.vib (disk p) T x → Has number h.vib (disk' p) T x) ∧
    (missingTemps number h.vib Ts (disk' p)).length ≤ (missingTemps number h.vib Ts (disk p)).length - 1 := by
  classical
  obtain ⟨sched, hids, hord, hn, hdone, rfl⟩ := hr
  obtain ⟨-, hq⟩ := C124_round number ho disk hf l0 h0 _ sched hids hord
  obtain ⟨hread, hclean, hhas, hkeep, hhonest, hgain⟩ := hq hn
  refine ⟨hread, hclean, ?_, ?_, ?_⟩
  · intro T x hx
    rcases hhonest T x hx with h1 | ⟨-, h1⟩
    · exact Or.inl h1
    · exact Or.inr h1
  · intro T x hx
    refine hhas T x hx ?_
    intro hT
    have := (List.mem_filter.1 hT).2
    simp only [decide_eq_true_eq] at this
    exact this (has_done hx)
  · by_cases hm : missingTemps number h.vib Ts (disk p) = []
    · have : sched = [] := by
        cases sched with
        | nil => rfl
        | cons a t => exact absurd (hids a (by simp)) (by rw [hm]; exact List.not_mem_nil)
      subst this
      show (missingTemps number h.vib Ts (disk p)).length ≤ _
      rw [hm]; simp
    · obtain ⟨T, hT, hT'⟩ := hgain (hdone hm)
      have hlt : (missingTemps number h.vib Ts ((run jobs (begin disk) sched).disk p)).length <
          (missingTemps number h.vib Ts (disk p)).length := by
        unfold missingTemps at hT ⊢
        obtain ⟨hTs, hTm⟩ := List.mem_filter.1 hT
        refine filter_length_lt (x := T) Ts ?_ hTs hTm ?_
        · intro T' hT's hQ
          simp only [decide_eq_true_eq] at hQ ⊢
          intro hd
          refine hQ (hkeep T' hd ?_)
          intro hc
          have := (List.mem_filter.1 hc).2
          simp only [decide_eq_true_eq] at this
          exact this hd
        · simp only [decide_eq_false_iff_not, not_not]
          exact has_done hT'
      omega

/-- C124: submitting again and again, each time exactly what is missing, ends: after as many rounds as there were
missing temperatures nothing is missing. The results that were there stay, and every other result is that of the
calculation at its temperature. -/
theorem C124_complete (number : Str → V) {jobs : Nat → Job} {p : Str} {h : Hashes} {e : Nat → List (Str × Json)}
    (ho : OneFile jobs p h e) (Ts : List Nat) {k : Nat} {disk disk' : Str → Option Str}
    (hr : Rounds number jobs p h.vib Ts k disk disk') (hf : Clean (disk p))
    (l0 : List (Str × Json)) (h0 : readItems (disk p) = .ok l0)
    (hk : (missingTemps number h.vib Ts (disk p)).length ≤ k) :
    (∀ T ∈ Ts, Done h.vib T (view number (disk' p))) ∧
    (∀ T x, Has number h.vib (disk p) T x → Has number h.vib (disk' p) T x) ∧
    ∀ T x, Has number h.vib (disk' p) T x → Has number h.vib (disk p) T x ∨ x = entryOf number (e T) := by
  classical
  induction hr generalizing l0 with
  | none disk =>
    refine ⟨?_, fun T x hx => hx, fun T x hx => Or.inl hx⟩
    intro T hT
    by_contra hd
    have : T ∈ missingTemps number h.vib Ts (disk p) :=
      List.mem_filter.2 ⟨hT, by simpa using hd⟩
    have h0 := List.length_eq_zero_iff.1 (Nat.le_zero.1 hk)
    rw [h0] at this
    cases this
  | more h1 h2 ih =>
    obtain ⟨⟨l, hl⟩, hc, hh, hkp, hm⟩ := round_progress number ho Ts hf l0 h0 h1
    obtain ⟨i1, i2, i3⟩ := ih hc l hl (by omega)
    refine ⟨i1, fun T x hx => i2 T x (hkp T x hx), ?_⟩
    intro T x hx
    rcases i3 T x hx with h3 | h3
    · exact hh T x h3
    · exact Or.inr h3

/-! ### Cases -/

theorem missing_none (number : Str → V) (h : Str) (T : Nat) : Missing number h none T := by
  intro D hD
  cases hD

/-- C123: a hundred jobs with a file each meet the hypotheses of `C123_own_file`. -/
example (number : Str → V) :
    let jobs : Nat → Job := fun i => { job0 30000 c!"1.5" with path := c!"/" ++ natStr i }
    (∀ i k, i ≠ k → (jobs i).path ≠ (jobs k).path) ∧ Clean ((fun _ => none : Str → Option Str) (jobs 0).path) ∧
    ∀ e, (jobs 0).result = .ok (some e) → (Json.dict e).Valid := by
  refine ⟨fun i k h hc => h (natStr_injective (by simpa using hc)), Or.inl rfl, ?_⟩
  intro e he
  cases he
  exact valid_result0.1

/-- C123: two jobs for different temperatures of a new file lose a result. -/
example : ∃ sched, let s := run (two (job0 30000 c!"1.5") (job0 31000 c!"2.5")) (begin fun _ => none) sched
    s.phase 0 = .done ∧ s.phase 1 = .done ∧
    Has (fun t => t) c!"h" (s.disk c!"/f") 31000 (entryOf (fun t => t) (result0 c!"2.5")) ∧
    Missing (fun t => t) c!"h" (s.disk c!"/f") 30000 :=
  C123_lost_update_refuted (fun t => t) (job0 30000 c!"1.5") (job0 31000 c!"2.5") rfl (by decide) rfl rfl _ (Or.inl rfl)
    [] _ _ rfl rfl rfl valid_result0.2 (missing_none _ _ _)

/-- C123: two jobs whose numbers have different lengths leave a file that nobody can read. -/
example : ∃ sched, let s := run (two (job0 30000 c!"1.25") (job0 31000 c!"2.5")) (begin fun _ => none) sched
    s.phase 0 = .done ∧ s.phase 1 = .done ∧ readItems (s.disk c!"/f") = .error .value ∧
    ∀ (c : Job) (n : Nat), (c.step n (.start, s.disk c!"/f")).1 = .failed .value :=
  C123_unreadable_refuted (job0 30000 c!"1.25") (job0 31000 c!"2.5") rfl _ (Or.inl rfl) [] _ _ rfl rfl rfl
    valid_result0.2 (by decide +kernel)

theorem orderly_nil (jobs : Nat → Job) (s : State) : Orderly jobs s [] := by
  intro before a after h
  exact absurd h (by simp)

theorem orderly_cons {jobs : Nat → Job} {s : State} {a : Nat × Nat} {sched : Schedule}
    (h1 : ∀ i rest pos, s.phase i = .writing rest pos → a.1 = i) (h2 : Orderly jobs (s.step jobs a.1 a.2) sched) :
    Orderly jobs s (a :: sched) := by
  intro before b after h i rest pos hp
  cases before with
  | nil =>
    cases h
    exact h1 i rest pos hp
  | cons c before =>
    cases h
    exact h2 before b after rfl i rest pos hp

/-- Jobs at all temperatures for one file. -/
def jobs0 : Nat → Job := fun T => job0 T c!"1.5"

theorem oneFile0 : OneFile jobs0 c!"/f" ⟨c!"h", c!"r"⟩ (fun _ => result0 c!"1.5") :=
  ⟨fun _ => rfl, fun _ => rfl, fun _ => rfl, fun _ => rfl, fun _ => rfl, fun _ => valid_result0.1⟩

/-- Two jobs read the file before the first of them writes. -/
def sched0 : Schedule := [(0, 0), (1, 0), (0, 0), (0, 100), (1, 0), (1, 100)]

/-- Whether a phase is writing. -/
def writes : Phase → Bool
  | .writing _ _ => true
  | _ => false

theorem not_writes {x : Phase} (h : writes x = false) (rest : Str) (pos : Nat) : x ≠ .writing rest pos := by
  rintro rfl
  cases h

theorem orderly0 : Orderly jobs0 (begin fun _ => none) sched0 := by
  have sp : ∀ (s : State) (i n k : Nat), (s.step jobs0 i n).phase k =
      if k = i then ((jobs0 i).step n (s.phase i, s.disk (jobs0 i).path)).1 else s.phase k := fun _ _ _ _ => rfl
  unfold sched0
  refine orderly_cons ?_ (orderly_cons ?_ (orderly_cons ?_ (orderly_cons ?_ (orderly_cons ?_ (orderly_cons ?_
    (orderly_nil _ _)))))) <;> intro i rest pos h <;> by_contra hne
  all_goals
    by_cases h0 : i = 0
    · subst h0
      first
      | exact hne rfl
      | exact not_writes (by decide +kernel) rest pos h
    · by_cases h1 : i = 1
      · subst h1
        first
        | exact hne rfl
        | exact not_writes (by decide +kernel) rest pos h
      · simp only [sp, begin, h0, h1, if_false] at h
        cases h

/-- C124: a round in which two jobs end and one result is kept; a second round is needed and possible. -/
example : Round (fun t : Str => t) jobs0 c!"/f" c!"h" [0, 1] (fun _ => none)
    (run jobs0 (begin fun _ => none) sched0).disk := by
  classical
  have hend : (run jobs0 (begin fun _ => none) sched0).phase 0 = .done := by
    generalize hx : (run jobs0 (begin fun _ => none) sched0).phase 0 = x
    have h1 : (match (run jobs0 (begin fun _ => none) sched0).phase 0 with | .done => true | _ => false) = true := by
      decide +kernel
    rw [hx] at h1
    cases x <;> first | rfl | cases h1
  refine ⟨sched0, ?_, orderly0, ?_, fun _ => ⟨0, hend⟩, rfl⟩
  · intro a ha
    have : ∀ T, ¬ Done c!"h" T (view (fun t : Str => t) none) := by
      rintro T ⟨D, hD, -⟩
      cases hD
    refine List.mem_filter.2 ⟨?_, by simpa using this a.1⟩
    have h2 : ∀ a ∈ sched0, a.1 ∈ [0, 1] := by decide
    exact h2 a ha
  · intro T rest pos h
    by_cases h0 : T = 0
    · subst h0; exact not_writes (by decide +kernel) rest pos h
    · by_cases h1 : T = 1
      · subst h1; exact not_writes (by decide +kernel) rest pos h
      · simp only [run, sched0, List.foldl_cons, List.foldl_nil, State.step, begin, h0, h1, if_false] at h
        cases h

end Pibronic.Props.Jobs
