import Verif.Model.Workflow
import Verif.Spec.Workflow
import Verif.Lemmas.Workflow

set_option autoImplicit false

/-!
Properties of the electronic structure workflow (C53, C54).
-/
namespace Pibronic.Props.Workflow
open Pibronic.Py Pibronic.Buffer Pibronic.Workflow

/-- An environment in which everything succeeds, with three ionised states. -/
def allDone : Env where
  params := .done ()
  zmat := .done ()
  calculation _ := .done ()
  ip _ := .done ()
  parseOpt := .done ()
  parseNip := .done 3
  parseIp _ := .done true
  parsePrep := .done ()
  parseVibron := .done ()
  contains := .ok false

/-! ### C54 -/

/-- C54: from any stage and in any environment, also for a repaired template function: a run follows
the order of the stages, each stage is recorded right after it was calculated, and the state file
grows by exactly the recorded stages; a run that ends normally has reached the end and has recorded
the end (twice). -/
theorem C54_order (template : Option Str) (env : Env) (j : Job) (s : Stage)
    (hs : j.state = some s) :
    ∃ l t, Path s l t ∧
      (let r := body template env j
       (r.1.state = some t ∧ r.1.log = j.log ++ l ∧
          r.1.file.getD [] = j.file.getD [] ++ written l ∧ r.2 ≠ .done ()) ∨
       (t = .FINISHED ∧ r.1.state = some t ∧
          r.1.log = j.log ++ (l ++ [.recorded .FINISHED, .recorded .FINISHED]) ∧
          r.1.file.getD [] = j.file.getD [] ++ written (l ++ [.recorded .FINISHED, .recorded .FINISHED]) ∧
          r.2 = .done ())) := by
  rw [body_eq]
  obtain ⟨l, t, h1, h2, h3, h4, -, h6⟩ :=
    good_firstPart env (fun _ => True) (fun _ _ => trivial) j s hs trivial
  by_cases hd : (firstPart env j).2 = .done ()
  · rw [andThen_done hd]
    obtain ⟨l', u, k1, k2, k3, k4, -, k6⟩ := good_secondPart template env (firstPart env j).1 t h1 (h6 hd)
    refine ⟨l ++ l', u, h4.append k4, ?_⟩
    by_cases hd2 : (secondPart template env (firstPart env j).1).2 = .done ()
    · right
      have hu := k6 hd2
      subst hu
      rw [andThen_done hd2, advance_finished k1]
      refine ⟨rfl, k1, ?_, ?_, rfl⟩
      · simp [k2, h2]
      · simp only [Option.getD_some, k3, h3, written_append, List.append_assoc]
    · left
      rw [andThen_fail hd2]
      exact ⟨k1, by rw [k2, h2, List.append_assoc], by rw [k3, h3, written_append, List.append_assoc], hd2⟩
  · rw [andThen_fail hd]
    exact ⟨l, t, h4, Or.inl ⟨h1, h2, h3, hd⟩⟩

/-- A path from the first to the last stage contains the calculations of all stages in order, each
recorded after it is done; only the calculation of the ionised states may occur several times. -/
theorem C54_path_complete (l : List Event) (h : Path .OPT l .FINISHED) :
    ∃ n : Nat, l = [.ran .OPT, .recorded .OPT, .ran .NIP, .recorded .NIP, .ran .VIB, .recorded .VIB] ++
      List.replicate n (.ran .IPEOMCC) ++
      [.ran .IPEOMCC, .recorded .IPEOMCC, .ran .PREPVIB, .recorded .PREPVIB,
       .ran .VIBRON, .recorded .VIBRON] := by
  have step : ∀ (s t : Stage), t.value = s.value + 1 → s ≠ .IPEOMCC → ∀ l, Path s l .FINISHED →
      ∃ l', l = .ran s :: .recorded s :: l' ∧ Path t l' .FINISHED := by
    intro s t hst hip l hp
    cases hp with
    | stay => exact absurd (value_le t).2 (by rw [hst]; decide)
    | stage _ t' _ l' ht' hp' =>
      have : t' = t := value_inj (by omega)
      subst this
      exact ⟨l', rfl, hp'⟩
    | again l' _ hp' => exact absurd rfl hip
  obtain ⟨l1, rfl, h1⟩ := step .OPT .NIP rfl (by decide) l h
  obtain ⟨l2, rfl, h2⟩ := step .NIP .VIB rfl (by decide) l1 h1
  obtain ⟨l3, rfl, h3⟩ := step .VIB .IPEOMCC rfl (by decide) l2 h2
  have ip : ∀ (s : Stage) (l : List Event), Path s l .FINISHED → s = .IPEOMCC → ∃ n l', Path .PREPVIB l' .FINISHED ∧
      l = List.replicate n (.ran .IPEOMCC) ++ (.ran .IPEOMCC :: .recorded .IPEOMCC :: l') := by
    intro s l hp
    generalize hF : Stage.FINISHED = F at hp
    induction hp with
    | stay s => intro h; subst h; cases hF
    | stage s t u l ht hp ih =>
      intro h; subst h
      have : t = .PREPVIB := value_inj ht
      subst this
      subst hF
      exact ⟨0, l, hp, rfl⟩
    | again l u hp ih =>
      intro _
      obtain ⟨n, l', h1, h2⟩ := ih hF rfl
      exact ⟨n + 1, l', h1, by rw [h2]; rfl⟩
  obtain ⟨n, l4, h4, rfl⟩ := ip .IPEOMCC l3 h3 rfl
  obtain ⟨l5, rfl, h5⟩ := step .PREPVIB .VIBRON rfl (by decide) l4 h4
  obtain ⟨l6, rfl, h6⟩ := step .VIBRON .FINISHED rfl (by decide) l5 h5
  have : l6 = [] := by
    cases h6 with
    | stay => rfl
    | stage _ t _ _ ht _ => exact absurd (value_le t).2 (by rw [ht]; decide)
  subst this
  exact ⟨n, by simp⟩

/-- The body of a run from a stage up to the preparation stage. -/
private theorem body_stuck (env : Env) (j : Job) (s : Stage) (hs : j.state = some s) (h5 : s.value ≤ 5) :
    ∃ l t, Path s l t ∧ t.value ≤ 5 ∧ (body createTemplate env j).1.state = some t ∧
      (body createTemplate env j).1.log = j.log ++ l ∧
      (body createTemplate env j).1.file.getD [] = j.file.getD [] ++ written l ∧
      (body createTemplate env j).2 ≠ .done () := by
  rw [body_eq]
  obtain ⟨l, t, h1, h2, h3, h4, hA, h6⟩ :=
    good_firstPart env (fun s => s.value ≤ 5) (fun _ h => h) j s hs h5
  refine ⟨l, t, h4, hA, ?_⟩
  by_cases hd : (firstPart env j).2 = .done ()
  · rw [andThen_done hd]
    have ht : t = .PREPVIB := value_inj (le_antisymm hA (h6 hd))
    subst ht
    have e : andThen (secondPart createTemplate env) advance (firstPart env j).1
        = ((firstPart env j).1, .raised .attribute) := by
      simp [secondPart, andThen, whenIn, h1, prepCalculation, createTemplate, runStage]
    rw [e]
    exact ⟨h1, h2, h3, by simp⟩
  · rw [andThen_fail hd]
    exact ⟨h1, h2, h3, hd⟩

/-- C54 is false: in no environment does a run that starts at or before the preparation of the vibronic
calculation end normally, calculate or record that stage, or get to the vibronic calculation: the
function that makes the input of the preparation returns nothing. -/
theorem C54_prepare_refuted (env : Env) (j : Job) (s : Stage) (hs : j.state = some s)
    (h5 : s.value ≤ 5) (hl : j.log = []) :
    (body createTemplate env j).2 ≠ .done () ∧
    ∀ x : Stage, 5 ≤ x.value → .ran x ∉ (body createTemplate env j).1.log ∧
      .recorded x ∉ (body createTemplate env j).1.log := by
  obtain ⟨l, t, h1, h2, h3, h4, h5', h6⟩ := body_stuck env j s hs h5
  refine ⟨h6, fun x hx => ?_⟩
  rw [h4, hl, List.nil_append]
  constructor
  · intro hm
    rcases (h1.mem_ran hm).2 with h | h
    · omega
    · subst h; exact absurd hx (by decide)
  · intro hm
    have := (h1.mem_recorded hm).2
    omega

/-- C54: concretely: when every calculation succeeds, the run records the first four stages and then
fails with an `AttributeError`. -/
theorem C54_success_refuted :
    execute allDone none none =
      (some ⟨some .PREPVIB, some c!"OPT\nNIP\nVIB\nIPEOMCC\n", 3,
        [.ran .OPT, .recorded .OPT, .ran .NIP, .recorded .NIP, .ran .VIB, .recorded .VIB,
         .ran .IPEOMCC, .recorded .IPEOMCC]⟩, .raised .attribute) := by
  decide +kernel

/-- C54: with a template, the same run goes through all stages (witness for `C54_order`). -/
example : (calculate (some []) allDone ⟨none, none, 0, []⟩) =
    (⟨some .FINISHED, some c!"OPT\nNIP\nVIB\nIPEOMCC\nPREPVIB\nVIBRON\nFINISHED\nFINISHED\n", 3,
      [.ran .OPT, .recorded .OPT, .ran .NIP, .recorded .NIP, .ran .VIB, .recorded .VIB,
         .ran .IPEOMCC, .recorded .IPEOMCC, .ran .PREPVIB, .recorded .PREPVIB, .ran .VIBRON,
         .recorded .VIBRON, .recorded .FINISHED, .recorded .FINISHED]⟩, .done ()) := by
  decide +kernel

/-- C54: what remains true: a run that is told to start with the vibronic calculation and in which
everything succeeds ends normally, calculates this stage once and records it and the end. -/
theorem C54_last_stage_partial (env : Env) (file : Option Str) (n : Nat) (h1 : env.params = .done ())
    (h2 : env.zmat = .done ()) (h3 : env.calculation .VIBRON = .done ()) (h4 : env.parseOpt = .done ())
    (h5 : env.parseNip = .done n) (h6 : env.parseIp n = .done true) (h7 : env.parsePrep = .done ())
    (h8 : env.parseVibron = .done ()) :
    execute env (some 6) file =
      (some ⟨some .FINISHED, some (file.getD [] ++ c!"VIBRON\nFINISHED\nFINISHED\n"), n,
        [.ran .VIBRON, .recorded .VIBRON, .recorded .FINISHED, .recorded .FINISHED]⟩, .done ()) := by
  have hv : verifyIp env n ⟨some .VIBRON, some (file.getD []), n, []⟩
      = (⟨some .VIBRON, some (file.getD []), n, []⟩, .done ()) := by
    cases n <;> simp [verifyIp, andThen, ipCalc, afterIp, h6, advanceFromIp]
  have hn : newJob (some 6) file = .ok ⟨some .VIBRON, file, 0, []⟩ := rfl
  have hp : ∀ r g, r = .done () → ∀ j, andThen (call r) g j = g j := by
    intro r g h j; rw [h]; rfl
  have hb : body createTemplate env ⟨some .VIBRON, some (file.getD []), 0, []⟩ =
      (⟨some .FINISHED, some (file.getD [] ++ c!"VIBRON\nFINISHED\nFINISHED\n"), n,
        [.ran .VIBRON, .recorded .VIBRON, .recorded .FINISHED, .recorded .FINISHED]⟩, .done ()) := by
    have hskip : ∀ (s : Stage) r g f k, s ≠ .VIBRON →
        andThen (whenIn s r) g ⟨some .VIBRON, f, k, []⟩ = g ⟨some .VIBRON, f, k, []⟩ := by
      intro s r g f k hs
      have : whenIn s r ⟨some .VIBRON, f, k, []⟩ = (⟨some .VIBRON, f, k, []⟩, .done ()) := by
        unfold whenIn
        rw [if_neg (by simpa using fun h => hs h.symm)]
      exact andThen_step this
    have hnip : parseNip env ⟨some .VIBRON, some (file.getD []), 0, []⟩ =
        (⟨some .VIBRON, some (file.getD []), n, []⟩, .done ()) := by
      simp [parseNip, h5]
    have hvib : whenIn .VIBRON (env.calculation .VIBRON) ⟨some .VIBRON, some (file.getD []), n, []⟩ =
        (⟨some .FINISHED, some (file.getD [] ++ c!"VIBRON\n"), n, [.ran .VIBRON, .recorded .VIBRON]⟩,
          .done ()) := by
      obtain ⟨t, ht, hadv⟩ := advance_eq (j := ⟨some .VIBRON, some (file.getD []), n, [.ran .VIBRON]⟩)
        (s := .VIBRON) rfl (by decide)
      have : t = .FINISHED := value_inj ht
      subst this
      have e : whenIn .VIBRON (env.calculation .VIBRON) ⟨some .VIBRON, some (file.getD []), n, []⟩ =
          advance ⟨some .VIBRON, some (file.getD []), n, [.ran .VIBRON]⟩ := by
        unfold whenIn
        rw [if_pos rfl]
        exact andThen_step (by rw [h3]; rfl)
      rw [e, hadv]
      rfl
    unfold body
    rw [hskip _ _ _ _ _ (by decide), hp _ _ h4, hskip _ _ _ _ _ (by decide), andThen_step hnip,
      hskip _ _ _ _ _ (by decide), andThen_step (f := fun j => verifyIp env j.nip j) hv, hskip _ _ _ _ _ (by decide), hp _ _ h7,
      andThen_step hvib, hp _ _ h8, advance_finished rfl]
    simp [written, Stage.name]
  have hi : parseInput env ⟨some .VIBRON, file, 0, []⟩ = (⟨some .VIBRON, some (file.getD []), 0, []⟩, .done ()) := by
    unfold parseInput
    rw [hp _ _ h1]
    rfl
  have hc : calculate createTemplate env ⟨some .VIBRON, file, 0, []⟩ =
      body createTemplate env ⟨some .VIBRON, some (file.getD []), 0, []⟩ := by
    unfold calculate
    rw [andThen_step hi, hp _ _ h2]
    rfl
  simp only [execute, hn, hc, hb]

/-- C54: a finished workflow does nothing. -/
theorem C54_finished (env : Env) (file : Option Str) (h1 : env.params = .done ())
    (h2 : env.zmat = .done ()) :
    execute env (some 7) file = (some ⟨some .FINISHED, some (file.getD []), 0, []⟩, .done ()) := by
  have hn : newJob (some 7) file = .ok ⟨some .FINISHED, file, 0, []⟩ := rfl
  simp [execute, hn, calculate, parseInput, andThen, call, touch, h1, h2, unlessFinished, Stage.value,
    Stage.max]

/-- C54: the entry points `test_one`, `calculate_vibronic_model_wrapper_one` and the command line pass
stage number 0 unless told otherwise; there is no such stage and the object is never made. -/
theorem C54_default_stage_refuted (env : Env) (file : Option Str) :
    execute env (some 0) file = (none, .raised .value) := by
  have hn : newJob (some 0) file = .error .value := rfl
  simp [execute, hn]

/-! ### C53 -/

/-- What a run without a given stage does: either nothing, or it starts with the stage read from the
state file. -/
private theorem execute_cases (env : Env) (file : Option Str) (j : Job) (r : Run Unit)
    (h : execute env none file = (some j, r)) :
    (j.log = [] ∧ j.file.getD [] = file.getD []) ∨
    ∃ s, stateFromFile env.contains (file.getD []) = .ok (some s) ∧
      (j, r) = body createTemplate env ⟨some s, some (file.getD []), 0, []⟩ := by
  have hn : newJob none file = .ok ⟨none, file, 0, []⟩ := rfl
  simp only [execute, hn, Prod.mk.injEq, Option.some.injEq] at h
  obtain ⟨h1, h2⟩ := h
  have hj : calculate createTemplate env ⟨none, file, 0, []⟩ = (j, r) := Prod.ext h1 h2
  clear h1 h2
  by_cases hp : env.params = .done ()
  · have hi : parseInput env ⟨none, file, 0, []⟩ =
        (match stateFromFile env.contains (file.getD []) with
          | .ok st => (⟨st, some (file.getD []), 0, []⟩, .done ())
          | .error e => (⟨none, some (file.getD []), 0, []⟩, .raised e)) := by
      unfold parseInput
      rw [andThen_step (j' := ⟨none, file, 0, []⟩) (by rw [hp]; rfl)]
      rfl
    cases hst : stateFromFile env.contains (file.getD []) with
    | error e =>
      rw [hst] at hi
      left
      unfold calculate at hj
      rw [andThen_fail (by rw [hi]; simp), hi] at hj
      cases hj
      exact ⟨rfl, rfl⟩
    | ok st =>
      rw [hst] at hi
      unfold calculate at hj
      rw [andThen_step hi] at hj
      by_cases hz : env.zmat = .done ()
      · rw [andThen_step (j' := ⟨st, some (file.getD []), 0, []⟩) (by rw [hz]; rfl)] at hj
        cases st with
        | none => left; cases hj; exact ⟨rfl, rfl⟩
        | some s =>
          unfold unlessFinished at hj
          simp only at hj
          split at hj
          · right; exact ⟨s, rfl, hj.symm⟩
          · left; cases hj; exact ⟨rfl, rfl⟩
      · left
        rw [andThen_fail (by exact hz)] at hj
        cases hj
        exact ⟨rfl, rfl⟩
  · left
    have hi : parseInput env ⟨none, file, 0, []⟩ = (⟨none, file, 0, []⟩, env.params) := by
      unfold parseInput
      rw [andThen_fail (by exact hp)]
      rfl
    unfold calculate at hj
    rw [andThen_fail (by rw [hi]; exact hp), hi] at hj
    cases hj
    exact ⟨rfl, rfl⟩

private theorem path_head {l : List Event} {t : Stage} (h : Path .OPT l t) :
    recordedStages l = [] ∨ (recordedStages l).head? = some .OPT := by
  cases h with
  | stay => left; rfl
  | stage _ t _ l _ _ => right; rfl

private theorem stateFromFile_some {c : Except Err Bool} {s t : Stage} {l : List Stage}
    (h : stateFromFile c (listing (s :: l)) = .ok (some t)) : c = .ok false := by
  have e : stateFromFile c (listing (s :: l)) =
      scanLines c (keepLines (listing (s :: l))).reverse none := by
    obtain ⟨a, r, hcr⟩ := List.exists_cons_of_ne_nil (name_ne_nil s)
    have : listing (s :: l) = a :: (r ++ '\n' :: listing l) := by simp [listing, hcr]
    rw [this]; rfl
  rw [e, keepLines_listing, ← List.map_reverse] at h
  obtain ⟨x, xs, hx⟩ := List.exists_cons_of_ne_nil (l := (s :: l).reverse) (by simp)
  rw [hx, List.map_cons] at h
  unfold scanLines at h
  have hne : ¬ (x.name ++ ['\n'] = [] ∨ x.name ++ ['\n'] = c!"\n") := by cases x <;> decide
  rw [if_neg hne] at h
  cases c with
  | error e => simp at h
  | ok b => cases b with
    | false => rfl
    | true => simp at h

private theorem history_listing (file : Option Str) (h : History file) :
    ∃ rs : List Stage, file.getD [] = listing rs ∧ (∀ x ∈ rs, x.value ≤ 4) ∧
      (rs = [] ∨ rs.head? = some .OPT) := by
  induction h with
  | start => exact ⟨[], rfl, by simp, Or.inl rfl⟩
  | run file env j r hh he ih =>
    obtain ⟨rs, h1, h2, h3⟩ := ih
    rcases execute_cases env file j r he with ⟨-, h⟩ | ⟨s, hs, hb⟩
    · exact ⟨rs, by rw [h, h1], h2, h3⟩
    · have h5 : s.value ≤ 5 ∧ (rs = [] → s = .OPT) := by
        cases rs with
        | nil =>
          rw [h1] at hs
          have : s = .OPT := by
            have e : stateFromFile env.contains (listing []) = .ok (some .OPT) := rfl
            rw [e] at hs; simpa using hs.symm
          subst this
          exact ⟨by decide, fun _ => rfl⟩
        | cons a rs =>
          rw [h1] at hs
          have hc := stateFromFile_some hs
          obtain ⟨t, ht, hl⟩ := stateFromFile_listing a rs fun x hx => by
            intro hx'; have := h2 x hx; rw [hx'] at this; exact absurd this (by decide)
          rw [hc, hl] at hs
          simp only [Except.ok.injEq, Option.some.injEq] at hs
          subst hs
          have := h2 a (by simp)
          exact ⟨by omega, by simp⟩
      obtain ⟨l, t, k1, k2, k3, k4, k5, -⟩ :=
        body_stuck env ⟨some s, some (file.getD []), 0, []⟩ s rfl h5.1
      rw [← hb] at k3 k4 k5
      refine ⟨rs ++ recordedStages l, ?_, ?_, ?_⟩
      · rw [k5, listing_append, ← written_eq, ← h1]; rfl
      · intro x hx
        rcases List.mem_append.mp hx with hx | hx
        · exact h2 x hx
        · have hm : Event.recorded x ∈ l := by
            simp only [recordedStages, List.mem_filterMap] at hx
            obtain ⟨e, he, hex⟩ := hx
            cases e with
            | ran y => simp at hex
            | recorded y => simp only [Option.some.injEq] at hex; rwa [← hex]
          have := (k1.mem_recorded hm).2
          omega
      · cases rs with
        | nil =>
          rw [h5.2 rfl] at k1
          simpa using path_head k1
        | cons a rs =>
          right
          simpa using h3

/-- C53 is false: whatever was recorded in a history of runs, as soon as anything is recorded every
restart begins with the second stage. -/
theorem C53_always_second_refuted (file : Option Str) (h : History file) (hne : file.getD [] ≠ []) :
    stateFromFile (.ok false) (file.getD []) = .ok (some .NIP) := by
  obtain ⟨rs, h1, h2, h3⟩ := history_listing file h
  rw [h1] at hne ⊢
  cases rs with
  | nil => exact absurd rfl hne
  | cons a rs =>
    have ha : a = .OPT := by simpa using h3
    subst ha
    obtain ⟨t, ht, hl⟩ := stateFromFile_listing .OPT rs fun x hx => by
      intro hx'; have := h2 x hx; rw [hx'] at this; exact absurd this (by decide)
    have htn : t = .NIP := value_inj ht
    rw [hl, htn]

/-- C53: concretely: after a run that recorded four stages the restarted run repeats three of them. -/
theorem C53_repeats_refuted :
    ∃ j₁ j₂ r₁ r₂, execute allDone none none = (some j₁, r₁) ∧
      j₁.file = some c!"OPT\nNIP\nVIB\nIPEOMCC\n" ∧ execute allDone none j₁.file = (some j₂, r₂) ∧
      j₂.log = [.ran .NIP, .recorded .NIP, .ran .VIB, .recorded .VIB, .ran .IPEOMCC, .recorded .IPEOMCC] ∧
      History j₂.file := by
  have h1 := C54_success_refuted
  have h2 : execute allDone none (some c!"OPT\nNIP\nVIB\nIPEOMCC\n") =
      (some ⟨some .PREPVIB, some c!"OPT\nNIP\nVIB\nIPEOMCC\nNIP\nVIB\nIPEOMCC\n", 3,
        [.ran .NIP, .recorded .NIP, .ran .VIB, .recorded .VIB, .ran .IPEOMCC, .recorded .IPEOMCC]⟩,
        .raised .attribute) := by decide +kernel
  exact ⟨_, _, _, _, h1, rfl, h2, rfl, .run _ _ _ _ (.run _ _ _ _ .start h1) h2⟩

/-- C53: a restart never skips: in every history and every environment, all stages before the one it
begins with are recorded in the state file. -/
theorem C53_never_skips (file : Option Str) (h : History file) (c : Except Err Bool) (s : Stage)
    (hs : stateFromFile c (file.getD []) = .ok (some s)) :
    ∃ rs : List Stage, file.getD [] = listing rs ∧ ∀ x : Stage, x.value < s.value → x ∈ rs := by
  obtain ⟨rs, h1, h2, h3⟩ := history_listing file h
  refine ⟨rs, h1, fun x hx => ?_⟩
  rw [h1] at hs
  cases rs with
  | nil =>
    have e : stateFromFile c (listing []) = .ok (some .OPT) := rfl
    rw [e] at hs
    have : s = .OPT := by simpa using hs.symm
    subst this
    have := (value_le x).1
    have hx1 : x.value < 1 := hx
    omega
  | cons a rs =>
    have ha : a = .OPT := by simpa using h3
    subst ha
    have hc := stateFromFile_some hs
    obtain ⟨t, ht, hl⟩ := stateFromFile_listing .OPT rs fun x hx => by
      intro hx'; have := h2 x hx; rw [hx'] at this; exact absurd this (by decide)
    rw [hc, hl] at hs
    simp only [Except.ok.injEq, Option.some.injEq] at hs
    subst hs
    have h1x := (value_le x).1
    have : x = .OPT := value_inj (show x.value = 1 by have ht2 : t.value = 2 := ht; omega)
    simp [this]

/-- C53: it is right as long as at most one stage is recorded. -/
theorem C53_one_stage_partial (c : Except Err Bool) :
    stateFromFile c (listing []) = .ok (some .OPT) ∧
    ∀ s : Stage, s ≠ .FINISHED →
      ∃ t : Stage, t.value = s.value + 1 ∧ stateFromFile (.ok false) (listing [s]) = .ok (some t) :=
  ⟨rfl, fun s hs => stateFromFile_listing s [] (by simpa using hs)⟩

/-- C53 is false for a completed workflow: its state file ends with the final stage, and the restart
raises a `ValueError` instead of doing nothing. -/
theorem C53_finished_refuted (l : List Stage) :
    stateFromFile (.ok false) (listing (l ++ [.FINISHED])) = .error .value := by
  have e : stateFromFile (.ok false) (listing (l ++ [.FINISHED])) =
      scanLines (.ok false) (keepLines (listing (l ++ [.FINISHED]))).reverse none := by
    cases h : listing (l ++ [.FINISHED]) with
    | nil => rw [listing_append] at h; simp [listing] at h
    | cons c s => rfl
  rw [e, keepLines_listing, ← List.map_reverse, List.reverse_append]
  rfl

/-- C53: with the Python versions in which asking whether a text is a member of an enumeration is an
error, every restart with a recorded stage raises, and so it does where the answer is
yes, because a name is not a value of the enumeration. -/
theorem C53_membership_refuted (e : Err) (s : Stage) (l : List Stage) :
    stateFromFile (.error e) (listing (s :: l)) = .error e ∧
    stateFromFile (.ok true) (listing (s :: l)) = .error .value := by
  have e1 : ∀ b, stateFromFile b (listing (s :: l)) =
      scanLines b (keepLines (listing (s :: l))).reverse none := by
    intro b
    cases h : listing (s :: l) with
    | nil => cases s <;> simp [listing, Stage.name] at h
    | cons c s => rfl
  rw [e1, e1, keepLines_listing]
  cases hr : ((s :: l).map fun s => s.name ++ ['\n']).reverse with
  | nil => simp at hr
  | cons line rest =>
    have hm : line ∈ (s :: l).map fun s => s.name ++ ['\n'] := by
      rw [← List.mem_reverse, hr]; exact List.mem_cons_self
    obtain ⟨x, -, rfl⟩ := List.mem_map.mp hm
    have h1 : ¬ (x.name ++ ['\n'] = [] ∨ x.name ++ ['\n'] = c!"\n") := by cases x <;> decide +kernel
    simp only [scanLines, if_neg h1, and_self]

/-- C53: a state file that ends with an unknown line starts the workflow from the beginning. -/
theorem C53_unknown_line (l : List Stage) (junk : Str) (h1 : '\n' ∉ junk) (h2 : junk ≠ [])
    (h3 : ∀ s : Stage, s.name ≠ strip (junk ++ ['\n'])) :
    stateFromFile (.ok false) (listing l ++ (junk ++ ['\n'])) = .ok (some .OPT) := by
  have hk : keepLines (listing l ++ (junk ++ ['\n'])) =
      (l.map fun s => s.name ++ ['\n']) ++ [junk ++ ['\n']] := by
    induction l with
    | nil =>
      have := keepLines_line junk [] h1
      simpa [listing, keepLines] using this
    | cons s l ih =>
      have : listing (s :: l) ++ (junk ++ ['\n']) = s.name ++ '\n' :: (listing l ++ (junk ++ ['\n'])) := by
        simp [listing]
      rw [this, keepLines_line _ _ (name_no_nl s), ih]
      rfl
  have e : stateFromFile (.ok false) (listing l ++ (junk ++ ['\n'])) =
      scanLines (.ok false) (keepLines (listing l ++ (junk ++ ['\n']))).reverse none := by
    cases h : listing l ++ (junk ++ ['\n']) with
    | nil => simp at h
    | cons c s => rfl
  rw [e, hk, List.reverse_append]
  have hne : ¬ (junk ++ ['\n'] = [] ∨ junk ++ ['\n'] = c!"\n") := by
    obtain ⟨c, r, rfl⟩ := List.exists_cons_of_ne_nil h2
    simp
  have hf : (Stage.all.find? fun m => decide (m.name = strip (junk ++ ['\n']))) = none := by
    rw [List.find?_eq_none]
    intro x _
    simpa using h3 x
  simp only [List.reverse_singleton, List.singleton_append, scanLines, if_neg hne, hf]

/-- C53: a run that is given its first stage begins there, whatever the state file says. -/
theorem C53_given_stage (env : Env) (s : Stage) (file : Option Str) (hs : s ≠ .FINISHED) (j : Job)
    (r : Run Unit) (h : execute env (some s.value) file = (some j, r)) :
    ∃ l t, Path s l t ∧ (j.log = l ∨ (t = .FINISHED ∧
      j.log = l ++ [.recorded .FINISHED, .recorded .FINISHED])) := by
  have hn : newJob (some s.value) file = .ok ⟨some s, file, 0, []⟩ := by cases s <;> rfl
  have hv : s.value < Stage.max := by cases s <;> first | exact absurd rfl hs | decide
  simp only [execute, hn, Prod.mk.injEq, Option.some.injEq] at h
  obtain ⟨h1, -⟩ := h
  have stay : j.log = [] → ∃ l t, Path s l t ∧ (j.log = l ∨ (t = .FINISHED ∧
      j.log = l ++ [.recorded .FINISHED, .recorded .FINISHED])) :=
    fun h => ⟨[], s, .stay s, Or.inl h⟩
  by_cases hp : env.params = .done ()
  · have hi : parseInput env ⟨some s, file, 0, []⟩ = (⟨some s, some (file.getD []), 0, []⟩, .done ()) := by
      unfold parseInput
      rw [andThen_step (j' := ⟨some s, file, 0, []⟩) (by rw [hp]; rfl)]
      rfl
    unfold calculate at h1
    rw [andThen_step hi] at h1
    by_cases hz : env.zmat = .done ()
    · rw [andThen_step (j' := ⟨some s, some (file.getD []), 0, []⟩) (by rw [hz]; rfl)] at h1
      have hu : unlessFinished (body createTemplate env) ⟨some s, some (file.getD []), 0, []⟩ =
          body createTemplate env ⟨some s, some (file.getD []), 0, []⟩ := by
        unfold unlessFinished; simp only [if_pos hv]
      rw [hu] at h1
      obtain ⟨l, t, k1, k2⟩ := C54_order createTemplate env ⟨some s, some (file.getD []), 0, []⟩ s rfl
      refine ⟨l, t, k1, ?_⟩
      rw [← h1]
      rcases k2 with ⟨-, k, -, -⟩ | ⟨k0, -, k, -, -⟩
      · left; simpa using k
      · right; exact ⟨k0, by simpa using k⟩
    · rw [andThen_fail (by exact hz)] at h1
      exact stay (by rw [← h1]; rfl)
  · have hi : parseInput env ⟨some s, file, 0, []⟩ = (⟨some s, file, 0, []⟩, env.params) := by
      unfold parseInput
      rw [andThen_fail (by exact hp)]
      rfl
    unfold calculate at h1
    rw [andThen_fail (by rw [hi]; exact hp), hi] at h1
    exact stay (by rw [← h1])

/-- The hypotheses are met: a fresh job is in a stage before the template is needed, the last stage can
be asked for, a run leaves a non-empty state file behind, an unknown line may follow recorded stages. -/
example : (body createTemplate allDone ⟨some .OPT, none, 0, []⟩).2 ≠ .done () :=
  (C54_prepare_refuted allDone ⟨some .OPT, none, 0, []⟩ .OPT rfl (by decide) rfl).1

example : execute allDone (some 6) (some c!"OPT\n") = (some ⟨some .FINISHED,
    some c!"OPT\nVIBRON\nFINISHED\nFINISHED\n", 3,
    [.ran .VIBRON, .recorded .VIBRON, .recorded .FINISHED, .recorded .FINISHED]⟩, .done ()) :=
  C54_last_stage_partial allDone _ 3 rfl rfl rfl rfl rfl rfl rfl rfl

example : stateFromFile (.ok false) c!"OPT\nNIP\nVIB\nIPEOMCC\n" = .ok (some .NIP) :=
  C53_always_second_refuted (some c!"OPT\nNIP\nVIB\nIPEOMCC\n")
    (.run _ _ _ _ .start C54_success_refuted) (by simp)

example : stateFromFile (.ok false) (listing [.OPT, .NIP] ++ c!"half a li\n") = .ok (some .OPT) :=
  C53_unknown_line [.OPT, .NIP] c!"half a li" (by decide +kernel) (by simp)
    (by intro s; cases s <;> decide +kernel)

example : ∃ l t, Path .OPT l t ∧ (l = [.ran .OPT, .recorded .OPT, .ran .NIP, .recorded .NIP,
    .ran .VIB, .recorded .VIB, .ran .IPEOMCC, .recorded .IPEOMCC] ∨ t = .FINISHED) := by
  have h : execute allDone (some 1) none = (some ⟨some .PREPVIB, some c!"OPT\nNIP\nVIB\nIPEOMCC\n", 3,
      [.ran .OPT, .recorded .OPT, .ran .NIP, .recorded .NIP, .ran .VIB, .recorded .VIB,
       .ran .IPEOMCC, .recorded .IPEOMCC]⟩, .raised .attribute) := by decide +kernel
  obtain ⟨l, t, h1, h2⟩ := C53_given_stage allDone .OPT none (by decide) _ _ h
  exact ⟨l, t, h1, h2.imp (fun h => h.symm) (fun h => h.1)⟩

end Pibronic.Props.Workflow
