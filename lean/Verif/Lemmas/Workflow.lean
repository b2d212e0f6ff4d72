import Verif.Spec.Workflow
import Verif.Lemmas.Buffer

set_option autoImplicit false

/-! Helper lemmas about the workflow. -/
namespace Pibronic.Workflow
open Py Buffer

theorem Path.append {s t u : Stage} {l l' : List Event} (h : Path s l t) (h' : Path t l' u) :
    Path s (l ++ l') u := by
  induction h with
  | stay s => simpa using h'
  | stage s t u l ht _ ih => exact .stage s t _ _ ht (ih h')
  | again l u _ ih => exact .again _ _ (ih h')

theorem Path.le {s t : Stage} {l : List Event} (h : Path s l t) : s.value ≤ t.value := by
  induction h with
  | stay s => exact le_refl _
  | stage s t u l ht _ ih => omega
  | again l u _ ih => exact ih

theorem Path.mem_ran {s t x : Stage} {l : List Event} (h : Path s l t) (hx : .ran x ∈ l) :
    s.value ≤ x.value ∧ (x.value < t.value ∨ x = .IPEOMCC) := by
  induction h with
  | stay s => simp at hx
  | stage s t u l ht hp ih =>
    have := hp.le
    simp only [List.mem_cons, Event.ran.injEq, reduceCtorEq, false_or] at hx
    rcases hx with rfl | hx
    · exact ⟨le_refl _, Or.inl (by omega)⟩
    · have := ih hx; exact ⟨by omega, this.2⟩
  | again l u hp ih =>
    simp only [List.mem_cons, Event.ran.injEq] at hx
    rcases hx with rfl | hx
    · exact ⟨le_refl _, Or.inr rfl⟩
    · exact ih hx

theorem Path.mem_recorded {s t x : Stage} {l : List Event} (h : Path s l t)
    (hx : .recorded x ∈ l) : s.value ≤ x.value ∧ x.value < t.value := by
  induction h with
  | stay s => simp at hx
  | stage s t u l ht hp ih =>
    have := hp.le
    simp only [List.mem_cons, Event.recorded.injEq, reduceCtorEq, false_or] at hx
    rcases hx with rfl | hx
    · exact ⟨le_refl _, by omega⟩
    · have := ih hx; exact ⟨by omega, this.2⟩
  | again l u hp ih =>
    simp only [List.mem_cons, reduceCtorEq, false_or] at hx
    exact ih hx

theorem written_append (l l' : List Event) : written (l ++ l') = written l ++ written l' := by
  simp [written]

/-- From a job at a stage with `P`, the step leads along a path to a stage with `A`, and with `Q` if
it ends normally. -/
def Good (f : Step) (P Q A : Stage → Prop) : Prop :=
  ∀ j s, j.state = some s → P s → ∃ l s', (f j).1.state = some s' ∧ (f j).1.log = j.log ++ l ∧
    (f j).1.file.getD [] = j.file.getD [] ++ written l ∧ Path s l s' ∧ A s' ∧
    ((f j).2 = .done () → Q s')

theorem andThen_done {f g : Step} {j : Job} (h : (f j).2 = .done ()) :
    andThen f g j = g (f j).1 := by
  unfold andThen
  split
  · next j' h' => simp [h']
  · next j' e h' => rw [h'] at h; simp at h
  · next j' h' => rw [h'] at h; simp at h

theorem andThen_step {f g : Step} {j j' : Job} (h : f j = (j', .done ())) :
    andThen f g j = g j' := by
  rw [andThen_done (by rw [h]), h]

theorem andThen_fail {f g : Step} {j : Job} (h : (f j).2 ≠ .done ()) :
    andThen f g j = f j := by
  unfold andThen
  split
  · next j' h' => rw [h'] at h; simp at h
  · next j' e h' => rw [h']
  · next j' h' => rw [h']

theorem Good.andThen {f g : Step} {P Q R A : Stage → Prop} (hf : Good f P Q A) (hg : Good g (fun s => Q s ∧ A s) R A) :
    Good (andThen f g) P R A := by
  intro j s hs hP
  obtain ⟨l, s', h1, h2, h3, h4, h5, h6⟩ := hf j s hs hP
  by_cases hd : (f j).2 = .done ()
  · rw [andThen_done hd]
    obtain ⟨l', s'', k1, k2, k3, k4, k5, k6⟩ := hg (f j).1 s' h1 ⟨h6 hd, h5⟩
    exact ⟨l ++ l', s'', k1, by rw [k2, h2]; simp, by rw [k3, h3, written_append]; simp,
      h4.append k4, k5, k6⟩
  · rw [andThen_fail hd]
    exact ⟨l, s', h1, h2, h3, h4, h5, fun h => absurd h hd⟩

theorem Good.mono {f : Step} {P Q A P' Q' A' : Stage → Prop} (h : Good f P Q A)
    (hP : ∀ s, P' s → P s) (hQ : ∀ s, Q s → Q' s) (hA : ∀ s, A s → A' s) : Good f P' Q' A' := by
  intro j s hs hP'
  obtain ⟨l, s', h1, h2, h3, h4, h5, h6⟩ := h j s hs (hP s hP')
  exact ⟨l, s', h1, h2, h3, h4, hA _ h5, fun h => hQ _ (h6 h)⟩

theorem good_call (r : Run Unit) {P A : Stage → Prop} :
    Good (call r) (fun s => P s ∧ A s) P A := by
  intro j s hs hP
  exact ⟨[], s, hs, by simp [call], by simp [call, written], .stay s, hP.2, fun _ => hP.1⟩

theorem next_exists (s : Stage) (h : s ≠ .FINISHED) :
    ∃ t, Stage.ofValue (s.value + 1) = .ok t ∧ t.value = s.value + 1 := by
  cases s <;> first | exact absurd rfl h | exact ⟨_, rfl, rfl⟩

theorem value_inj {s t : Stage} (h : s.value = t.value) : s = t := by
  cases s <;> cases t <;> first | rfl | exact absurd h (by decide)

theorem value_le (s : Stage) : 1 ≤ s.value ∧ s.value ≤ 7 := by cases s <;> decide

/-- `advance` before the last stage: the stage is recorded and the next one is current. -/
theorem advance_eq {j : Job} {s : Stage} (hs : j.state = some s) (h : s ≠ .FINISHED) :
    ∃ t, t.value = s.value + 1 ∧ advance j =
      ({ j with state := some t, file := some (j.file.getD [] ++ (s.name ++ ['\n'])),
                log := j.log ++ [.recorded s] }, .done ()) := by
  obtain ⟨t, h1, h2⟩ := next_exists s h
  refine ⟨t, h2, ?_⟩
  have hv : s.value < Stage.max := by cases s <;> first | exact absurd rfl h | decide
  simp only [advance, andThen, touch, recordState, nextState, hs, Option.getD_some, h, if_false, hv,
    if_true, h1]

/-- `advance` at the end. -/
theorem advance_finished {j : Job} (hs : j.state = some .FINISHED) :
    advance j =
      ({ j with file := some (j.file.getD [] ++ written [.recorded .FINISHED, .recorded .FINISHED]),
                log := j.log ++ [.recorded .FINISHED, .recorded .FINISHED] }, .done ()) := by
  simp [advance, andThen, touch, recordState, nextState, hs, written]

theorem good_whenIn (s : Stage) (hs : s ≠ .FINISHED) (r : Run Unit) {A : Stage → Prop}
    (hA : ∀ x : Stage, x.value = s.value + 1 → A x) :
    Good (whenIn s r) (fun x => s.value ≤ x.value ∧ A x) (fun x => s.value + 1 ≤ x.value) A := by
  intro j x hx ⟨hP, hAx⟩
  unfold whenIn
  by_cases hsx : x = s
  · subst hsx
    rw [if_pos hx]
    cases r with
    | done u =>
      obtain ⟨t, ht, hadv⟩ := advance_eq (j := { j with log := j.log ++ [.ran x] }) hx hs
      have : Workflow.andThen (runStage x (.done u)) advance j =
          advance { j with log := j.log ++ [.ran x] } := rfl
      rw [this, hadv]
      refine ⟨[.ran x, .recorded x], t, rfl, by simp, by simp [written], ?_, hA t ht, ?_⟩
      · exact .stage x t t [] ht (.stay t)
      · intro _; omega
    | raised e =>
      exact ⟨[], x, hx, by simp [Workflow.andThen, runStage], by simp [Workflow.andThen, runStage, written],
        .stay x, hAx, by simp [Workflow.andThen, runStage]⟩
    | hangs =>
      exact ⟨[], x, hx, by simp [Workflow.andThen, runStage], by simp [Workflow.andThen, runStage, written],
        .stay x, hAx, by simp [Workflow.andThen, runStage]⟩
  · rw [if_neg (by rw [hx]; simpa using hsx)]
    refine ⟨[], x, hx, by simp, by simp [written], .stay x, hAx, ?_⟩
    intro _
    have : x.value ≠ s.value := fun h => hsx (value_inj h)
    omega

theorem good_parseNip (env : Env) {P A : Stage → Prop} :
    Good (parseNip env) (fun s => P s ∧ A s) P A := by
  intro j s hs hP
  unfold parseNip
  split <;> exact ⟨[], s, hs, by simp, by simp [written], .stay s, hP.2, fun _ => hP.1⟩

theorem advanceFromIp_eq (j : Job) (s : Stage) (hs : j.state = some s) :
      (s ≠ .IPEOMCC ∧ advanceFromIp j = (j, .done ())) ∨
      (s = .IPEOMCC ∧ advanceFromIp j =
        (⟨some .PREPVIB, some (j.file.getD [] ++ (Stage.IPEOMCC.name ++ ['\n'])), j.nip,
          j.log ++ [.recorded .IPEOMCC]⟩, .done ())) := by
  unfold advanceFromIp
  by_cases h : s = .IPEOMCC
  · right
    subst h
    obtain ⟨t, ht, hadv⟩ := advance_eq hs (by decide)
    have : t = .PREPVIB := value_inj ht
    subst this
    rw [if_pos hs, hadv]
    exact ⟨rfl, rfl⟩
  · left
    rw [if_neg (by rw [hs]; simpa using h)]
    exact ⟨h, rfl⟩

theorem ne_ip {s : Stage} (h : s ≠ .IPEOMCC) : s.value ≠ 4 := by
  intro h4; exact h (value_inj h4)

/-- one round of the loop over the number of states -/
theorem good_round (env : Env) (k : Step) (b : Run Bool)
    {A : Stage → Prop} (hA : ∀ x : Stage, x.value = 5 → A x)
    (hk : Good k (fun s => 4 ≤ s.value ∧ A s) (fun s => 5 ≤ s.value) A) :
    Good (andThen (ipCalc env) (afterIp b k)) (fun s => 4 ≤ s.value ∧ A s) (fun s => 5 ≤ s.value) A := by
  intro j s hs ⟨h4, hAs⟩
  by_cases hip : s = .IPEOMCC
  · subst hip
    by_cases hr : env.ip j.nip = .done ()
    · have : andThen (ipCalc env) (afterIp b k) j =
          afterIp b k { j with log := j.log ++ [.ran .IPEOMCC] } := by
        simp [Workflow.andThen, ipCalc, hs, runStage, hr]
      rw [this]
      unfold afterIp
      split
      · exact ⟨[.ran .IPEOMCC], _, hs, rfl, by simp [written], .again _ _ (.stay _), hAs, by simp⟩
      · exact ⟨[.ran .IPEOMCC], _, hs, rfl, by simp [written], .again _ _ (.stay _), hAs, by simp⟩
      · rcases advanceFromIp_eq { j with log := j.log ++ [.ran .IPEOMCC] } .IPEOMCC hs with ⟨h, -⟩ | ⟨-, h⟩
        · exact absurd rfl h
        · rw [h]
          exact ⟨[.ran .IPEOMCC, .recorded .IPEOMCC], .PREPVIB, rfl, by simp, by simp [written],
              .stage _ .PREPVIB _ _ rfl (.stay _), hA _ rfl, fun _ => by decide⟩
      · obtain ⟨l, s', k1, k2, k3, k4, k5, k6⟩ :=
          hk { j with log := j.log ++ [.ran .IPEOMCC] } .IPEOMCC hs ⟨by decide, hAs⟩
        refine ⟨.ran .IPEOMCC :: l, s', k1, ?_, ?_, .again _ _ k4, k5, k6⟩
        · simpa using k2
        · simpa [written] using k3
    · have : andThen (ipCalc env) (afterIp b k) j = (j, env.ip j.nip) := by
        have e : ipCalc env j = (j, env.ip j.nip) := by
          simp only [ipCalc, hs, if_true, runStage]
        rw [andThen_fail (by rw [e]; exact hr), e]
      rw [this]
      exact ⟨[], _, hs, by simp, by simp [written], .stay _, hAs, fun h => absurd h hr⟩
  · have : andThen (ipCalc env) (afterIp b k) j = afterIp b k j := by
      have hp : ipCalc env j = (j, .done ()) := by
        unfold ipCalc
        rw [if_neg (by rw [hs]; simpa using hip)]
      simp [Workflow.andThen, hp]
    rw [this]
    have h5 : 5 ≤ s.value := by have := ne_ip hip; omega
    unfold afterIp
    split
    · exact ⟨[], _, hs, by simp, by simp [written], .stay _, hAs, by simp⟩
    · exact ⟨[], _, hs, by simp, by simp [written], .stay _, hAs, by simp⟩
    · rcases advanceFromIp_eq j s hs with ⟨-, h⟩ | ⟨h, -⟩
      · rw [h]
        exact ⟨[], _, hs, by simp, by simp [written], .stay _, hAs, fun _ => h5⟩
      · exact absurd h hip
    · exact hk j s hs ⟨h4, hAs⟩

theorem good_verifyIp (env : Env) {A : Stage → Prop} (hA : ∀ x : Stage, x.value = 5 → A x) (n : Nat) :
    Good (verifyIp env n) (fun s => 4 ≤ s.value ∧ A s) (fun s => 5 ≤ s.value) A := by
  induction n with
  | zero =>
    refine good_round env _ _ hA ?_
    intro j s hs h
    exact ⟨[], s, hs, by simp, by simp [written], .stay s, h.2, by simp⟩
  | succ n ih =>
    refine good_round env _ _ hA ?_
    intro j s hs h
    by_cases hn : n = 0
    · subst hn
      exact ⟨[], s, hs, by simp, by simp [written], .stay s, h.2, by simp⟩
    · simp only [if_neg hn]
      exact ih { j with nip := n } s hs h

/-- The part of the run up to the ionised states. -/
def firstPart (env : Env) : Step :=
  andThen (whenIn .OPT (env.calculation .OPT)) <|
  andThen (call env.parseOpt) <|
  andThen (whenIn .NIP (env.calculation .NIP)) <|
  andThen (parseNip env) <|
  andThen (whenIn .VIB (env.calculation .VIB)) fun j => verifyIp env j.nip j

/-- The part of the run after the ionised states up to the last parser. -/
def secondPart (template : Option Str) (env : Env) : Step :=
  andThen (whenIn .PREPVIB (prepCalculation template (env.calculation .PREPVIB))) <|
  andThen (call env.parsePrep) <|
  andThen (whenIn .VIBRON (env.calculation .VIBRON)) (call env.parseVibron)

theorem andThen_assoc (f g h : Step) : andThen (andThen f g) h = andThen f (andThen g h) := by
  funext j
  by_cases hf : (f j).2 = .done ()
  · rw [andThen_done hf]
    by_cases hg : (g (f j).1).2 = .done ()
    · rw [andThen_done hg, andThen_done (by rw [andThen_done hf]; exact hg), andThen_done hf]
    · rw [andThen_fail hg, andThen_fail (by rw [andThen_done hf]; exact hg), andThen_done hf]
  · rw [andThen_fail hf, andThen_fail (by rw [andThen_fail hf]; exact hf), andThen_fail hf]

theorem body_eq (template : Option Str) (env : Env) :
    body template env = andThen (firstPart env) (andThen (secondPart template env) advance) := by
  simp only [firstPart, secondPart, andThen_assoc, body]

theorem good_firstPart (env : Env) (A : Stage → Prop) (hA : ∀ x : Stage, x.value ≤ 5 → A x) :
    Good (firstPart env) A (fun s => 5 ≤ s.value) A := by
  unfold firstPart
  refine Good.mono (P := fun x => Stage.OPT.value ≤ x.value ∧ A x) ?_
    (fun s h => ⟨(value_le s).1, h⟩) (fun _ h => h) (fun _ h => h)
  refine (good_whenIn .OPT (by decide) _ fun x hx => hA x ?_).andThen ?_
  · rw [hx]; decide
  refine (good_call _).andThen ?_
  refine (good_whenIn .NIP (by decide) _ fun x hx => hA x ?_).andThen ?_
  · rw [hx]; decide
  refine (good_parseNip _).andThen ?_
  refine (good_whenIn .VIB (by decide) _ fun x hx => hA x ?_).andThen ?_
  · rw [hx]; decide
  intro j s hs hP
  exact good_verifyIp env (fun x hx => hA x (by omega)) j.nip j s hs hP

theorem good_secondPart (template : Option Str) (env : Env) :
    Good (secondPart template env) (fun s => 5 ≤ s.value) (fun s => s = .FINISHED) (fun _ => True) := by
  unfold secondPart
  refine Good.mono (P := fun x => Stage.PREPVIB.value ≤ x.value ∧ True) (Q := fun s => 7 ≤ s.value) ?_
    (fun s h => ⟨h, trivial⟩) ?_ (fun _ h => h)
  · refine (good_whenIn .PREPVIB (by decide) _ fun x hx => trivial).andThen ?_
    refine (good_call _).andThen ?_
    refine (good_whenIn .VIBRON (by decide) _ fun x hx => trivial).andThen ?_
    exact good_call _
  · intro s h
    exact value_inj (by have := (value_le s).2; simp only [Stage.value] at *; omega)

/-! ### The state file -/

theorem name_no_nl (s : Stage) : '\n' ∉ s.name := by cases s <;> decide

theorem name_ne_nil (s : Stage) : s.name ≠ [] := by cases s <;> decide

theorem keepLines_line (a b : Str) (h : '\n' ∉ a) :
    keepLines (a ++ '\n' :: b) = (a ++ ['\n']) :: keepLines b := by
  induction a with
  | nil => simp [keepLines]
  | cons c a ih =>
    simp only [List.mem_cons, not_or] at h
    rw [List.cons_append, keepLines, if_neg (fun e => h.1 e.symm), ih h.2]
    rfl

theorem keepLines_listing (l : List Stage) :
    keepLines (listing l) = l.map fun s => s.name ++ ['\n'] := by
  induction l with
  | nil => rfl
  | cons s l ih =>
    have : listing (s :: l) = s.name ++ '\n' :: listing l := by simp [listing]
    rw [this, keepLines_line _ _ (name_no_nl s), ih]
    rfl

theorem strip_name (s : Stage) : strip (s.name ++ ['\n']) = s.name := by
  cases s <;> decide

theorem find_name (s : Stage) : (Stage.all.find? fun m => decide (m.name = s.name)) = some s := by
  cases s <;> decide

theorem scanLines_map (l : List Stage) (h : ∀ s ∈ l, s ≠ .FINISHED) (st : Option Stage) :
    ∀ t, (match l.getLast? with
      | none => st = t
      | some s => ∃ u : Stage, t = some u ∧ u.value = s.value + 1) →
    scanLines (.ok false) (l.map fun s => s.name ++ ['\n']) st = .ok t := by
  induction l generalizing st with
  | nil => intro t ht; simp only [List.getLast?_nil] at ht; simp [scanLines, ht]
  | cons s l ih =>
    intro t ht
    obtain ⟨u, hu, huv⟩ := next_exists s (h s (by simp))
    have hne : ¬ (s.name ++ ['\n'] = [] ∨ s.name ++ ['\n'] = c!"\n") := by cases s <;> decide
    rw [List.map_cons, scanLines, if_neg hne]
    simp only [strip_name, find_name, hu]
    apply ih (fun x hx => h x (by simp [hx]))
    cases l with
    | nil =>
      simp only [List.getLast?_singleton] at ht
      obtain ⟨u', rfl, hv⟩ := ht
      simp only [List.getLast?_nil, Option.some.injEq]
      exact value_inj (by omega)
    | cons a l =>
      rw [List.getLast?_cons_cons] at ht
      cases hl : (a :: l).getLast? with
      | none => simp at hl
      | some z => rw [hl] at ht; exact ht

/-- Reading a listing of unfinished stages gives the stage after the first one listed. -/
theorem stateFromFile_listing (s : Stage) (l : List Stage) (h : ∀ x ∈ s :: l, x ≠ .FINISHED) :
    ∃ t : Stage, t.value = s.value + 1 ∧ stateFromFile (.ok false) (listing (s :: l)) = .ok (some t) := by
  obtain ⟨t, ht, htv⟩ := next_exists s (h s (by simp))
  refine ⟨t, htv, ?_⟩
  have hne : ∃ c r, listing (s :: l) = c :: r := by
    obtain ⟨c, r, hcr⟩ := List.exists_cons_of_ne_nil (name_ne_nil s)
    exact ⟨c, r ++ '\n' :: listing l, by simp [listing, hcr]⟩
  obtain ⟨c, r, hcr⟩ := hne
  have e : stateFromFile (.ok false) (listing (s :: l)) =
      scanLines (.ok false) (keepLines (listing (s :: l))).reverse none := by
    rw [hcr]; rfl
  rw [e, keepLines_listing, ← List.map_reverse]
  apply scanLines_map _ fun x hx => h x (List.mem_reverse.mp hx)
  simp only [List.getLast?_reverse, List.head?_cons]
  exact ⟨t, rfl, htv⟩

/-- the recorded stages among the events -/
def recordedStages (l : List Event) : List Stage :=
  l.filterMap fun
    | .ran _ => none
    | .recorded s => some s

theorem written_eq (l : List Event) : written l = listing (recordedStages l) := by
  induction l with
  | nil => rfl
  | cons e l ih =>
    cases e with
    | ran s => simpa [written, recordedStages] using ih
    | recorded s =>
      simp only [written, listing, recordedStages, List.flatMap_cons, List.filterMap_cons] at ih ⊢
      rw [ih]

theorem listing_append (a b : List Stage) : listing (a ++ b) = listing a ++ listing b := by
  simp [listing]

end Pibronic.Workflow
