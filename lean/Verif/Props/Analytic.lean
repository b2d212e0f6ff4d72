import Verif.Spec.Analytic
import Verif.Lemmas.Str
import Verif.Lemmas.FileStructure
import Verif.Lemmas.Postprocessing
import Mathlib.Data.Rat.Defs
import Mathlib.Tactic.NormNum

set_option autoImplicit false
set_option linter.unusedSectionVars false

/-!
Theorems about `julia_wrapper.py` and `load_analytic_data`: C50 (results files never mix models),
C51 (a calculation adds its temperature and keeps the others), C52 (the stored results can be used).
-/
namespace Pibronic.Props.Analytic
open Pibronic.Py Pibronic.FileName Pibronic.FileStructure Pibronic.Analytic Pibronic.Spec.Analytic
open Pibronic.Spec.FileStructure Pibronic.Postprocessing

variable {V : Type}

theorem tempStr_ne_hash_vib (T : Nat) : tempStr T ≠ c!"hash_vib" := fun h =>
  notMem_tempStr (c := 'h') (by decide) (by decide) T (by rw [h]; decide)
theorem tempStr_ne_hash_rho (T : Nat) : tempStr T ≠ c!"hash_rho" := fun h =>
  notMem_tempStr (c := 'h') (by decide) (by decide) T (by rw [h]; decide)

@[simp] theorem set_same (d : ADict V) (k : Str) (v : AVal V) : (d.set k v) k = some v := by
  simp [ADict.set]
theorem set_other (d : ADict V) (k k' : Str) (v : AVal V) (h : k' ≠ k) : (d.set k v) k' = d k' := by
  simp [ADict.set, h]

theorem hasHash_iff (d : ADict V) (k h : Str) : hasHash d k h = true ↔ d k = some (.hash h) := by
  unfold hasHash
  split
  · next h' e => rw [e]; simp
  · next hn =>
    constructor
    · intro h0; cases h0
    · intro h0; exact absurd h0 (hn h)

/-- Does the dictionary carry the current hashes? -/
def Carries (m : Method) (h : Hashes) (d : ADict V) : Prop :=
  d c!"hash_vib" = some (.hash h.vib) ∧ (m = .sampling → d c!"hash_rho" = some (.hash h.rho))

theorem checksRho_iff (m : Method) : m.checksRho = true ↔ m = .sampling := by
  cases m <;> simp [Method.checksRho]

theorem validate_carries (m : Method) (h : Hashes) (d : ADict V) :
    Carries m h (validate m.checksRho h d) := by
  constructor
  · cases m <;> simp [validate, ADict.set, Method.checksRho]
  · rintro rfl; simp [validate, ADict.set, Method.checksRho]

theorem validate_of_carries (m : Method) (h : Hashes) (d : ADict V) (hc : Carries m h d) :
    validate m.checksRho h d = d := by
  have h1 := (hasHash_iff d _ _).2 hc.1
  have hset : ∀ (d : ADict V) k v, d k = some v → d.set k v = d := by
    intro d k v h0
    funext k'
    by_cases hk : k' = k
    · subst hk; simp [h0]
    · exact set_other d k k' v hk
  by_cases hm : m = .sampling
  · subst hm
    have h2 := (hasHash_iff d _ _).2 (hc.2 rfl)
    simp only [validate, h1, h2, Method.checksRho, Bool.not_true, Bool.false_or, Bool.and_true,
      if_true]
    rw [hset d _ _ hc.1, hset d _ _ (hc.2 rfl)]
  · have h3 : m.checksRho = false := by
      cases m <;> simp_all [Method.checksRho]
    simp only [validate, h1, h3, Bool.not_false, Bool.true_or, Bool.and_true, if_true,
      Bool.false_eq_true, if_false]
    rw [hset d _ _ hc.1]

theorem validate_of_not_carries (m : Method) (h : Hashes) (d : ADict V) (hc : ¬ Carries m h d)
    (k : Str) (h1 : k ≠ c!"hash_vib") (h2 : k ≠ c!"hash_rho") : validate m.checksRho h d k = none := by
  have : (hasHash d c!"hash_vib" h.vib && (!m.checksRho || hasHash d c!"hash_rho" h.rho)) = false := by
    by_contra hn
    simp only [Bool.not_eq_false, Bool.and_eq_true, Bool.or_eq_true, hasHash_iff,
      Bool.not_eq_true'] at hn
    refine hc ⟨hn.1, fun hm => ?_⟩
    rcases hn.2 with h0 | h0
    · subst hm; cases h0
    · exact h0
  simp only [validate, this, Bool.false_eq_true, if_false]
  cases m.checksRho
  · simp only [Bool.false_eq_true, if_false]
    rw [set_other _ _ _ _ h1]
  · simp only [if_true]
    rw [set_other _ _ _ _ h2, set_other _ _ _ _ h1]

theorem carries_set (m : Method) (h : Hashes) (d : ADict V) (hc : Carries m h d) (T : Nat)
    (e : AVal V) : Carries m h (d.set (tempStr T) e) := by
  constructor
  · rw [ADict.set, if_neg (tempStr_ne_hash_vib T).symm]; exact hc.1
  · intro hm; rw [ADict.set, if_neg (tempStr_ne_hash_rho T).symm]; exact hc.2 hm

/-- What a successful call does, in one equation. -/
theorem baseFunc_ok {float : Str → Except Err V} {m : Method} {h : Hashes} {T : Nat} {killed : Bool}
    {out : Str} {old c : Contents V} (hok : baseFunc float m.checksRho h T killed out old = .ok c) :
    ∃ d e, readOld old = .ok d ∧ compute float killed out = .ok (some e) ∧
      c = .dict ((validate m.checksRho h d).set (tempStr T) (.entry e)) := by
  unfold baseFunc at hok
  cases hd : readOld old with
  | error e => rw [hd] at hok; cases hok
  | ok d =>
    rw [hd] at hok
    simp only [bind, Except.bind] at hok
    cases hc : compute float killed out with
    | error e => rw [hc] at hok; cases hok
    | ok r =>
      rw [hc] at hok
      cases r with
      | none => cases hok
      | some e =>
        simp only [Except.ok.injEq] at hok
        refine ⟨d, e, rfl, rfl, ?_⟩
        rw [← hok, validate_of_carries]
        exact carries_set m h _ (validate_carries m h d) T _

/-! ### C51 -/

/-- C51: a successful calculation whose file already carried the current hashes writes its own
temperature and keeps everything else. -/
theorem C51_keeps_other_temperatures (float : Str → Except Err V) (m : Method) (h : Hashes) (T : Nat)
    (killed : Bool) (out : Str) (d : ADict V) (hc : Carries m h d) (c : Contents V)
    (hok : baseFunc float m.checksRho h T killed out (.dict d) = .ok c) :
    ∃ e d', compute float killed out = .ok (some e) ∧ c = .dict d' ∧
      d' (tempStr T) = some (.entry e) ∧ ∀ k, k ≠ tempStr T → d' k = d k := by
  obtain ⟨d0, e, h1, h2, rfl⟩ := baseFunc_ok hok
  simp only [readOld, Except.ok.injEq] at h1
  subst h1
  rw [validate_of_carries m h _ hc]
  exact ⟨e, _, h2, rfl, by simp [ADict.set], fun k hk => by simp [ADict.set, hk]⟩

/-- C51: with other (or no) hashes in the file all old entries are discarded; the same for a missing
or empty file. -/
theorem C51_discards_stale (float : Str → Except Err V) (m : Method) (h : Hashes) (T : Nat)
    (killed : Bool) (out : Str) (old : Contents V) (hc : ∀ d, old = .dict d → ¬ Carries m h d)
    (c : Contents V) (hok : baseFunc float m.checksRho h T killed out old = .ok c) :
    ∃ e d', compute float killed out = .ok (some e) ∧ c = .dict d' ∧ Carries m h d' ∧
      d' (tempStr T) = some (.entry e) ∧
      ∀ k, k ≠ tempStr T → k ≠ c!"hash_vib" → k ≠ c!"hash_rho" → d' k = none := by
  obtain ⟨d0, e, h1, h2, rfl⟩ := baseFunc_ok hok
  refine ⟨e, _, h2, rfl, carries_set m h _ (validate_carries m h d0) T _, by simp [ADict.set], ?_⟩
  intro k k1 k2 k3
  rw [ADict.set, if_neg k1]
  by_cases hd : Carries m h d0
  · cases old with
    | dict d =>
      simp only [readOld, Except.ok.injEq] at h1
      subst h1
      exact absurd hd (hc _ rfl)
    | absent =>
      simp only [readOld, Except.ok.injEq] at h1
      subst h1; cases hd.1
    | short =>
      simp only [readOld, Except.ok.injEq] at h1
      subst h1; cases hd.1
    | broken => cases h1
  · exact validate_of_not_carries m h d0 hd k k2 k3

/-- C51: the exact conditions of success. -/
theorem C51_succeeds_iff (float : Str → Except Err V) (m : Method) (h : Hashes) (T : Nat)
    (killed : Bool) (out : Str) (old : Contents V) :
    (∃ c, baseFunc float m.checksRho h T killed out old = .ok c) ↔
      (∀ x, old = x → x ≠ .broken) ∧ ∃ e, compute float killed out = .ok (some e) := by
  constructor
  · rintro ⟨c, hok⟩
    obtain ⟨d0, e, h1, h2, _⟩ := baseFunc_ok hok
    refine ⟨?_, e, h2⟩
    rintro x rfl rfl; cases h1
  · rintro ⟨h1, e, h2⟩
    cases old with
    | broken => exact absurd rfl (h1 _ rfl)
    | absent => exact ⟨_, by simp only [baseFunc, readOld, h2, bind, Except.bind]; rfl⟩
    | short => exact ⟨_, by simp only [baseFunc, readOld, h2, bind, Except.bind]; rfl⟩
    | dict d => exact ⟨_, by simp only [baseFunc, readOld, h2, bind, Except.bind]; rfl⟩

/-- C51: a call that fails for any reason leaves all files as they were. -/
theorem C51_failure_changes_nothing (hash : Str → Str) (float : Str → Except Err V) (prog : Program)
    (w : World V) (m : Method) (T : Nat) (killed : Bool)
    (hf : ∀ c, baseFunc float m.checksRho w.hashes T killed (prog (w.source m) m T) (w.files m)
      ≠ .ok c) : w.step hash float prog (.calc m T killed) = w := by
  simp only [World.step]
  cases hb : baseFunc float m.checksRho w.hashes T killed (prog (w.source m) m T) (w.files m) with
  | error e => rfl
  | ok c => exact absurd hb (hf c)

/-- C51: how a call fails: results that are not JSON are a `ValueError`, whatever the program does; then a
killed program and a program that prints nothing are refused with an `Exception`. -/
theorem C51_errors (float : Str → Except Err V) (m : Method) (h : Hashes) (T : Nat) (killed : Bool)
    (out : Str) (old : Contents V) :
    baseFunc float m.checksRho h T killed out .broken = .error .value ∧
    (old ≠ .broken → baseFunc float m.checksRho h T true out old = .error .exception) ∧
    (old ≠ .broken → baseFunc float m.checksRho h T killed [] old = .error .exception) := by
  have hk : compute float true out = .ok none := by simp [compute]
  have he : compute float killed [] = .ok none := by
    have hn : parseOutput [] = .ok [] := by
      have : split c!"\n" [] = [[]] :=
        split_of_find_none '\n' [] [] (find_none_of_notMem '\n' [] [] (by simp))
      simp only [parseOutput, this]; rfl
    cases killed <;> simp [compute, hn, bind, Except.bind]
  refine ⟨rfl, fun ho => ?_, fun ho => ?_⟩
  · cases old with
    | broken => exact absurd rfl ho
    | _ => simp only [baseFunc, readOld, hk, bind, Except.bind]
  · cases old with
    | broken => exact absurd rfl ho
    | _ => simp only [baseFunc, readOld, he, bind, Except.bind]

/-- C51: after a crash that leaves an empty file the next calculation fills it; after one that leaves an
unreadable file no calculation changes it any more. -/
theorem C51_after_crash (hash : Str → Str) (float : Str → Except Err V) (prog : Program) (w : World V)
    (m : Method) (T : Nat) (killed : Bool) :
    ((∃ e, compute float killed (prog (w.source m) m T) = .ok (some e)) →
      ∃ d, ((w.step hash float prog (.crash m false)).step hash float prog (.calc m T killed)).files m =
        .dict d ∧ ∃ e, d (tempStr T) = some (.entry e)) ∧
    (w.step hash float prog (.crash m true)).step hash float prog (.calc m T killed) =
      w.step hash float prog (.crash m true) := by
  have hsrc : ∀ u, (w.step hash float prog (.crash m u)).source m = w.source m := by
    intro u; cases m <;> rfl
  constructor
  · rintro ⟨e, he⟩
    have hne : ∀ k ∈ [c!"hash_vib", c!"hash_rho"], tempStr T ≠ k := by
      intro k hk
      simp only [List.mem_cons, List.not_mem_nil, or_false] at hk
      rcases hk with rfl | rfl <;> exact fun e => notMem_tempStr (c := 'h') (by decide) (by decide) T
        (by rw [e]; decide)
    have hb : baseFunc float m.checksRho (w.step hash float prog (.crash m false)).hashes T killed
        (prog ((w.step hash float prog (.crash m false)).source m) m T)
        ((w.step hash float prog (.crash m false)).files m) = baseFunc float m.checksRho w.hashes T killed
        (prog (w.source m) m T) .short := by
      rw [hsrc]
      simp [World.step]
    have hok : ∃ d, baseFunc float m.checksRho w.hashes T killed (prog (w.source m) m T) .short
        = .ok (.dict d) ∧ ∃ e, d (tempStr T) = some (.entry e) := by
      refine ⟨_, by simp only [baseFunc, readOld, he, bind, Except.bind]; rfl, e, ?_⟩
      have h1 := hne _ (by simp : c!"hash_vib" ∈ [c!"hash_vib", c!"hash_rho"])
      have h2 := hne _ (by simp : c!"hash_rho" ∈ [c!"hash_vib", c!"hash_rho"])
      cases m.checksRho <;> simp [validate, hasHash, ADict.set, h1, h2, Ne.symm h1, Ne.symm h2]
    obtain ⟨d, hd, he'⟩ := hok
    refine ⟨d, ?_, he'⟩
    rw [hd] at hb
    generalize w.step hash float prog (.crash m false) = w' at hb ⊢
    unfold World.step
    simp only [hb, if_true]
  · have hb : baseFunc float m.checksRho (w.step hash float prog (.crash m true)).hashes T killed
        (prog ((w.step hash float prog (.crash m true)).source m) m T)
        ((w.step hash float prog (.crash m true)).files m) = .error .value := by
      simp [World.step, baseFunc, readOld, bind, Except.bind]
    generalize w.step hash float prog (.crash m true) = w' at hb ⊢
    unfold World.step
    simp only [hb]

/-- A killed program is a failure. -/
theorem C51_killed_fails (float : Str → Except Err V) (m : Method) (h : Hashes) (T : Nat)
    (out : Str) (old : Contents V) (c : Contents V) :
    baseFunc float m.checksRho h T true out old ≠ .ok c := by
  intro hok
  obtain ⟨_, e, _, h2, _⟩ := baseFunc_ok hok
  simp [compute] at h2

theorem split_nil (c : Char) : split [c] [] = [[]] :=
  split_of_find_none c [] [] (find_none_of_notMem c [] [] (by simp))

theorem parseOutput_nil : parseOutput [] = .ok [] := by
  simp only [parseOutput, split_nil]; rfl

/-- So is an empty output. -/
theorem C51_empty_output_fails (float : Str → Except Err V) (m : Method) (h : Hashes) (T : Nat)
    (killed : Bool) (old : Contents V) (c : Contents V) :
    baseFunc float m.checksRho h T killed [] old ≠ .ok c := by
  intro hok
  obtain ⟨_, e, _, h2, _⟩ := baseFunc_ok hok
  cases killed <;> simp [compute, parseOutput_nil, bind, Except.bind] at h2

theorem linePair_of (k v : Str) (hk : ':' ∉ k) (hv : ':' ∉ v) :
    linePair (k ++ ':' :: v) = .ok (k, v) := by
  have hf : find c!":" (k ++ ':' :: v) = some (k, v) := by
    have := find_of_notMem ':' [] k v hk
    simpa using this
  rw [linePair, split_of_find ':' [] _ _ _ hf,
    split_of_find_none ':' [] _ (find_none_of_notMem _ _ _ hv)]

/-- The text that a program prints: one line `name:value` for each pair. -/
def printLines (pairs : List (Str × Str)) : Str :=
  pairs.flatMap fun p => p.1 ++ ':' :: p.2 ++ ['\n']

theorem split_printLines (pairs : List (Str × Str)) (h : ∀ p ∈ pairs, '\n' ∉ p.1 ∧ '\n' ∉ p.2) :
    split c!"\n" (printLines pairs) = pairs.map (fun p => p.1 ++ ':' :: p.2) ++ [[]] := by
  induction pairs with
  | nil => exact split_nil '\n'
  | cons p rest ih =>
    have hp := h p (by simp)
    have hf : find c!"\n" (printLines (p :: rest)) = some (p.1 ++ ':' :: p.2, printLines rest) := by
      have := find_of_notMem '\n' [] (p.1 ++ ':' :: p.2) (printLines rest) (by simp [hp.1, hp.2])
      simpa [printLines] using this
    rw [split_of_find '\n' [] _ _ _ hf, ih (fun q hq => h q (by simp [hq]))]
    rfl

theorem mapM_linePair (pairs : List (Str × Str)) (h : ∀ p ∈ pairs, ':' ∉ p.1 ∧ ':' ∉ p.2) :
    (pairs.map fun p => p.1 ++ ':' :: p.2).mapM linePair = .ok pairs := by
  induction pairs with
  | nil => rfl
  | cons p rest ih =>
    rw [List.map_cons, List.mapM_cons, linePair_of _ _ (h p (by simp)).1 (h p (by simp)).2,
      ih (fun q hq => h q (by simp [hq]))]
    rfl

/-- C51: an output of lines `name:value` (neither part with a colon or a line end) is read as exactly
these pairs. -/
theorem C51_reads_printed_lines (pairs : List (Str × Str))
    (h : ∀ p ∈ pairs, (':' ∉ p.1 ∧ '\n' ∉ p.1) ∧ ':' ∉ p.2 ∧ '\n' ∉ p.2) :
    parseOutput (printLines pairs) = .ok pairs := by
  rw [parseOutput, split_printLines pairs (fun p hp => ⟨(h p hp).1.2, (h p hp).2.2⟩)]
  have hfil : (pairs.map (fun p : Str × Str => p.1 ++ ':' :: p.2) ++ [[]]).filter (fun l => !l.isEmpty)
      = pairs.map (fun p : Str × Str => p.1 ++ ':' :: p.2) := by
    rw [List.filter_append]
    simp only [List.isEmpty_nil, Bool.not_true, Bool.false_eq_true, not_false_eq_true,
      List.filter_cons_of_neg, List.filter_nil, List.append_nil, List.filter_eq_self]
    intro l hl
    obtain ⟨p, _, rfl⟩ := List.mem_map.1 hl
    cases hp : p.1 <;> simp
  simp only [hfil]
  rw [if_pos, mapM_linePair pairs (fun p hp => ⟨(h p hp).1.1, (h p hp).2.1⟩)]
  rw [List.all_eq_true]
  intro l hl
  obtain ⟨p, _, rfl⟩ := List.mem_map.1 hl
  simp

/-- C51: text after the last line end, or a line without or with two colons, makes the call fail: without
a colon the check of the output fails, otherwise the line is a `ValueError`. -/
theorem C51_bad_line_fails (out line : Str) (hl : line ∈ split c!"\n" out) (hne : line ≠ [])
    (hbad : (split c!":" line).length ≠ 2) :
    parseOutput out = .error (if ∀ l ∈ split c!"\n" out, l ≠ [] → ':' ∈ l then .value else .assertion) := by
  rw [parseOutput]
  have hmem : line ∈ (split c!"\n" out).filter fun l => !l.isEmpty := by
    rw [List.mem_filter]; refine ⟨hl, ?_⟩; cases line <;> simp_all
  have hiff : (∀ l ∈ split c!"\n" out, l ≠ [] → ':' ∈ l) ↔
      ((split c!"\n" out).filter fun l => !l.isEmpty).all (fun l => l.contains ':') = true := by
    simp only [List.all_eq_true, List.mem_filter, List.contains_iff_mem, Bool.not_eq_true',
      List.isEmpty_eq_false_iff, ne_eq, and_imp]
  simp only [hiff]
  generalize (split c!"\n" out).filter (fun l => !l.isEmpty) = ls at hmem
  split
  · next hall =>
    clear hl hall hiff
    have hv : ∀ l e, linePair l = .error e → e = .value := by
      intro l e he
      unfold linePair at he
      split at he
      · cases he
      · cases he; rfl
    induction ls with
    | nil => cases hmem
    | cons l ls ih =>
      rw [List.mapM_cons]
      cases hx : linePair l with
      | error e => rw [hv l e hx]; rfl
      | ok q =>
        rcases List.mem_cons.1 hmem with rfl | hmem
        · exfalso
          unfold linePair at hx
          split at hx
          · next h2 => rw [h2] at hbad; exact hbad rfl
          · cases hx
        · rw [ih hmem]; rfl
  · rfl

/-- The names in `keyDict` are all different. -/
theorem keyDict_nodup : (keyDict.map (·.1)).Nodup := by decide

theorem convertEntry_spec (float : Str → Except Err V) (out : Str → Option Str) :
    ∀ (l : List (Str × Str)) (e : Str → Option V), (l.map (·.1)).Nodup →
      convertEntry float out l = .ok e →
      (∀ p ∈ l, ∀ text, out p.2 = some text → ∃ v, float text = .ok v ∧ e p.1 = some v) ∧
      (∀ p ∈ l, out p.2 = none → e p.1 = none) ∧ ∀ k, k ∉ l.map (·.1) → e k = none := by
  intro l
  induction l with
  | nil =>
    intro e _ h
    simp only [convertEntry, Except.ok.injEq] at h
    subst h
    exact ⟨by simp, by simp, fun _ _ => rfl⟩
  | cons p rest ih =>
    intro e hnd h
    obtain ⟨new, old⟩ := p
    simp only [List.map_cons, List.nodup_cons] at hnd
    simp only [convertEntry] at h
    cases ho : out old with
    | none =>
      rw [ho] at h
      obtain ⟨i1, i2, i3⟩ := ih e hnd.2 h
      refine ⟨?_, ?_, ?_⟩
      · intro p hp text ht
        rcases List.mem_cons.1 hp with rfl | hp
        · rw [ho] at ht; cases ht
        · exact i1 p hp text ht
      · intro p hp ht
        rcases List.mem_cons.1 hp with rfl | hp
        · exact i3 _ hnd.1
        · exact i2 p hp ht
      · intro k hk
        simp only [List.map_cons, List.mem_cons, not_or] at hk
        exact i3 k hk.2
    | some text =>
      rw [ho] at h
      simp only [bind, Except.bind] at h
      cases hv : float text with
      | error x => rw [hv] at h; cases h
      | ok v =>
        rw [hv] at h
        cases hr : convertEntry float out rest with
        | error x => rw [hr] at h; cases h
        | ok e' =>
          rw [hr] at h
          simp only [Except.ok.injEq] at h
          subst h
          obtain ⟨i1, i2, i3⟩ := ih e' hnd.2 hr
          refine ⟨?_, ?_, ?_⟩
          · intro p hp t ht
            rcases List.mem_cons.1 hp with rfl | hp
            · rw [ho] at ht; cases ht; exact ⟨v, hv, by simp⟩
            · have hne : p.1 ≠ new := fun h0 => hnd.1 (h0 ▸ List.mem_map_of_mem hp)
              obtain ⟨w, h1, h2⟩ := i1 p hp t ht
              exact ⟨w, h1, by simp [hne, h2]⟩
          · intro p hp ht
            rcases List.mem_cons.1 hp with rfl | hp
            · rw [ho] at ht; cases ht
            · have hne : p.1 ≠ new := fun h0 => hnd.1 (h0 ▸ List.mem_map_of_mem hp)
              simp [hne, i2 p hp ht]
          · intro k hk
            simp only [List.map_cons, List.mem_cons, not_or] at hk
            simp [hk.1, i3 k hk.2]

/-- `text` is printed last under `name` -/
def PrintedLast (pairs : List (Str × Str)) (name text : Str) : Prop :=
  ∃ before after, pairs = before ++ (name, text) :: after ∧ ∀ p ∈ after, p.1 ≠ name

theorem dictOf_last {pairs : List (Str × Str)} {name text : Str} (h : PrintedLast pairs name text) :
    dictOf pairs name = some text := by
  obtain ⟨l, r, rfl, hr⟩ := h
  unfold dictOf
  have hn : r.reverse.find? (fun p => p.1 == name) = none := by
    rw [List.find?_eq_none]
    intro p hp
    simpa using hr p (List.mem_reverse.mp hp)
  simp [List.find?_append, hn]

theorem dictOf_absent {pairs : List (Str × Str)} {name : Str} (h : ∀ p ∈ pairs, p.1 ≠ name) :
    dictOf pairs name = none := by
  unfold dictOf
  rw [Option.map_eq_none_iff, List.find?_eq_none]
  intro p hp
  simpa using h p (List.mem_reverse.mp hp)

/-- C51: what is stored for the temperature: for each pair (new name, printed name) of the table the
number printed last under the printed name; printed names outside the table are dropped. -/
theorem C51_entry_values (float : Str → Except Err V) (out : Str) (e : Str → Option V)
    (h : compute float false out = .ok (some e)) :
    ∃ pairs, parseOutput out = .ok pairs ∧ pairs ≠ [] ∧
      (∀ new old, (new, old) ∈ keyDict → ∀ text, PrintedLast pairs old text →
        ∃ v, float text = .ok v ∧ e new = some v) ∧
      (∀ new old, (new, old) ∈ keyDict → (∀ p ∈ pairs, p.1 ≠ old) → e new = none) ∧
      ∀ k, (∀ old, (k, old) ∉ keyDict) → e k = none := by
  simp only [compute, Bool.false_eq_true, if_false, bind, Except.bind] at h
  cases hp : parseOutput out with
  | error x => rw [hp] at h; cases h
  | ok pairs =>
    rw [hp] at h
    by_cases h0 : pairs = []
    · simp [h0] at h
    · simp only [h0, if_false] at h
      cases hc : convertEntry float (dictOf pairs) keyDict with
      | error x => rw [hc] at h; cases h
      | ok e' =>
        rw [hc] at h
        simp only [Except.ok.injEq, Option.some.injEq] at h
        subst h
        obtain ⟨i1, i2, i3⟩ := convertEntry_spec float _ keyDict e' keyDict_nodup hc
        refine ⟨pairs, rfl, h0, fun n o hm t ht => i1 (n, o) hm t (dictOf_last ht),
          fun n o hm ht => i2 (n, o) hm (dictOf_absent ht), fun k hk => i3 k ?_⟩
        intro hm
        obtain ⟨⟨n, o⟩, h1, rfl⟩ := List.mem_map.1 hm
        exact hk o h1

/-- The quantities that the programs print for each method. -/
def quantities : List Str := [c!"Z", c!"E", c!"Cv", c!"SvN", c!"S2"]

/-- C51: the table.  The quantities of the Monte Carlo, Trotter and sum over states calculations, the
exact ground state values, beta and tau keep the names under which they are printed; the quantities
of the sampling distribution are printed with `_analytical` and stored with `_rho`; nothing else is
stored. -/
theorem C51_names (new old : Str) : (new, old) ∈ keyDict ↔
    (∃ q ∈ quantities, ∃ m ∈ [c!"_MC", c!"_trotter", c!"_sos"], new = q ++ m ∧ old = q ++ m) ∨
    (∃ q ∈ [c!"E0_exact", c!"SvN_exact", c!"S2_exact", c!"beta", c!"tau"], new = q ∧ old = q) ∨
    ∃ q ∈ quantities, new = q ++ c!"_rho" ∧ old = q ++ c!"_analytical" := by
  constructor
  · intro h
    simp only [keyDict, List.mem_cons, Prod.mk.injEq, List.not_mem_nil, or_false] at h
    rcases h with ⟨rfl, rfl⟩ | ⟨rfl, rfl⟩ | ⟨rfl, rfl⟩ | ⟨rfl, rfl⟩ | ⟨rfl, rfl⟩ | ⟨rfl, rfl⟩ |
      ⟨rfl, rfl⟩ | ⟨rfl, rfl⟩ | ⟨rfl, rfl⟩ | ⟨rfl, rfl⟩ | ⟨rfl, rfl⟩ | ⟨rfl, rfl⟩ | ⟨rfl, rfl⟩ |
      ⟨rfl, rfl⟩ | ⟨rfl, rfl⟩ | ⟨rfl, rfl⟩ | ⟨rfl, rfl⟩ | ⟨rfl, rfl⟩ | ⟨rfl, rfl⟩ | ⟨rfl, rfl⟩ |
      ⟨rfl, rfl⟩ | ⟨rfl, rfl⟩ | ⟨rfl, rfl⟩ | ⟨rfl, rfl⟩ | ⟨rfl, rfl⟩ <;> decide
  · have h1 : ∀ q ∈ [c!"E0_exact", c!"SvN_exact", c!"S2_exact", c!"beta", c!"tau"],
        (q, q) ∈ keyDict := by decide
    rintro (⟨q, hq, m, hm, rfl, rfl⟩ | ⟨q, hq, h2, h3⟩ | ⟨q, hq, rfl, rfl⟩)
    · revert q m; decide
    · rw [h2, h3]; exact h1 q hq
    · revert q; decide

/-! ### C50 -/

/-- C50, one calculation: if the hashes are current and the file was honest, it stays honest. -/
theorem honest_calc (hash : Str → Str) (float : Str → Except Err V) (prog : Program) (w : World V)
    (m : Method) (hm : m ≠ .original) (T : Nat) (killed : Bool) (hcur : Current hash w)
    (hh : Honest hash float prog m (w.files m)) :
    Honest hash float prog m ((w.step hash float prog (.calc m T killed)).files m) := by
  simp only [World.step]
  cases hb : baseFunc float m.checksRho w.hashes T killed (prog (w.source m) m T) (w.files m) with
  | error e => exact hh
  | ok c =>
    simp only [if_true]
    obtain ⟨d0, e, h1, h2, rfl⟩ := baseFunc_ok hb
    have hk : killed = false := by
      cases killed
      · rfl
      · simp [compute] at h2
    subst hk
    have hcar := carries_set m w.hashes _ (validate_carries m w.hashes d0) T (.entry e)
    intro d hd T' e' he
    simp only [Contents.dict.injEq] at hd
    subst hd
    have hkey : ∀ text, hash text = hash (w.source m) →
        ((validate m.checksRho w.hashes d0).set (tempStr T) (AVal.entry e)) (hashKey m)
          = some (.hash (hash text)) := by
      intro text ht
      rw [ht]
      have hcur' : w.hashes = ⟨hash w.vib, hash w.rho⟩ := hcur
      cases m with
      | sampling => have := hcar.2 rfl; rw [hcur'] at this ⊢; exact this
      | original => exact absurd rfl hm
      | sos B => have := hcar.1; rw [hcur'] at this ⊢; exact this
      | trotter P B => have := hcar.1; rw [hcur'] at this ⊢; exact this
    by_cases hT : T' = T
    · subst hT
      simp only [ADict.set, if_true, Option.some.injEq, AVal.entry.injEq] at he
      subst he
      exact ⟨w.source m, hkey _ rfl, h2⟩
    · have hne : tempStr T' ≠ tempStr T := fun h => hT (tempStr_injective h)
      rw [ADict.set, if_neg hne] at he
      by_cases hc0 : Carries m w.hashes d0
      · rw [validate_of_carries m w.hashes d0 hc0] at he
        cases hf : w.files m with
        | dict d1 =>
          rw [hf] at h1
          simp only [readOld, Except.ok.injEq] at h1
          subst h1
          obtain ⟨text, g1, g2⟩ := hh _ hf T' e' he
          refine ⟨text, ?_, g2⟩
          rw [validate_of_carries m w.hashes d1 hc0]
          have hk2 : hashKey m ≠ tempStr T := by
            cases m <;> simp only [hashKey] <;>
              first | exact (tempStr_ne_hash_rho T).symm | exact (tempStr_ne_hash_vib T).symm
          rw [ADict.set, if_neg hk2]
          exact g1
        | absent =>
          rw [hf] at h1; simp only [readOld, Except.ok.injEq] at h1; subst h1; cases he
        | short =>
          rw [hf] at h1; simp only [readOld, Except.ok.injEq] at h1; subst h1; cases he
        | broken => rw [hf] at h1; cases h1
      · rw [validate_of_not_carries m w.hashes d0 hc0 _ (tempStr_ne_hash_vib T')
          (tempStr_ne_hash_rho T')] at he
        cases he

/-- C50: for every history of calculations, failures, crashes while writing and model rewrites, in
which the hashes are current whenever a calculation starts, each results file of the coupled and of
the sampling model holds only entries computed for a model with the hash that the file carries.
(Missing: the file of the original model, see `C50_original_model_refuted`, and stale hashes, see
`C50_stale_hashes_refuted`.) -/
theorem C50_never_mixes_partial (hash : Str → Str) (float : Str → Except Err V) (prog : Program)
    (m : Method) (hm : m ≠ .original) : ∀ (es : List Event) (w : World V),
    Honest hash float prog m (w.files m) → CurrentAtCalculations hash float prog w es →
    Honest hash float prog m ((after hash float prog w es).files m) := by
  intro es
  induction es with
  | nil => intro w h _; exact h
  | cons ev es ih =>
    intro w h hcur
    refine ih (w.step hash float prog ev) ?_ ?_
    · rcases ev with t | t | t | _ | ⟨m', T, k⟩ | ⟨m', u⟩
      · exact h
      · exact h
      · exact h
      · exact h
      · have hc : Current hash w := hcur [] m' T k es rfl
        by_cases hmm : m' = m
        · subst hmm; exact honest_calc hash float prog w m' hm T k hc h
        · simp only [World.step]
          split
          · exact h
          · simp only [if_neg (Ne.symm hmm)]; exact h
      · by_cases hmm : m = m'
        · subst hmm
          simp only [World.step, if_true]
          intro d hd
          cases u <;> cases hd
        · simp only [World.step, if_neg hmm]; exact h
    · intro before m' T k rest he
      exact hcur (ev :: before) m' T k rest (by rw [he]; rfl)

/-- A file that does not exist yet is honest. -/
theorem honest_absent (hash : Str → Str) (float : Str → Except Err V) (prog : Program) (m : Method) :
    Honest hash float prog m (Contents.absent : Contents V) := fun d hd => by cases hd

/-- The hypotheses are met by the intended use: hashes are regenerated after every change. -/
example (hash : Str → Str) (float : Str → Except Err V) (prog : Program) (w : World V) (t : Str)
    (T T' : Nat) : CurrentAtCalculations hash float prog w
      [.regenerate, .calc .sampling T false, .setRho t, .regenerate, .calc .sampling T' false] := by
  intro before m S k rest h
  have step_calc : ∀ (w : World V) m T k, (w.step hash float prog (.calc m T k)).hashes = w.hashes ∧
      (w.step hash float prog (.calc m T k)).vib = w.vib ∧
      (w.step hash float prog (.calc m T k)).rho = w.rho := by
    intro w m T k; simp only [World.step]; split <;> simp
  match before, h with
  | [], h => cases h
  | [_], h =>
    simp only [List.cons_append, List.nil_append, List.cons.injEq] at h
    obtain ⟨rfl, _⟩ := h
    rfl
  | [_, _], h => simp at h
  | [_, _, _], h => simp at h
  | [_, _, _, _], h =>
    simp only [List.cons_append, List.nil_append, List.cons.injEq] at h
    obtain ⟨rfl, rfl, rfl, rfl, _⟩ := h
    rfl
  | _ :: _ :: _ :: _ :: _ :: l, h =>
    simp at h

/-! Concrete programs for the refutations. -/

/-- A program with the answers `1` for the model `a`, `2` for the model `b`, none for others. -/
def two : Program := fun text _ _ =>
  if text = c!"a" then printLines [(c!"Z_analytical", c!"1")]
  else if text = c!"b" then printLines [(c!"Z_analytical", c!"2")] else []

/-- the text of the value is the value -/
def idFloat : Str → Except Err Str := .ok

theorem compute_a (m : Method) (T : Nat) :
    ∃ e, compute idFloat false (two c!"a" m T) = .ok (some e) ∧ e c!"Z_rho" = some c!"1" := by
  have h : parseOutput (two c!"a" m T) = .ok [(c!"Z_analytical", c!"1")] :=
    C51_reads_printed_lines [(c!"Z_analytical", c!"1")] (by decide)
  simp only [compute, h, Bool.false_eq_true, if_false, bind, Except.bind]
  exact ⟨_, rfl, rfl⟩

theorem compute_b (m : Method) (T : Nat) :
    ∃ e, compute idFloat false (two c!"b" m T) = .ok (some e) ∧ e c!"Z_rho" = some c!"2" := by
  have h : parseOutput (two c!"b" m T) = .ok [(c!"Z_analytical", c!"2")] :=
    C51_reads_printed_lines [(c!"Z_analytical", c!"2")] (by decide)
  simp only [compute, h, Bool.false_eq_true, if_false, bind, Except.bind]
  exact ⟨_, rfl, rfl⟩

theorem printed_one (text : Str) (m : Method) (T : Nat) (e : Str → Option Str)
    (h : Printed idFloat two text m T e) (hz : e c!"Z_rho" = some c!"1") : text = c!"a" := by
  by_contra ha
  by_cases hb : text = c!"b"
  · subst hb
    obtain ⟨e', h1, h2⟩ := compute_b m T
    rw [Printed, h1] at h
    simp only [Except.ok.injEq, Option.some.injEq] at h
    subst h
    rw [h2] at hz
    exact absurd hz (by decide)
  · simp [Printed, two, ha, hb, compute, parseOutput_nil, bind, Except.bind] at h

theorem printed_two (text : Str) (m : Method) (T : Nat) (e : Str → Option Str)
    (h : Printed idFloat two text m T e) (hz : e c!"Z_rho" = some c!"2") : text = c!"b" := by
  by_contra hb
  by_cases ha : text = c!"a"
  · subst ha
    obtain ⟨e', h1, h2⟩ := compute_a m T
    rw [Printed, h1] at h
    simp only [Except.ok.injEq, Option.some.injEq] at h
    subst h
    rw [h2] at hz
    exact absurd hz (by decide)
  · simp [Printed, two, ha, hb, compute, parseOutput_nil, bind, Except.bind] at h

/-- The world after writing one results file. -/
def put (w : World V) (m : Method) (c : Contents V) : World V :=
  { w with files := fun m' => if m' = m then c else w.files m' }

/-- One successful calculation, in one equation. -/
theorem step_ok (hash : Str → Str) (float : Str → Except Err V) (prog : Program) (w : World V)
    (m : Method) (T : Nat) (d0 : ADict V) (hd : readOld (w.files m) = .ok d0) (e : Str → Option V)
    (he : compute float false (prog (w.source m) m T) = .ok (some e)) :
    w.step hash float prog (.calc m T false) =
      put w m (.dict ((validate m.checksRho w.hashes d0).set (tempStr T) (.entry e))) := by
  have hb : baseFunc float m.checksRho w.hashes T false (prog (w.source m) m T) (w.files m) =
      .ok (.dict ((validate m.checksRho w.hashes d0).set (tempStr T) (.entry e))) := by
    simp only [baseFunc, hd, he, bind, Except.bind]
    rw [validate_of_carries]
    exact carries_set m _ _ (validate_carries m _ d0) T _
  simp only [World.step, hb, put]

/-- A world without results. -/
def start (hash : Str → Str) (vib rho orig : Str) : World Str :=
  ⟨vib, rho, orig, ⟨hash vib, hash rho⟩, fun _ => .absent⟩

/-- C50 is false with stale hashes: the FileStructure object computes its hashes once; if the sampling
model is rewritten afterwards, its results are stored under the hash of the old model. Afterwards
the file holds one entry of each model. -/
theorem C50_stale_hashes_refuted (hash : Str → Str) (hinj : hash c!"a" ≠ hash c!"b") :
    ∃ (w : World Str) (es : List Event), (∀ m, w.files m = .absent) ∧ Current hash w ∧
      ¬ Honest hash idFloat two .sampling ((after hash idFloat two w es).files .sampling) := by
  refine ⟨start hash [] c!"a" [], [.calc .sampling 30000 false, .setRho c!"b",
    .calc .sampling 30100 false], fun _ => rfl, rfl, ?_⟩
  obtain ⟨e, he, hz⟩ := compute_a .sampling 30000
  obtain ⟨e', he', hz'⟩ := compute_b .sampling 30100
  have s1 := step_ok hash idFloat two (start hash [] c!"a" []) .sampling 30000 (fun _ => none) rfl e he
  intro h
  simp only [after, List.foldl_cons, List.foldl_nil, s1] at h
  rw [step_ok hash idFloat two (World.step hash idFloat two _ (.setRho c!"b")) .sampling 30100 _ rfl
    e' he'] at h
  have hh := h _ rfl
  obtain ⟨text, g1, g2⟩ := hh 30100 e' (by simp)
  have htext := printed_two text _ _ e' g2 hz'
  have g3 := fun d0 : ADict Str => (carries_set .sampling (⟨hash [], hash c!"a"⟩ : Hashes) _
    (validate_carries .sampling ⟨hash [], hash c!"a"⟩ d0) 30100 (.entry e')).2 rfl
  have g4 := g1.symm.trans (g3 _)
  simp only [Option.some.injEq, AVal.hash.injEq] at g4
  rw [htext] at g4
  exact hinj g4.symm

/-- C50 is false of the file of the original model even with current hashes: it carries the hash of
the coupled model, which does not change with the original model, so after a change of the original
model the file holds results of two different models. -/
theorem C50_original_model_refuted (hash : Str → Str) :
    ∃ (w : World Str) (es : List Event), (∀ m, w.files m = .absent) ∧
      CurrentAtCalculations hash idFloat two w es ∧
      ∃ d e e', (after hash idFloat two w es).files .original = .dict d ∧
        d (tempStr 30000) = some (.entry e) ∧ d (tempStr 30100) = some (.entry e') ∧
        ∀ text, ¬ (Printed idFloat two text .original 30000 e ∧
          Printed idFloat two text .original 30100 e') := by
  obtain ⟨e, he, hz⟩ := compute_a .original 30000
  obtain ⟨e', he', hz'⟩ := compute_b .original 30100
  have s1 := step_ok hash idFloat two (start hash [] [] c!"a") .original 30000 (fun _ => none) rfl e he
  refine ⟨start hash [] [] c!"a", [.calc .original 30000 false, .setOrig c!"b",
    .calc .original 30100 false], fun _ => rfl, ?_, ?_⟩
  · intro before m T k rest h
    match before, h with
    | [], _ => rfl
    | [_], h => simp at h
    | [_, _], h =>
      simp only [List.cons_append, List.nil_append, List.cons.injEq] at h
      obtain ⟨rfl, rfl, _⟩ := h
      simp only [after, List.foldl_cons, List.foldl_nil, s1]
      rfl
    | _ :: _ :: _ :: l, h => simp at h
  · have hw : (after hash idFloat two (start hash [] [] c!"a") [.calc .original 30000 false,
        .setOrig c!"b", .calc .original 30100 false]).files .original = .dict ((validate
          Method.original.checksRho ⟨hash [], hash []⟩ ((validate Method.original.checksRho
          ⟨hash [], hash []⟩ (fun _ => none)).set (tempStr 30000) (.entry e))).set (tempStr 30100)
          (.entry e')) := by
      simp only [after, List.foldl_cons, List.foldl_nil, s1]
      rw [step_ok hash idFloat two (World.step hash idFloat two _ (.setOrig c!"b")) .original 30100 _
        rfl e' he']
      rfl
    refine ⟨_, e, e', hw, ?_, ?_, ?_⟩
    · rw [set_other _ _ _ _ (fun h => absurd (tempStr_injective h) (by decide)),
        validate_of_carries]
      · simp
      · exact carries_set _ _ _ (validate_carries _ _ _) _ _
    · simp
    · rintro text ⟨p1, p2⟩
      have h1 := printed_one _ _ _ _ p1 hz
      have h2 := printed_two _ _ _ _ p2 hz'
      rw [h1] at h2
      exact absurd h2 (by decide)

/-! ### C52 -/

section
variable [Div V] [Zero V] [DecidableEq V]

/-- C52 is false: whatever the sampling model's program prints, after a successful calculation at this
temperature with current hashes the statistics fail with a `KeyError`: they look for names
(`Z_sampling`, …) that the wrapper never writes (it writes `Z_rho`, …). -/
theorem C52_loadable_refuted (float : Str → Except Err V) (h : Hashes) (T : Nat) (killed : Bool)
    (out : Str) (old c : Contents V)
    (hok : baseFunc float Method.sampling.checksRho h T killed out old = .ok c) :
    loadAnalytic h T c = .error .key := by
  obtain ⟨d0, e, _, h2, rfl⟩ := baseFunc_ok hok
  have hk : killed = false := by
    cases killed
    · rfl
    · simp [compute] at h2
  subst hk
  have hcar := carries_set .sampling h _ (validate_carries .sampling h d0) T (.entry e)
  obtain ⟨c1, c2⟩ := hcar
  have c2 := c2 rfl
  have hz : e c!"Z_sampling" = none := by
    obtain ⟨_, _, _, _, _, h3⟩ := C51_entry_values float out e h2
    refine h3 _ ?_
    intro o ho
    have : c!"Z_sampling" ∈ keyDict.map (·.1) := List.mem_map_of_mem (f := (·.1)) ho
    exact absurd this (by decide)
  have i1 := (hasHash_iff _ _ _).2 c1
  have i2 := (hasHash_iff _ _ _).2 c2
  simp only [loadAnalytic, c1, c2, i1, i2, set_same, getKey, hz, bind, Except.bind]
  rfl

/-- `load_analytic_data` succeeds exactly when the file carries both current hashes and the five names,
and then the values are those of the file and the ratios of the partition functions.
(Missing for C52: the wrapper writes other names, `C52_never_loadable_refuted`.) -/
theorem C52_load_iff_partial (h : Hashes) (T : Nat) (c : Contents V) (a : AnalyticData V) :
    loadAnalytic h T c = .ok a ↔ ∃ d e zp zm, c = .dict d ∧ d c!"hash_vib" = some (.hash h.vib) ∧
      d c!"hash_rho" = some (.hash h.rho) ∧ d (tempStr T) = some (.entry e) ∧
      e c!"Z_sampling" = some a.Z ∧ e c!"E_sampling" = some a.E ∧ e c!"Cv_sampling" = some a.Cv ∧
      e c!"Z_sampling+beta" = some zp ∧ e c!"Z_sampling-beta" = some zm ∧ zp ≠ 0 ∧ zm ≠ 0 ∧
      a.alphaPlus = a.Z / zp ∧ a.alphaMinus = a.Z / zm := by
  constructor
  · intro hl
    cases c with
    | absent => cases hl
    | short => cases hl
    | broken => cases hl
    | dict d =>
      simp only [loadAnalytic] at hl
      cases h1 : d c!"hash_vib" with
      | none => rw [h1] at hl; cases hl
      | some v =>
        rw [h1] at hl
        simp only at hl
        cases h2 : hasHash d c!"hash_vib" h.vib with
        | false => simp [h2] at hl
        | true =>
          rw [if_neg (by simp [h2])] at hl
          cases h3 : d c!"hash_rho" with
          | none => rw [h3] at hl; cases hl
          | some r =>
            rw [h3] at hl
            simp only at hl
            cases h4 : hasHash d c!"hash_rho" h.rho with
            | false => simp [h4] at hl
            | true =>
              rw [if_neg (by simp [h4])] at hl
              cases h5 : d (tempStr T) with
              | none => rw [h5] at hl; cases hl
              | some x =>
                rw [h5] at hl
                cases x with
                | hash _ => cases hl
                | entry e =>
                  simp only [getKey, pyDiv, bind, Except.bind] at hl
                  cases e1 : e c!"Z_sampling" with
                  | none => rw [e1] at hl; cases hl
                  | some z =>
                  rw [e1] at hl
                  cases e2 : e c!"E_sampling" with
                  | none => rw [e2] at hl; cases hl
                  | some en =>
                  rw [e2] at hl
                  cases e3 : e c!"Cv_sampling" with
                  | none => rw [e3] at hl; cases hl
                  | some cv =>
                  rw [e3] at hl
                  cases e4 : e c!"Z_sampling+beta" with
                  | none => rw [e4] at hl; cases hl
                  | some zp =>
                  rw [e4] at hl
                  by_cases z1 : zp = 0
                  · simp [z1] at hl
                  simp only [z1, if_false] at hl
                  cases e5 : e c!"Z_sampling-beta" with
                  | none => rw [e5] at hl; cases hl
                  | some zm =>
                  rw [e5] at hl
                  by_cases z2 : zm = 0
                  · simp [z2] at hl
                  simp only [z2, if_false, Except.ok.injEq] at hl
                  subst hl
                  rw [hasHash_iff] at h2 h4
                  rw [h1] at h2
                  rw [h3] at h4
                  exact ⟨d, e, zp, zm, rfl, h1.trans h2, h3.trans h4, h5, e1, e2, e3, e4, e5, z1, z2,
                    rfl, rfl⟩
  · rintro ⟨d, e, zp, zm, rfl, h1, h2, h3, e1, e2, e3, e4, e5, z1, z2, a1, a2⟩
    have i1 := (hasHash_iff _ _ _).2 h1
    have i2 := (hasHash_iff _ _ _).2 h2
    simp only [loadAnalytic, h1, h2, h3, i1, i2, getKey, e1, e2, e3, e4, e5, pyDiv, z1, z2, bind,
      Except.bind, if_false, Bool.true_eq_false]
    cases a
    simp_all

/-- C52: what is raised when the file cannot be used: no file, an incomplete one, wrong hashes, no such temperature. -/
theorem C52_load_errors (h : Hashes) (T : Nat) (d : ADict V) :
    loadAnalytic h T (.absent : Contents V) = .error .assertion ∧
    loadAnalytic h T (.short : Contents V) = .error .value ∧ loadAnalytic h T (.broken : Contents V) = .error .value ∧
    ((d c!"hash_vib" = none ∨ d c!"hash_vib" = some (.hash h.vib) ∧ d c!"hash_rho" = none) →
      loadAnalytic h T (.dict d) = .error .key) ∧
    (∀ x, d c!"hash_vib" = some (.hash x) → x ≠ h.vib → loadAnalytic h T (.dict d) = .error .assertion) ∧
    (∀ x, d c!"hash_vib" = some (.hash h.vib) → d c!"hash_rho" = some (.hash x) → x ≠ h.rho →
      loadAnalytic h T (.dict d) = .error .assertion) ∧
    (d c!"hash_vib" = some (.hash h.vib) → d c!"hash_rho" = some (.hash h.rho) → d (tempStr T) = none →
      loadAnalytic h T (.dict d) = .error .assertion) := by
  refine ⟨rfl, rfl, rfl, ?_, fun x h1 h2 => ?_, fun x h1 h2 h3 => ?_, fun h1 h2 h3 => ?_⟩
  · rintro (h1 | ⟨h1, h2⟩)
    · simp [loadAnalytic, h1]
    · simp [loadAnalytic, hasHash, h1, h2]
  · simp [loadAnalytic, hasHash, h1, h2]
  · simp [loadAnalytic, hasHash, h1, h2, h3]
  · simp [loadAnalytic, hasHash, h1, h2, h3]

/-- No entry of the file has the name that the statistics look for first. -/
def NoSamplingNames (c : Contents V) : Prop :=
  ∀ d, c = .dict d → ∀ k e, d k = some (.entry e) → e c!"Z_sampling" = none

/-- The same for every history: no sequence of calculations, failures, crashes and rewrites produces
a file of the sampling model that the statistics can use. -/
theorem C52_never_loadable_refuted (hash : Str → Str) (float : Str → Except Err V) (prog : Program)
    (es : List Event) (w : World V) (hw : NoSamplingNames (w.files .sampling)) (h : Hashes) (T : Nat)
    (a : AnalyticData V) :
    loadAnalytic h T ((after hash float prog w es).files .sampling) ≠ .ok a := by
  have key : ∀ (es : List Event) (w : World V), NoSamplingNames (w.files .sampling) →
      NoSamplingNames ((after hash float prog w es).files .sampling) := by
    intro es
    induction es with
    | nil => intro w h; exact h
    | cons ev es ih =>
      intro w h
      refine ih (w.step hash float prog ev) ?_
      rcases ev with t | t | t | _ | ⟨m', T, k⟩ | ⟨m', u⟩
      · exact h
      · exact h
      · exact h
      · exact h
      · simp only [World.step]
        cases hb : baseFunc float m'.checksRho w.hashes T k (prog (w.source m') m' T) (w.files m') with
        | error e => exact h
        | ok c =>
          by_cases hm : Method.sampling = m'
          · subst hm
            simp only [if_true]
            obtain ⟨d0, e, h1, h2, rfl⟩ := baseFunc_ok hb
            intro d hd k' e' he
            simp only [Contents.dict.injEq] at hd
            subst hd
            by_cases hk : k' = tempStr T
            · subst hk
              simp only [set_same, Option.some.injEq, AVal.entry.injEq] at he
              subst he
              have hk' : k = false := by
                cases k
                · rfl
                · simp [compute] at h2
              subst hk'
              obtain ⟨_, _, _, _, _, h3⟩ := C51_entry_values float _ e h2
              refine h3 _ ?_
              intro o ho
              have : c!"Z_sampling" ∈ keyDict.map (·.1) := List.mem_map_of_mem (f := (·.1)) ho
              exact absurd this (by decide)
            · rw [set_other _ _ _ _ hk] at he
              by_cases hc : Carries .sampling w.hashes d0
              · rw [validate_of_carries _ _ _ hc] at he
                cases hf : w.files .sampling with
                | dict d1 =>
                  rw [hf] at h1
                  simp only [readOld, Except.ok.injEq] at h1
                  subst h1
                  exact h _ hf _ _ he
                | absent =>
                  rw [hf] at h1; simp only [readOld, Except.ok.injEq] at h1; subst h1; cases he
                | short =>
                  rw [hf] at h1; simp only [readOld, Except.ok.injEq] at h1; subst h1; cases he
                | broken => rw [hf] at h1; cases h1
              · have hcar := validate_carries .sampling w.hashes d0
                by_cases k1 : k' = c!"hash_vib"
                · subst k1; rw [hcar.1] at he; cases he
                by_cases k2 : k' = c!"hash_rho"
                · subst k2; rw [hcar.2 rfl] at he; cases he
                rw [validate_of_not_carries _ _ _ hc _ k1 k2] at he
                cases he
          · simp only [if_neg hm]; exact h
      · by_cases hm : Method.sampling = m'
        · subst hm
          simp only [World.step, if_true]
          intro d hd
          cases u <;> cases hd
        · simp only [World.step, if_neg hm]; exact h
  intro hl
  obtain ⟨d, e, zp, zm, h1, _, _, h2, h3, _⟩ := (C52_load_iff_partial h T _ a).1 hl
  have := key es w hw d h1 _ e h2
  rw [this] at h3
  cases h3

/-- A world without results meets the hypothesis; calculations do succeed in it. -/
example (hash : Str → Str) : NoSamplingNames ((start hash [] c!"a" []).files .sampling) ∧
    ∃ d, ((start hash [] c!"a" []).step hash idFloat two (.calc .sampling 30000 false)).files .sampling
      = .dict d := by
  refine ⟨fun d hd => (by cases hd), ?_⟩
  obtain ⟨e, he, _⟩ := compute_a .sampling 30000
  rw [step_ok hash idFloat two (start hash [] c!"a" []) .sampling 30000 (fun _ => none) rfl e he]
  exact ⟨_, by simp only [put, if_true]; rfl⟩
end

/-! ### Separate files -/

/-- The results file of each method, as a user reads it in the directory. -/
def resultsFile (absRoot : Str) (d r : Nat) : Method → Str
  | .sampling => rhoDir absRoot d r ++ c!"parameters/analytic_results.json"
  | .original => dataDir absRoot d ++ c!"parameters/original_analytic_results.json"
  | .sos B => dataDir absRoot d ++ c!"parameters/sos_B" ++ natStr B ++ c!".json"
  | .trotter P B => dataDir absRoot d ++ c!"parameters/trotter_P" ++ natStr P ++ c!"_B" ++ natStr B
      ++ c!".json"

theorem brace_dataDir (absRoot : Str) (d : Nat) (c : Char) (hc : c = '{' ∨ c = '}')
    (h : c ∉ absRoot) : c ∉ dataDir absRoot d := by
  have h1 : c ∉ natStr d := notMem_natStr (by rcases hc with rfl | rfl <;> decide) d
  rcases hc with rfl | rfl <;> simp [dataDir, h, h1]

/-- C50: the methods, basis sizes and bead numbers have the documented results files. -/
theorem C50_results_files {root absRoot : Str} (h : RootOk root absRoot) (h1 : '{' ∉ absRoot)
    (h2 : '}' ∉ absRoot) (d r : Nat) (m : Method) :
    m.dst (initFS root absRoot d r) = .ok (resultsFile absRoot d r m) := by
  have b1 := brace_dataDir absRoot d '{' (.inl rfl) h1
  have b2 := brace_dataDir absRoot d '}' (.inr rfl) h2
  have hj : ∀ args, format args c!".json" = .ok c!".json" := by
    intro args
    have := format_literal args c!".json" [] (by decide) (by decide)
    rw [format_nil] at this
    simpa [Except.map] using this
  have d1 : '{' ∉ dataDir absRoot d ++ c!"parameters/" := by simp [b1]
  have d2 : '}' ∉ dataDir absRoot d ++ c!"parameters/" := by simp [b2]
  cases m with
  | sampling => simp [Method.dst, initFS_eq h, resultsFile]
  | original => simp [Method.dst, initFS_eq h, resultsFile]
  | sos B =>
    have e : sos fieldB = c!"sos_B" ++ ('{' :: (c!"B" ++ ':' :: c!"d" ++ '}' :: c!".json")) := rfl
    simp only [Method.dst, initFS_eq h]
    rw [format_literal _ _ _ d1 d2, e, format_literal _ _ _ (by decide) (by decide),
      format_field _ c!"B" c!"d" _ (.int B) (natStr B) (by decide) (by decide) (by decide) rfl rfl, hj]
    simp [Except.map, resultsFile]
  | trotter P B =>
    have e : trotter fieldP fieldB = c!"trotter_P" ++ ('{' :: (c!"P" ++ ':' :: c!"d" ++ '}' ::
      (c!"_B" ++ ('{' :: (c!"B" ++ ':' :: c!"d" ++ '}' :: c!".json"))))) := rfl
    simp only [Method.dst, initFS_eq h]
    rw [format_literal _ _ _ d1 d2, e, format_literal _ _ _ (by decide) (by decide),
      format_field _ c!"P" c!"d" _ (.int P) (natStr P) (by decide) (by decide) (by decide) rfl rfl,
      format_literal _ _ _ (by decide) (by decide),
      format_field _ c!"B" c!"d" _ (.int B) (natStr B) (by decide) (by decide) (by decide)
        (by simp) rfl, hj]
    simp [Except.map, resultsFile]

/-- C50: different methods, basis sizes or bead numbers never share a file. -/
theorem C50_separate_files {root absRoot : Str} (h : RootOk root absRoot) (h1 : '{' ∉ absRoot)
    (h2 : '}' ∉ absRoot) (d r : Nat) (m m' : Method)
    (he : m.dst (initFS root absRoot d r) = m'.dst (initFS root absRoot d r)) : m = m' := by
  rw [C50_results_files h h1 h2, C50_results_files h h1 h2, Except.ok.injEq] at he
  have dot : ∀ n, '.' ∉ natStr n := fun n => notMem_natStr (by decide) n
  have und : ∀ n, '_' ∉ natStr n := fun n => notMem_natStr (by decide) n
  cases m <;> cases m' <;>
    simp only [resultsFile, rhoDir, List.append_assoc, List.append_cancel_left_eq] at he <;>
    first
    | rfl
    | (exfalso; simp at he; done)
    | skip
  · next B B' =>
    rw [List.append_left_inj] at he
    rw [natStr_injective he]
  · next P B P' B' =>
    have h3 := append_cons_inj (und P) (und P') he
    have h4 : natStr B = natStr B' := by simpa using h3.2
    rw [natStr_injective h3.1, natStr_injective h4]

example : RootOk c!"/home/u" c!"/home/u" := ⟨by decide, by decide, .inl rfl⟩

/-- The hypotheses of C51 are met: lines as the program prints them are read, a bad line is refused, a
calculation keeps the other temperature of a current file, and discards it from a stale one. -/
example : parseOutput (printLines [(c!"Z_sos", c!" 1.5"), (c!"E_sos", c!" -2e-3")])
    = .ok [(c!"Z_sos", c!" 1.5"), (c!"E_sos", c!" -2e-3")] :=
  C51_reads_printed_lines _ (by decide)

example : parseOutput c!"Z_sos: 1.5\nERROR: LoadError: x\n" = .error .value := by
  rw [C51_bad_line_fails c!"Z_sos: 1.5\nERROR: LoadError: x\n" c!"ERROR: LoadError: x"
    (by decide +kernel) (by simp) (by decide +kernel), if_pos (by decide +kernel)]

example : parseOutput c!"Z_sos: 1.5\nKilled\n" = .error .assertion := by
  rw [C51_bad_line_fails c!"Z_sos: 1.5\nKilled\n" c!"Killed"
    (by decide +kernel) (by simp) (by decide +kernel), if_neg (by decide +kernel)]

/-- A file with one entry, at 300 K. -/
def oneEntry (h : Hashes) : ADict Str := fun k =>
  if k = c!"hash_vib" then some (.hash h.vib) else if k = c!"hash_rho" then some (.hash h.rho)
  else if k = tempStr 30000 then some (.entry fun _ => some c!"7") else none

theorem tempStr_other : tempStr 30000 ≠ tempStr 31000 := by decide +kernel

example (h : Hashes) : ∃ e d', baseFunc idFloat Method.sampling.checksRho h 31000 false
      (two c!"a" .sampling 31000) (.dict (oneEntry h)) = .ok (.dict d') ∧
    d' (tempStr 31000) = some (.entry e) ∧ d' (tempStr 30000) = some (.entry fun _ => some c!"7") := by
  obtain ⟨e, he, -⟩ := compute_a .sampling 31000
  obtain ⟨c, hc⟩ := (C51_succeeds_iff idFloat .sampling h 31000 false (two c!"a" .sampling 31000)
    (.dict (oneEntry h))).2 ⟨fun x hx => (by subst hx; simp), e, he⟩
  obtain ⟨e', d', -, rfl, h1, h2⟩ := C51_keeps_other_temperatures idFloat .sampling h 31000 false _
    (oneEntry h) ⟨by simp [oneEntry], fun _ => by simp [oneEntry]⟩ c hc
  refine ⟨e', d', hc, h1, ?_⟩
  rw [h2 _ tempStr_other]
  simp [oneEntry, tempStr_ne_hash_vib, tempStr_ne_hash_rho]

example : ∃ e d', baseFunc idFloat Method.sampling.checksRho ⟨c!"v", c!"new"⟩ 31000 false
      (two c!"a" .sampling 31000) (.dict (oneEntry ⟨c!"v", c!"old"⟩)) = .ok (.dict d') ∧
    d' (tempStr 31000) = some (.entry e) ∧ d' (tempStr 30000) = none := by
  obtain ⟨e, he, -⟩ := compute_a .sampling 31000
  obtain ⟨c, hc⟩ := (C51_succeeds_iff idFloat .sampling ⟨c!"v", c!"new"⟩ 31000 false
    (two c!"a" .sampling 31000) (.dict (oneEntry ⟨c!"v", c!"old"⟩))).2 ⟨fun x hx => (by subst hx; simp), e, he⟩
  obtain ⟨e', d', -, rfl, -, h1, h2⟩ := C51_discards_stale idFloat .sampling ⟨c!"v", c!"new"⟩ 31000 false _
    (.dict (oneEntry ⟨c!"v", c!"old"⟩)) (by
      intro d hd hc
      cases hd
      have := hc.2 rfl
      simp [oneEntry] at this) c hc
  exact ⟨e', d', hc, h1, h2 _ tempStr_other (tempStr_ne_hash_vib _) (tempStr_ne_hash_rho _)⟩

/-- A file with the names that the reader wants can be loaded. -/
example : loadAnalytic (V := ℚ) ⟨c!"v", c!"r"⟩ 30000 (.dict fun k =>
      if k = c!"hash_vib" then some (.hash c!"v") else if k = c!"hash_rho" then some (.hash c!"r")
      else some (.entry fun _ => some 2)) = .ok ⟨2, 2, 2, 1, 1⟩ := by
  rw [C52_load_iff_partial]
  exact ⟨_, fun _ => some 2, 2, 2, rfl, by simp, by simp,
    by simp [tempStr_ne_hash_vib, tempStr_ne_hash_rho], rfl, rfl, rfl, rfl, rfl, by norm_num, by norm_num,
    by norm_num, by norm_num⟩

end Pibronic.Props.Analytic
