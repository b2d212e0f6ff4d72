import Verif.Model.VibronMain
import Verif.Props.Grids

set_option autoImplicit false

/-!
C109: starting the electronic structure calculations of a molecule or of a data set.
-/
namespace Pibronic.Props.VibronMain
open Pibronic.Py Pibronic.FileStructure Pibronic.Workflow Pibronic.VibronMain

variable (int : Str → Except Err Int) (env : Str → Env) (files : Str → Option Str) (here : Str)

/-- The stages are numbered from one to seven. -/
theorem ofValue_isOk (n : Int) : (∃ s, Stage.ofValue n = .ok s) ↔ 1 ≤ n ∧ n ≤ 7 := by
  constructor
  · rintro ⟨s, h⟩
    unfold Stage.ofValue at h
    cases hf : Stage.all.find? (fun s => decide ((s.value : Int) = n)) with
    | none => simp [hf] at h
    | some s' =>
      have := List.find?_some hf
      simp only [decide_eq_true_eq] at this
      rw [← this]
      cases s' <;> decide
  · rintro ⟨h1, h2⟩
    have : n = 1 ∨ n = 2 ∨ n = 3 ∨ n = 4 ∨ n = 5 ∨ n = 6 ∨ n = 7 := by omega
    rcases this with rfl | rfl | rfl | rfl | rfl | rfl | rfl
    · exact ⟨.OPT, by decide⟩
    · exact ⟨.NIP, by decide⟩
    · exact ⟨.VIB, by decide⟩
    · exact ⟨.IPEOMCC, by decide⟩
    · exact ⟨.PREPVIB, by decide⟩
    · exact ⟨.VIBRON, by decide⟩
    · exact ⟨.FINISHED, by decide⟩

/-- C109, the part that holds: with the name of a molecule and the number of a stage, the directory of
the molecule is made, and there a job is started at this stage, as by `execute`. -/
theorem C109_stage_partial (prog molecule stage : Str) (n : Int) (hn : int stage = .ok n)
    (h1 : 1 ≤ n) (h7 : n ≤ 7) :
    ∃ s j, Stage.ofValue n = .ok s ∧
      main int env files here [prog, molecule, stage] = ⟨[join here molecule], some (join here molecule, j),
        (execute (env (join here molecule)) (some n) (files (join here molecule))).2⟩ ∧
      execute (env (join here molecule)) (some n) (files (join here molecule)) =
        (some j, (calculate createTemplate (env (join here molecule))
          ⟨some s, files (join here molecule), 0, []⟩).2) := by
  obtain ⟨s, hs⟩ := (ofValue_isOk n).2 ⟨h1, h7⟩
  refine ⟨s, (calculate createTemplate (env (join here molecule))
    ⟨some s, files (join here molecule), 0, []⟩).1, hs, ?_, ?_⟩
  · simp [main, hn, testOne, start, execute, newJob, hs]
  · simp [execute, newJob, hs]

/-- C109: different molecules have different directories. -/
theorem C109_molecules {a b : Str} (ha : a.head? ≠ some '/') (hb : b.head? ≠ some '/') (hab : a ≠ b)
    (s t : Int) : (testOne env files here a s).made ≠ (testOne env files here b t).made := by
  intro h
  simp only [testOne, start, List.cons.injEq, and_true] at h
  exact hab (Grids.join_inj ha hb h)

example : (c!"ch2o" : Str).head? ≠ some '/' ∧ (c!"nh3" : Str).head? ≠ some '/' ∧
    (c!"ch2o" : Str) ≠ c!"nh3" := by decide

/-- C109: a number that is not that of a stage, and a text that is no number, are refused; in the first
case the directory has been made already, in the second nothing was done. -/
theorem C109_refused (prog molecule stage : Str) :
    (∀ n, int stage = .ok n → ¬ (1 ≤ n ∧ n ≤ 7) →
      main int env files here [prog, molecule, stage] = ⟨[join here molecule], none, .raised .value⟩) ∧
    (∀ e, int stage = .error e → main int env files here [prog, molecule, stage] = ⟨[], none, .raised e⟩) := by
  refine ⟨fun n hn h => ?_, fun e he => by simp [main, he]⟩
  have : Stage.ofValue n = .error .value := by
    unfold Stage.ofValue
    cases hf : Stage.all.find? (fun s => decide ((s.value : Int) = n)) with
    | none => rfl
    | some s => exact absurd ((ofValue_isOk n).1 ⟨s, by simp [Stage.ofValue, hf]⟩) h
  simp [main, hn, testOne, start, execute, newJob, this]

/-- C109, refuted: with the name of a molecule alone no calculation is started: the default stage is
zero, and the stages are numbered from one. -/
theorem C109_molecule_refuted (prog molecule : Str) :
    main int env files here [prog, molecule] = ⟨[join here molecule], none, .raised .value⟩ := by
  have : Stage.ofValue 0 = .error .value := by decide
  simp [main, testOne, start, execute, newJob, defaultState, this]

/-- C109, refuted: with any other number of arguments neither. -/
theorem C109_arguments_refuted (argv : List Str) (h : argv.length ≠ 2 ∧ argv.length ≠ 3) :
    main int env files here argv = ⟨[join here c!"ch2o"], none, .raised .value⟩ := by
  have h0 : Stage.ofValue 0 = .error .value := by decide
  match argv, h with
  | [], _ => simp [main, testOne, start, execute, newJob, defaultState, defaultMolecule, h0]
  | [_], _ => simp [main, testOne, start, execute, newJob, defaultState, defaultMolecule, h0]
  | [_, _], h => exact absurd rfl h.1
  | [_, _, _], h => exact absurd rfl h.2
  | _ :: _ :: _ :: _ :: _, _ =>
    simp [main, testOne, start, execute, newJob, defaultState, defaultMolecule, h0]

/-- C109, refuted: the calculations of all data sets and of all molecules use one directory, which
belongs to none of the data sets. -/
theorem C109_data_sets_refuted (d : Nat) (m : Str) (s : Int) :
    (∀ d' m' s', (wrapperOne env files d m s).made = (wrapperOne env files d' m' s').made) ∧
    ∀ n : Nat, (wrapperOne env files d m s).made ≠
      [(initFS c!"/work/ngraymon/pimc/" c!"/work/ngraymon/pimc" n 0).pathEs ++ c!"/"] := by
  refine ⟨fun _ _ _ => rfl, fun n h => ?_⟩
  have h1 : join c!"/work/ngraymon/pimc" (templateVib n) =
      (c!"/work/ngraymon/pimc/data_set_" ++ natStr n) ++ ['/'] := by
    simp [join, templateVib]
  have h2 : join (join c!"/work/ngraymon/pimc" (templateVib n)) c!"electronic_structure" =
      join c!"/work/ngraymon/pimc" (templateVib n) ++ c!"electronic_structure" := by
    rw [h1]
    unfold join
    rw [if_pos (Or.inr List.getLast?_concat)]
    rfl
  have h' : c!"/work/ngraymon/pimc/data_set_" ++ c!"{:d}/electronic_structure/" =
      c!"/work/ngraymon/pimc/data_set_" ++ (natStr n ++ c!"/electronic_structure/") := by
    have h3 : c!"/work/ngraymon/pimc/data_set_{:d}/electronic_structure/" =
        join (join c!"/work/ngraymon/pimc" (templateVib n)) c!"electronic_structure" ++ c!"/" :=
      (List.cons.inj h).1
    rw [h2, h1] at h3
    refine Eq.trans rfl (h3.trans ?_)
    simp
  have h4 := List.append_cancel_left h'
  cases hn : natStr n with
  | nil => exact natStr_ne_nil n hn
  | cons c cs =>
    rw [hn] at h4
    have hc : '{' = c := (List.cons.inj h4).1
    exact notMem_natStr (c := '{') (by decide) n (by rw [hn, hc]; simp)

end Pibronic.Props.VibronMain
