import Verif.Model.Julia
import Verif.Props.Analytic
import Verif.Props.JobBoss

set_option autoImplicit false

/-!
Theorems about the commands for Julia: C96 (each calculation asks for its model, temperature and
sizes), C97 (the command line), C98 (the iterative method), and about the script for a whole molecule:
C99.
-/
namespace Pibronic.Props.Julia
open Pibronic.Py Pibronic.FileName Pibronic.FileStructure Pibronic.Analytic Pibronic.Julia
open Pibronic.Spec.FileStructure Pibronic.Postprocessing Pibronic.Slurm Pibronic.Props.Analytic

/-! ### Specification -/

/-- A character that means nothing special to a shell or to `str.format`. -/
def Ordinary (c : Char) : Prop := c.isAlphanum = true ∨ c ∈ c!"/._-+"

/-- A text that a shell takes as one word. -/
def Word (s : Str) : Prop := s ≠ [] ∧ ∀ c ∈ s, Ordinary c

/-- The file with the model that a calculation is about. -/
def modelFile (absRoot : Str) (d r : Nat) : Method → Str
  | .sampling => rhoDir absRoot d r ++ c!"parameters/sampling_model.json"
  | .original => dataDir absRoot d ++ c!"parameters/original_coupled_model.json"
  | .sos _ => dataDir absRoot d ++ c!"parameters/coupled_model.json"
  | .trotter _ _ => dataDir absRoot d ++ c!"parameters/coupled_model.json"

/-- What Julia should be asked for: program and arguments. -/
def wanted (toolkit file beta : Str) : Method → List Str
  | .sampling => [c!"julia", toolkit ++ c!"/pibronic_bin/analytical.jl", c!"--conf", file,
      c!"--beta", beta]
  | .original => [c!"julia", toolkit ++ c!"/pibronic_bin/analytical.jl", c!"--conf", file,
      c!"--beta", beta, c!"--uncoupled"]
  | .sos B => [c!"julia", toolkit ++ c!"/pibronic_bin/sos.jl", c!"--conf", file, c!"--beta", beta,
      c!"--basis-size", natStr B]
  | .trotter P B => [c!"julia", toolkit ++ c!"/pibronic_bin/trotter.jl", c!"--conf", file,
      c!"--beta", beta, c!"--basis-size", natStr B, c!"--num-links", natStr P]

/-- Julia works and its package lies in the directory `toolkit`. -/
structure Works (env : Env) (toolkit : Str) : Prop where
  version : ∃ r, env.version = some r ∧ c!"julia version" <:+: r.out
  package : ∃ r, env.pathof = some r ∧ r.err = [] ∧
    env.realpath r.out = toolkit ++ c!"/src/VibronicToolkit.jl"
  word : Word toolkit
  directory : toolkit.getLast? ≠ some '/'

/-! ### Lemmas -/

theorem not_ordinary {c : Char} (h : ¬ Ordinary c) {s : Str} (hs : ∀ x ∈ s, Ordinary x) : c ∉ s :=
  fun hc => h (hs c hc)

theorem blank_not : ¬ Ordinary ' ' := by unfold Ordinary; decide
theorem open_not : ¬ Ordinary '{' := by unfold Ordinary; decide
theorem close_not : ¬ Ordinary '}' := by unfold Ordinary; decide

theorem shellWords_cons (w rest : Str) (h1 : w ≠ []) (h2 : ' ' ∉ w) :
    shellWords (w ++ ' ' :: rest) = w :: shellWords rest := by
  unfold shellWords
  have hf : find c!" " (w ++ ' ' :: rest) = some (w, rest) := by
    simpa using find_of_notMem ' ' [] w rest h2
  rw [split_of_find ' ' [] _ _ _ hf, List.filter_cons]
  simp [h1]

theorem shellWords_last (w : Str) (h1 : w ≠ []) (h2 : ' ' ∉ w) : shellWords w = [w] := by
  unfold shellWords
  rw [split_of_find_none ' ' [] _ (find_none_of_notMem _ _ _ h2)]
  simp [h1]

theorem dirname_append (a b : Str) (h : '/' ∉ b) (ha : a ≠ []) (hl : a.getLast? ≠ some '/') :
    dirname (a ++ '/' :: b) = a := by
  have e : (a ++ '/' :: b).reverse = b.reverse ++ '/' :: a.reverse := by simp
  have d : (b.reverse ++ '/' :: a.reverse).dropWhile (· ≠ '/') = '/' :: a.reverse := by
    rw [List.dropWhile_append_of_pos]
    · simp
    · intro x hx
      have : x ∈ b := by simpa using hx
      simp only [decide_eq_true_eq]
      rintro rfl
      exact h this
  unfold dirname
  simp only [e]
  rw [d]
  have hr : ('/' :: a.reverse).reverse = a ++ ['/'] := by simp
  rw [hr]
  obtain ⟨i, x, rfl⟩ : ∃ i x, a = i ++ [x] := ⟨a.dropLast, a.getLast ha, (List.dropLast_append_getLast ha).symm⟩
  have hx : x ≠ '/' := by simpa using hl
  simp [hx]

theorem juliaPath_works {env : Env} {toolkit : Str} (h : Works env toolkit) :
    juliaPath env = .ok (c!"julia " ++ toolkit ++ c!"/pibronic_bin/") := by
  obtain ⟨⟨rv, hv, hin⟩, ⟨rp, hp, herr, hreal⟩, ⟨hne, -⟩, hdir⟩ := h
  have hc : JobBoss.contains c!"julia version" rv.out = true := (Props.JobBoss.contains_iff _ _).2 hin
  have h1 : dirname (toolkit ++ c!"/src/VibronicToolkit.jl") = toolkit ++ c!"/src" := by
    have := dirname_append (toolkit ++ c!"/src") c!"VibronicToolkit.jl" (by decide) (by simp) (by simp)
    simpa using this
  have h2 : dirname (toolkit ++ c!"/src") = toolkit := dirname_append toolkit c!"src" (by decide) hne hdir
  unfold juliaPath prepareJulia
  rw [if_neg (by decide), hv, hp]
  simp only [hc, if_true, bind, Except.bind, herr, ne_eq, not_true_eq_false, if_false, hreal, h1, h2]
  rw [join, if_neg]
  · simp
  · exact not_or.2 ⟨hne, hdir⟩
  · intro tl; simp

theorem ordinary_natStr (n : Nat) : ∀ c ∈ natStr n, Ordinary c := by
  intro c hc
  have := natStr_isDigit n c hc
  left
  unfold IsDigit digitVal at this
  have hd : 48 ≤ c.toNat ∧ c.toNat ≤ 57 := by
    by_contra h
    simp [h] at this
  have : c.isDigit = true := by
    simp only [Char.isDigit, Bool.and_eq_true, decide_eq_true_eq]
    exact ⟨hd.1, hd.2⟩
  simp [Char.isAlphanum, this]

theorem natStr_word (n : Nat) : Word (natStr n) := ⟨natStr_ne_nil n, ordinary_natStr n⟩

theorem word_append {a b : Str} (ha : Word a) (hb : ∀ c ∈ b, Ordinary c) : Word (a ++ b) :=
  ⟨by simp [ha.1], by
    intro c hc
    rcases List.mem_append.1 hc with h | h
    · exact ha.2 c h
    · exact hb c h⟩

theorem ordinary_of (s : Str) (h : s.all (fun c => c.isAlphanum || c!"/._-+".contains c) = true) :
    ∀ c ∈ s, Ordinary c := by
  intro c hc
  have := List.all_eq_true.1 h c hc
  simp only [Bool.or_eq_true] at this
  rcases this with h | h
  · exact .inl h
  · exact .inr (by simpa using h)

theorem dataDir_word {absRoot : Str} (h : Word absRoot) (d : Nat) : Word (dataDir absRoot d) := by
  unfold dataDir
  exact word_append (word_append (word_append h (ordinary_of _ (by decide))) (ordinary_natStr d))
    (ordinary_of _ (by decide))

theorem rhoDir_word {absRoot : Str} (h : Word absRoot) (d r : Nat) : Word (rhoDir absRoot d r) := by
  unfold rhoDir
  exact word_append (word_append (word_append (dataDir_word h d) (ordinary_of _ (by decide)))
    (ordinary_natStr r)) (ordinary_of _ (by decide))

theorem modelFile_word {absRoot : Str} (h : Word absRoot) (d r : Nat) (m : Method) :
    Word (modelFile absRoot d r m) := by
  cases m with
  | sampling => exact word_append (rhoDir_word h d r) (ordinary_of _ (by decide))
  | original => exact word_append (dataDir_word h d) (ordinary_of _ (by decide))
  | sos B => exact word_append (dataDir_word h d) (ordinary_of _ (by decide))
  | trotter P B => exact word_append (dataDir_word h d) (ordinary_of _ (by decide))

/-- A field `{name:}` whose value is a text. -/
theorem format_text (args : Str → Option Arg) (name rest t : Str) (h1 : ':' ∉ name) (h2 : '}' ∉ name)
    (h3 : '{' ∉ name) (ha : args name = some (.str t)) :
    format args ('{' :: (name ++ ':' :: '}' :: rest)) = (format args rest).map (t ++ ·) := by
  have := format_field args name [] rest (.str t) t h1 (by simp [h2]) h3 ha rfl
  simpa using this

/-- The word after a blank is an option or value of its own. -/
theorem words_step (w rest : Str) (h : Word w) : shellWords (w ++ (c!" " ++ rest)) = w :: shellWords rest :=
  shellWords_cons w rest h.1 (not_ordinary blank_not h.2)

theorem words_end (w : Str) (h : Word w) : shellWords w = [w] :=
  shellWords_last w h.1 (not_ordinary blank_not h.2)

theorem word_of (s : Str) (h : s ≠ []) (h' : s.all (fun c => c.isAlphanum || c!"/._-+".contains c) = true) :
    Word s := ⟨h, ordinary_of s h'⟩

theorem template_works {env : Env} {toolkit : Str} (h : Works env toolkit) (key t : Str)
    (hk : ((commandDict (c!"julia " ++ toolkit ++ c!"/pibronic_bin/")).find? fun e => e.1 == key)
      = some (key, c!"julia " ++ toolkit ++ c!"/pibronic_bin/" ++ t)) :
    commandTemplate env key = .ok (c!"julia " ++ (toolkit ++ c!"/pibronic_bin/") ++ t) := by
  unfold commandTemplate
  rw [juliaPath_works h]
  simp only [bind, Except.bind]
  rw [hk]
  simp

/-! ### C96 -/

/-- C96: every calculation runs the script of its method in the installed package, on the file of its
model, at its temperature and with its sizes, and nothing else. -/
theorem C96_command_partial {env : Env} {toolkit root absRoot beta : Str} (hj : Works env toolkit)
    (hr : RootOk root absRoot) (hw : Word absRoot) (hb : Word beta) (d r : Nat) (m : Method) :
    ∃ cmd, calcCommand env (initFS root absRoot d r) m beta = .ok cmd ∧
      shellWords cmd = wanted toolkit (modelFile absRoot d r m) beta m := by
  have hw1 := not_ordinary open_not hw.2
  have hw2 := not_ordinary close_not hw.2
  have hdst := C50_results_files hr hw1 hw2 d r m
  have ht := hj.word
  have t1 : '{' ∉ c!"julia " ++ (toolkit ++ c!"/pibronic_bin/") := by
    simp [not_ordinary open_not ht.2]
  have t2 : '}' ∉ c!"julia " ++ (toolkit ++ c!"/pibronic_bin/") := by
    simp [not_ordinary close_not ht.2]
  have hf := modelFile_word hw d r m
  have hbin : ∀ x : Str, x.all (fun c => c.isAlphanum || c!"/._-+".contains c) = true →
      Word (toolkit ++ (c!"/pibronic_bin/" ++ x)) := fun x hx =>
    word_append ht (ordinary_of _ (by simpa using hx))
  cases m with
  | sampling =>
    have hk := template_works hj c!"analytical uncoupled" c!"analytical.jl --conf {F:} --beta {T:}"
      (by simp [commandDict])
    have e : c!"analytical.jl --conf {F:} --beta {T:}" = c!"analytical.jl --conf " ++
      ('{' :: (c!"F" ++ ':' :: '}' :: (c!" --beta " ++ ('{' :: (c!"T" ++ ':' :: '}' :: []))))) := rfl
    have hc : calcCommand env (initFS root absRoot d r) .sampling beta = .ok (c!"julia" ++ (c!" " ++
        (toolkit ++ (c!"/pibronic_bin/" ++ c!"analytical.jl") ++ (c!" " ++ (c!"--conf" ++ (c!" " ++
        (modelFile absRoot d r .sampling ++ (c!" " ++ (c!"--beta" ++ (c!" " ++ beta)))))))))) := by
      unfold calcCommand
      rw [show dictKey .sampling = c!"analytical uncoupled" from rfl, hk, hdst]
      simp only [bind, Except.bind]
      rw [e, format_literal _ _ _ t1 t2, format_literal _ _ _ (by decide) (by decide),
        format_text _ c!"F" _ (modelFile absRoot d r .sampling) (by decide) (by decide) (by decide)
          (by simp [fields, initFS_eq hr, modelFile]),
        format_literal _ _ _ (by decide) (by decide),
        format_text _ c!"T" _ beta (by decide) (by decide) (by decide) (by simp [fields]), format_nil]
      simp [Except.map]
    refine ⟨_, hc, ?_⟩
    rw [words_step _ _ (word_of _ (by simp) (by decide)), words_step _ _ (hbin _ (by decide)),
      words_step _ _ (word_of _ (by simp) (by decide)), words_step _ _ hf,
      words_step _ _ (word_of _ (by simp) (by decide)), words_end _ hb]
    rfl
  | original =>
    have hk := template_works hj c!"analytical coupled"
      c!"analytical.jl --conf {F:} --beta {T:} --uncoupled" (by simp [commandDict])
    have e : c!"analytical.jl --conf {F:} --beta {T:} --uncoupled" = c!"analytical.jl --conf " ++
      ('{' :: (c!"F" ++ ':' :: '}' :: (c!" --beta " ++ ('{' :: (c!"T" ++ ':' :: '}' ::
        (c!" --uncoupled" ++ [])))))) := rfl
    have hc : calcCommand env (initFS root absRoot d r) .original beta = .ok (c!"julia" ++ (c!" " ++
        (toolkit ++ (c!"/pibronic_bin/" ++ c!"analytical.jl") ++ (c!" " ++ (c!"--conf" ++ (c!" " ++
        (modelFile absRoot d r .original ++ (c!" " ++ (c!"--beta" ++ (c!" " ++ (beta ++ (c!" " ++
        c!"--uncoupled")))))))))))) := by
      unfold calcCommand
      rw [show dictKey .original = c!"analytical coupled" from rfl, hk, hdst]
      simp only [bind, Except.bind]
      rw [e, format_literal _ _ _ t1 t2, format_literal _ _ _ (by decide) (by decide),
        format_text _ c!"F" _ (modelFile absRoot d r .original) (by decide) (by decide) (by decide)
          (by simp [fields, initFS_eq hr, modelFile, originalModel]),
        format_literal _ _ _ (by decide) (by decide),
        format_text _ c!"T" _ beta (by decide) (by decide) (by decide) (by simp [fields]),
        format_literal _ _ _ (by decide) (by decide), format_nil]
      simp [Except.map]
    refine ⟨_, hc, ?_⟩
    rw [words_step _ _ (word_of _ (by simp) (by decide)), words_step _ _ (hbin _ (by decide)),
      words_step _ _ (word_of _ (by simp) (by decide)), words_step _ _ hf,
      words_step _ _ (word_of _ (by simp) (by decide)), words_step _ _ hb,
      words_end _ (word_of _ (by simp) (by decide))]
    rfl
  | sos B =>
    have hk := template_works hj c!"sos"
      c!"sos.jl --conf {F:} --beta {T:} --basis-size {B:}" (by simp [commandDict])
    have e : c!"sos.jl --conf {F:} --beta {T:} --basis-size {B:}" = c!"sos.jl --conf " ++
      ('{' :: (c!"F" ++ ':' :: '}' :: (c!" --beta " ++ ('{' :: (c!"T" ++ ':' :: '}' ::
        (c!" --basis-size " ++ ('{' :: (c!"B" ++ ':' :: '}' :: [])))))))) := rfl
    have hc : calcCommand env (initFS root absRoot d r) (.sos B) beta = .ok (c!"julia" ++ (c!" " ++
        (toolkit ++ (c!"/pibronic_bin/" ++ c!"sos.jl") ++ (c!" " ++ (c!"--conf" ++ (c!" " ++
        (modelFile absRoot d r (.sos B) ++ (c!" " ++ (c!"--beta" ++ (c!" " ++ (beta ++ (c!" " ++
        (c!"--basis-size" ++ (c!" " ++ natStr B)))))))))))))) := by
      unfold calcCommand
      rw [show dictKey (.sos B) = c!"sos" from rfl, hk, hdst]
      simp only [bind, Except.bind]
      rw [e, format_literal _ _ _ t1 t2, format_literal _ _ _ (by decide) (by decide),
        format_text _ c!"F" _ (modelFile absRoot d r (.sos B)) (by decide) (by decide) (by decide)
          (by simp [fields, initFS_eq hr, modelFile, coupledModel]),
        format_literal _ _ _ (by decide) (by decide),
        format_text _ c!"T" _ beta (by decide) (by decide) (by decide) (by simp [fields]),
        format_literal _ _ _ (by decide) (by decide),
        format_text _ c!"B" _ (natStr B) (by decide) (by decide) (by decide) (by simp [fields]),
        format_nil]
      simp [Except.map]
    refine ⟨_, hc, ?_⟩
    rw [words_step _ _ (word_of _ (by simp) (by decide)), words_step _ _ (hbin _ (by decide)),
      words_step _ _ (word_of _ (by simp) (by decide)), words_step _ _ hf,
      words_step _ _ (word_of _ (by simp) (by decide)), words_step _ _ hb,
      words_step _ _ (word_of _ (by simp) (by decide)), words_end _ (natStr_word B)]
    rfl
  | trotter P B =>
    have hk := template_works hj c!"trotter"
      c!"trotter.jl --conf {F:} --beta {T:} --basis-size {B:} --num-links {P:}" (by simp [commandDict])
    have e : c!"trotter.jl --conf {F:} --beta {T:} --basis-size {B:} --num-links {P:}" =
      c!"trotter.jl --conf " ++
      ('{' :: (c!"F" ++ ':' :: '}' :: (c!" --beta " ++ ('{' :: (c!"T" ++ ':' :: '}' ::
        (c!" --basis-size " ++ ('{' :: (c!"B" ++ ':' :: '}' ::
        (c!" --num-links " ++ ('{' :: (c!"P" ++ ':' :: '}' :: []))))))))))) := rfl
    have hc : calcCommand env (initFS root absRoot d r) (.trotter P B) beta = .ok (c!"julia" ++ (c!" " ++
        (toolkit ++ (c!"/pibronic_bin/" ++ c!"trotter.jl") ++ (c!" " ++ (c!"--conf" ++ (c!" " ++
        (modelFile absRoot d r (.trotter P B) ++ (c!" " ++ (c!"--beta" ++ (c!" " ++ (beta ++ (c!" " ++
        (c!"--basis-size" ++ (c!" " ++ (natStr B ++ (c!" " ++
        (c!"--num-links" ++ (c!" " ++ natStr P)))))))))))))))))) := by
      unfold calcCommand
      rw [show dictKey (.trotter P B) = c!"trotter" from rfl, hk, hdst]
      simp only [bind, Except.bind]
      rw [e, format_literal _ _ _ t1 t2, format_literal _ _ _ (by decide) (by decide),
        format_text _ c!"F" _ (modelFile absRoot d r (.trotter P B)) (by decide) (by decide)
          (by decide) (by simp [fields, initFS_eq hr, modelFile, coupledModel]),
        format_literal _ _ _ (by decide) (by decide),
        format_text _ c!"T" _ beta (by decide) (by decide) (by decide) (by simp [fields]),
        format_literal _ _ _ (by decide) (by decide),
        format_text _ c!"B" _ (natStr B) (by decide) (by decide) (by decide) (by simp [fields]),
        format_literal _ _ _ (by decide) (by decide),
        format_text _ c!"P" _ (natStr P) (by decide) (by decide) (by decide) (by simp [fields]),
        format_nil]
      simp [Except.map]
    refine ⟨_, hc, ?_⟩
    rw [words_step _ _ (word_of _ (by simp) (by decide)), words_step _ _ (hbin _ (by decide)),
      words_step _ _ (word_of _ (by simp) (by decide)), words_step _ _ hf,
      words_step _ _ (word_of _ (by simp) (by decide)), words_step _ _ hb,
      words_step _ _ (word_of _ (by simp) (by decide)), words_step _ _ (natStr_word B),
      words_step _ _ (word_of _ (by simp) (by decide)), words_end _ (natStr_word P)]
    rfl

/-- Julia at work, as an example. -/
def exampleEnv : Env where
  version := some ⟨0, c!"julia version 1.0.0\n", []⟩
  load := none
  exec := fun _ => .ok ()
  pathof := some ⟨0, c!"/opt/VibronicToolkit/src/VibronicToolkit.jl", []⟩
  realpath := id

theorem exampleEnv_works : Works exampleEnv c!"/opt/VibronicToolkit" where
  version := ⟨_, rfl, by decide⟩
  package := ⟨_, rfl, rfl, rfl⟩
  word := word_of _ (by simp) (by decide)
  directory := by simp

example : ∃ cmd, calcCommand exampleEnv (initFS c!"/work/pimc/" c!"/work/pimc" 11 0) (.trotter 12 80)
      c!"38.68" = .ok cmd ∧
    shellWords cmd = [c!"julia", c!"/opt/VibronicToolkit/pibronic_bin/trotter.jl", c!"--conf",
      c!"/work/pimc/data_set_11/parameters/coupled_model.json", c!"--beta", c!"38.68",
      c!"--basis-size", c!"80", c!"--num-links", c!"12"] := by
  obtain ⟨cmd, h1, h2⟩ := C96_command_partial exampleEnv_works
    (root := c!"/work/pimc/") (absRoot := c!"/work/pimc") (beta := c!"38.68")
    ⟨by simp, by simp, .inr rfl⟩ (word_of _ (by simp) (by decide)) (word_of _ (by simp) (by decide))
    11 0 (.trotter 12 80)
  refine ⟨cmd, h1, h2.trans ?_⟩
  decide +kernel

/-- C96, refuted: paths are not quoted, so with a blank in the root directory Julia is given another
file. -/
theorem C96_blank_refuted : ¬ ∀ (env : Env) (toolkit root absRoot beta : Str) (d r : Nat) (m : Method),
    Works env toolkit → RootOk root absRoot → '{' ∉ absRoot → '}' ∉ absRoot → Word beta →
    ∃ cmd, calcCommand env (initFS root absRoot d r) m beta = .ok cmd ∧
      shellWords cmd = wanted toolkit (modelFile absRoot d r m) beta m := by
  intro h
  obtain ⟨cmd, h1, h2⟩ := h exampleEnv c!"/opt/VibronicToolkit" c!"/my data" c!"/my data" c!"1.5" 1 0
    .sampling exampleEnv_works ⟨by simp, by simp, .inl rfl⟩ (by decide) (by decide)
    (word_of _ (by simp) (by decide))
  have e : calcCommand exampleEnv (initFS c!"/my data" c!"/my data" 1 0) .sampling c!"1.5" =
      .ok c!"julia /opt/VibronicToolkit/pibronic_bin/analytical.jl --conf /my data/data_set_1/rho_0/parameters/sampling_model.json --beta 1.5" := by
    decide +kernel
  rw [e] at h1
  cases h1
  revert h2
  decide +kernel

/-- C96: when Julia cannot be started, when its package is missing or when it prints a warning, no
calculation of any kind is run. -/
theorem C96_nothing_run (env : Env) (s : FS) (m : Method) (beta : Str)
    (h : env.version = none ∨ env.pathof = none ∨ ∃ r, env.pathof = some r ∧ r.err ≠ []) :
    ∃ e, calcCommand env s m beta = .error e := by
  have key : ∃ e, juliaPath env = .error e := by
    unfold juliaPath
    cases hp : prepareJulia env c!"1.0.0" with
    | error e => exact ⟨e, rfl⟩
    | ok u =>
      rcases h with h | h | ⟨r, h, herr⟩
      · rw [prepareJulia, if_neg (by decide), h] at hp
        cases hp
      · simp only [bind, Except.bind, h]
        exact ⟨_, rfl⟩
      · simp only [bind, Except.bind, h, if_pos herr]
        exact ⟨_, rfl⟩
  obtain ⟨e, he⟩ := key
  exact ⟨e, by simp [calcCommand, commandTemplate, he, bind, Except.bind]⟩

/-- C96, refuted: the module with Julia is meant to be loaded when Julia is not there, but then the
question for its version already fails, whatever the module command could do. -/
theorem C96_module_refuted (env : Env) (h : env.version = none) (version : Str) :
    ∃ e, prepareJulia env version = .error e ∧
      ∀ load exec, prepareJulia { env with load := load, exec := exec } version = .error e := by
  unfold prepareJulia
  split
  · exact ⟨_, rfl, fun _ _ => rfl⟩
  · rw [h]
    exact ⟨_, rfl, fun _ _ => rfl⟩

example : ∃ env : Env, env.version = none ∧ env.load = some ⟨0, c!"pass", []⟩ :=
  ⟨{ exampleEnv with version := none, load := some ⟨0, c!"pass", []⟩ }, rfl, rfl⟩

/-- C96: how the preparations end: an unknown version is refused, a missing program or module command is an `OSError`, the
text of the module command is executed when julia does not answer, and the package must be found without complaint. -/
theorem C96_preparations (env : Env) (version : Str) :
    (prepareJulia env version = .error .assertion ∧ version ∉ [c!"0.7.0", c!"1.0.0", c!"1.0.1"]) ∨
    version ∈ [c!"0.7.0", c!"1.0.0", c!"1.0.1"] ∧
      (env.version = none → prepareJulia env version = .error .os) ∧
      (∀ r, env.version = some r → c!"julia version" <:+: r.out → prepareJulia env version = .ok ()) ∧
      (∀ r, env.version = some r → ¬ c!"julia version" <:+: r.out → env.load = none →
        prepareJulia env version = .error .os) ∧
      (∀ r l, env.version = some r → ¬ c!"julia version" <:+: r.out → env.load = some l →
        prepareJulia env version = env.exec l.out) := by
  by_cases h : version ∈ [c!"0.7.0", c!"1.0.0", c!"1.0.1"]
  · refine .inr ⟨h, fun hv => ?_, fun r hv hc => ?_, fun r hv hc hl => ?_, fun r l hv hc hl => ?_⟩
    all_goals
      unfold prepareJulia
      rw [if_neg (not_not.mpr h), hv]
    · simp only [(Props.JobBoss.contains_iff _ _).2 hc, if_true]
    all_goals
      have : JobBoss.contains c!"julia version" r.out = false := by
        rw [Bool.eq_false_iff]; exact fun h => hc ((Props.JobBoss.contains_iff _ _).1 h)
      simp [this, hl]
  · refine .inl ⟨?_, h⟩
    unfold prepareJulia
    rw [if_pos h]

/-- C96: when julia answers, a package that cannot be asked for or that complains stops every command, and so does a key
that has no command. -/
theorem C96_no_command (env : Env) (r : Completed) (h : env.version = some r) (hj : c!"julia version" <:+: r.out) (key : Str) :
    (env.pathof = none → commandTemplate env key = .error .os) ∧
    (∀ q, env.pathof = some q → q.err ≠ [] → commandTemplate env key = .error .assertion) ∧
    (∀ q, env.pathof = some q → q.err = [] → key ∉ [c!"analytical coupled", c!"analytical uncoupled", c!"sos", c!"trotter",
      c!"sampling", c!"finite difference sampling", c!"iterative"] → commandTemplate env key = .error .key) := by
  have hp : prepareJulia env c!"1.0.0" = .ok () := by
    rcases C96_preparations env c!"1.0.0" with ⟨-, h0⟩ | ⟨-, -, h1, -⟩
    · exact absurd (by decide) h0
    · exact h1 r h hj
  refine ⟨fun h1 => ?_, fun q h1 h2 => ?_, fun q h1 h2 h3 => ?_⟩
  · simp only [commandTemplate, juliaPath, hp, bind, Except.bind, h1]
  · simp only [commandTemplate, juliaPath, hp, bind, Except.bind, h1, if_pos h2]
  · simp only [commandTemplate, juliaPath, hp, bind, Except.bind, h1, h2, ne_eq, not_true_eq_false, if_false]
    have hn : ∀ jPath : Str, ((commandDict jPath).find? fun e => e.1 == key) = none := by
      intro jPath
      rw [List.find?_eq_none]
      rintro ⟨k, t⟩ hk he
      have he : k = key := by simpa using he
      subst he
      exact h3 ((List.mem_map.2 ⟨(k, t), hk, rfl⟩ : k ∈ (commandDict jPath).map Prod.fst))
    rw [hn]

/-! ### C97 -/

theorem known_methods (jPath : Str) : (commandDict jPath).map Prod.fst =
    [c!"analytical coupled", c!"analytical uncoupled", c!"sos", c!"trotter", c!"sampling",
      c!"finite difference sampling", c!"iterative"] := rfl

/-- The outcome is one of the calculations. -/
def Ran : Outcome → Prop
  | .usage => False
  | .raised _ => False
  | _ => True

/-- C97: what the command line runs, it runs as asked: the sum over states with the basis size and at
the temperature of the options, which were checked. -/
theorem C97_runs_as_asked_partial (env : Env) (files : Except Err Unit) (a : Args)
    (h : Ran (commandLine env files a)) :
    a.method = some c!"sos" ∧ ∃ b, a.basisSize = some b ∧ (b = 0 ∨ 2 ≤ b) ∧ 0 < a.temperature ∧
      0 ≤ a.idRho ∧ truthy a.nbeads = false ∧
      commandLine env files a = .sos b a.temperature := by
  have hmain : ∀ m, a.method = some m → Ran (main files a) →
      m ∈ [c!"iterate", c!"analytical_original", c!"analytical_sampling", c!"trotter_coupled", c!"sos"] := by
    intro m hm hr
    by_contra hn
    simp only [List.mem_cons, List.not_mem_nil, or_false, not_or] at hn
    unfold main at hr
    rw [hm] at hr
    simp only [if_neg hn.1, if_neg hn.2.1, if_neg hn.2.2.1, if_neg hn.2.2.2.1, if_neg hn.2.2.2.2] at hr
    split at hr
    · exact hr
    · split at hr <;> exact hr
  unfold commandLine at h ⊢
  split at h
  · exact absurd h id
  next g1 =>
  split at h
  · exact absurd h id
  next g2 =>
  split at h
  · exact absurd h id
  next g3 =>
  split at h
  · exact absurd h id
  next g4 =>
  split at h
  · exact absurd h id
  next g5 =>
  rw [if_neg g1, if_neg g2, if_neg g3, if_neg g4, if_neg g5]
  have nomethod : a.method = none ∨ a.method = some [] → ¬ Ran (main files a) := by
    rintro (hm | hm) hr
    · unfold main at hr
      rw [hm] at hr
      split at hr
      · exact hr
      · split at hr <;> exact hr
    · have := hmain [] hm hr
      revert this; decide
  split at h
  · next hm => exact absurd h (nomethod (.inl hm))
  · next hm => exact absurd h (nomethod (.inr hm))
  next m hne hm =>
  cases hj : juliaPath env with
  | error e => rw [hj] at h; exact absurd h id
  | ok jPath =>
    rw [hj] at h
    simp only at h
    split at h
    swap
    · exact absurd h id
    next hin =>
    have h5 := hmain m hm h
    rw [known_methods] at hin
    have hsos : m = c!"sos" := by
      simp only [List.mem_cons, List.not_mem_nil, or_false] at hin h5
      rcases hin with rfl | rfl | rfl | rfl | rfl | rfl | rfl <;> revert h5 <;> decide
    subst hsos
    refine ⟨hm, ?_⟩
    have hTne : a.temperature ≠ 0 := by
      intro h0
      unfold main at h
      rw [if_pos h0] at h
      exact h
    have hT : 0 < a.temperature := by
      by_contra hn
      exact g3 ⟨hTne, hn⟩
    cases hb : a.basisSize with
    | none =>
      unfold main at h
      rw [if_neg hTne, hm, hb] at h
      split at h <;> exact absurd h id
    | some b =>
      refine ⟨b, rfl, ?_, hT, by omega, ?_, ?_⟩
      · by_cases hb0 : b = 0
        · exact .inl hb0
        · right
          by_contra hlt
          apply g5
          unfold basisRefused
          rw [hb]
          simp [truthy, hb0]
          right
          omega
      · by_contra hnb
        apply g4
        unfold beadsRefused
        rw [hm]
        have : truthy a.nbeads = true := by simpa using hnb
        rw [this]
        have : mentions c!"sampling" (some c!"sos") = false := by decide
        simp [this]
      · simp only
        rw [known_methods, if_pos (by decide)]
        unfold main at h ⊢
        rw [if_neg hTne, hm, hb] at h ⊢
        cases files with
        | error e => exact absurd h id
        | ok u => rfl

/-- C97: asking for sums over states works. -/
theorem C97_sos_runs {env : Env} {toolkit : Str} (hj : Works env toolkit) (a : Args) (b : Int)
    (hm : a.method = some c!"sos") (hb : a.basisSize = some b) (h2 : 2 ≤ b) (hT : 0 < a.temperature)
    (hbeta : a.beta = none) (hn : a.nbeads = none) (hr : 0 ≤ a.idRho) :
    commandLine env (.ok ()) a = .sos b a.temperature := by
  have e1 : beadsRefused a = false := by simp [beadsRefused, hn, truthy]
  have e2 : basisRefused a = false := by
    have h1 : mentions c!"sos" (some c!"sos") = true := by decide
    simp only [basisRefused, hb, hm, h1]
    simp [h2]
  unfold commandLine
  rw [if_neg (by omega), if_neg (by simp [hbeta, truthy]), if_neg (by simp [hT]), e1, e2,
    if_neg (by simp), if_neg (by simp), hm, juliaPath_works hj]
  simp only
  rw [known_methods, if_pos (by decide)]
  unfold main
  rw [if_neg (ne_of_gt hT), hm, hb]
  rfl

example : commandLine exampleEnv (.ok ())
    ⟨c!"/work", 300, none, 11, 0, none, some 80, some c!"sos"⟩ = .sos 80 300 :=
  C97_sos_runs exampleEnv_works _ 80 rfl rfl (by norm_num) (by norm_num) rfl rfl (by norm_num)

/-- C97, refuted: no other method can be run from the command line, neither those it offers nor the
one that is meant to be the default. -/
theorem C97_methods_refuted (env : Env) (files : Except Err Unit) (a : Args)
    (h : a.method ≠ some c!"sos") : ¬ Ran (commandLine env files a) :=
  fun hr => h (C97_runs_as_asked_partial env files a hr).1

theorem main_not_usage (files : Except Err Unit) (a : Args) : main files a ≠ .usage := by
  unfold main
  split
  · simp
  · cases files with
    | error e => simp
    | ok u =>
      cases a.method with
      | none => simp
      | some m =>
        simp only
        repeat' split
        all_goals simp

theorem truthy_iff {K : Type} [Zero K] [DecidableEq K] (x : Option K) :
    truthy x = true ↔ ∃ y, x = some y ∧ y ≠ 0 := by
  cases x <;> simp [truthy]

/-- C97: which options are refused with a message: exactly these. -/
theorem C97_refused_iff {env : Env} {toolkit : Str} (hj : Works env toolkit) (files : Except Err Unit) (a : Args) :
    commandLine env files a = .usage ↔
      a.idRho < 0 ∨ (a.temperature ≠ 0 ∧ ∃ b, a.beta = some b ∧ b ≠ 0) ∨ a.temperature < 0 ∨
      (∃ p, a.nbeads = some p ∧ p ≠ 0 ∧
        (p < 3 ∨ ∃ m, a.method = some m ∧ m ≠ [] ∧ ¬ c!"sampling" <:+: m)) ∨
      (∃ b, a.basisSize = some b ∧ b ≠ 0 ∧
        (b < 2 ∨ ∃ m, a.method = some m ∧ m ≠ [] ∧ ¬ c!"trotter" <:+: m ∧ ¬ c!"sos" <:+: m)) ∨
      ∃ m, a.method = some m ∧ m ≠ [] ∧ m ∉ [c!"analytical coupled", c!"analytical uncoupled", c!"sos", c!"trotter",
        c!"sampling", c!"finite difference sampling", c!"iterative"] := by
  have hmen : ∀ sub m, mentions sub (some m) = false ↔ ¬ sub <:+: m := by
    intro sub m
    rw [mentions, ← Bool.not_eq_true, Props.JobBoss.contains_iff]
  have hb : beadsRefused a = true ↔ ∃ p, a.nbeads = some p ∧ p ≠ 0 ∧
      (p < 3 ∨ ∃ m, a.method = some m ∧ m ≠ [] ∧ ¬ c!"sampling" <:+: m) := by
    unfold beadsRefused
    rw [Bool.and_eq_true, truthy_iff]
    cases hm : a.method with
    | none => cases a.nbeads <;> simp
    | some m => cases a.nbeads <;> simp [hmen, or_comm]
  have hs : basisRefused a = true ↔ ∃ b, a.basisSize = some b ∧ b ≠ 0 ∧
      (b < 2 ∨ ∃ m, a.method = some m ∧ m ≠ [] ∧ ¬ c!"trotter" <:+: m ∧ ¬ c!"sos" <:+: m) := by
    unfold basisRefused
    rw [Bool.and_eq_true, truthy_iff]
    cases hm : a.method with
    | none => cases a.basisSize <;> simp
    | some m => cases a.basisSize <;> simp [hmen, or_comm]
  have hneg : (a.temperature ≠ 0 ∧ ¬ 0 < a.temperature) ↔ a.temperature < 0 := by
    constructor
    · rintro ⟨h1, h2⟩; exact lt_of_le_of_ne (not_lt.mp h2) h1
    · intro h; exact ⟨h.ne, not_lt.mpr h.le⟩
  rw [← hb, ← hs, ← hneg, ← truthy_iff]
  unfold commandLine
  by_cases g1 : a.idRho < 0
  · simp [g1]
  by_cases g2 : a.temperature ≠ 0 ∧ truthy a.beta = true
  · rw [if_neg g1, if_pos g2]; exact ⟨fun _ => .inr (.inl g2), fun _ => rfl⟩
  by_cases g3 : a.temperature ≠ 0 ∧ ¬ 0 < a.temperature
  · rw [if_neg g1, if_neg g2, if_pos g3]; exact ⟨fun _ => .inr (.inr (.inl g3)), fun _ => rfl⟩
  by_cases g4 : beadsRefused a = true
  · rw [if_neg g1, if_neg g2, if_neg g3, if_pos g4]; exact ⟨fun _ => .inr (.inr (.inr (.inl g4))), fun _ => rfl⟩
  by_cases g5 : basisRefused a = true
  · rw [if_neg g1, if_neg g2, if_neg g3, if_neg g4, if_pos g5]
    exact ⟨fun _ => .inr (.inr (.inr (.inr (.inl g5)))), fun _ => rfl⟩
  rw [if_neg g1, if_neg g2, if_neg g3, if_neg g4, if_neg g5]
  simp only [g1, g2, g3, g4, g5, false_or, Bool.false_eq_true]
  cases hm : a.method with
  | none => simp [main_not_usage]
  | some m =>
    cases m with
    | nil => simp [main_not_usage]
    | cons c m =>
      simp only [juliaPath_works hj]
      by_cases hin : c :: m ∈ [c!"analytical coupled", c!"analytical uncoupled", c!"sos", c!"trotter",
          c!"sampling", c!"finite difference sampling", c!"iterative"]
      · rw [if_pos (by rw [known_methods]; exact hin)]
        simp only [main_not_usage, false_iff, not_exists, not_and, not_not, Option.some.injEq]
        rintro m' rfl -
        exact hin
      · rw [if_neg (by rw [known_methods]; exact hin)]
        simp only [true_iff]
        exact ⟨_, rfl, by simp, hin⟩

/-- C97, refuted: a value given with `--beta` is never used: with one (other than zero) nothing is
run, because the temperature has a default. -/
theorem C97_beta_refuted (env : Env) (files : Except Err Unit) (a : Args) (b : ℚ)
    (hb : a.beta = some b) (h0 : b ≠ 0) : ¬ Ran (commandLine env files a) := by
  intro hr
  have ht : truthy a.beta = true := by simp [hb, truthy, h0]
  obtain ⟨-, b', -, -, hT, -⟩ := C97_runs_as_asked_partial env files a hr
  unfold commandLine at hr
  split at hr
  · exact hr
  · rw [if_pos ⟨ne_of_gt hT, ht⟩] at hr
    exact hr

/-- C97, refuted: a basis size of zero and, for zero beads, a wrong number are let through. -/
theorem C97_zero_refuted : ∃ a : Args, a.basisSize = some 0 ∧ a.nbeads = some 0 ∧
    commandLine exampleEnv (.ok ()) a = .sos 0 300 := by
  refine ⟨⟨c!"/work", 300, none, 11, 0, some 0, some 0, some c!"sos"⟩, rfl, rfl, ?_⟩
  have hb : beadsRefused ⟨c!"/work", 300, none, 11, 0, some 0, some 0, some c!"sos"⟩ = false := by
    simp [beadsRefused, truthy]
  have hs : basisRefused ⟨c!"/work", 300, none, 11, 0, some 0, some 0, some c!"sos"⟩ = false := by
    simp [basisRefused, truthy]
  unfold commandLine
  rw [hb, hs, if_neg (by norm_num), if_neg (by simp [truthy]), if_neg (by norm_num), if_neg (by simp),
    if_neg (by simp), juliaPath_works exampleEnv_works]
  simp only
  rw [known_methods, if_pos (by decide)]
  unfold main
  rw [if_neg (by norm_num)]
  rfl

/-! ### C98 -/

/-- C98: the iterative method is asked to read the coupled model and to write the iterative model and
matrix of the same data set, with the number of iterations. -/
theorem C98_command_partial {env : Env} {toolkit root absRoot : Str} (hj : Works env toolkit)
    (hr : RootOk root absRoot) (hw : Word absRoot) (d r n : Nat) :
    ∃ cmd, iterateCommand env (initFS root absRoot d r) n = .ok cmd ∧ shellWords cmd =
      [c!"julia", toolkit ++ c!"/pibronic_bin/iterative_decomposition.jl",
        c!"--conf", dataDir absRoot d ++ c!"parameters/coupled_model.json",
        c!"--max-iter", natStr n,
        c!"--out-conf", dataDir absRoot d ++ c!"parameters/iterative_model.json",
        c!"--out-vs", dataDir absRoot d ++ c!"parameters/iterative_matrix.txt"] := by
  have ht := hj.word
  have t1 : '{' ∉ c!"julia " ++ (toolkit ++ c!"/pibronic_bin/") := by
    simp [not_ordinary open_not ht.2]
  have t2 : '}' ∉ c!"julia " ++ (toolkit ++ c!"/pibronic_bin/") := by
    simp [not_ordinary close_not ht.2]
  have hbin : Word (toolkit ++ (c!"/pibronic_bin/" ++ c!"iterative_decomposition.jl")) :=
    word_append ht (ordinary_of _ (by decide))
  have hf : ∀ x : Str, x.all (fun c => c.isAlphanum || c!"/._-+".contains c) = true →
      Word (dataDir absRoot d ++ x) := fun x hx => word_append (dataDir_word hw d) (ordinary_of _ hx)
  have hk := template_works hj c!"iterative"
    c!"iterative_decomposition.jl --conf {F:} --max-iter {N:} --out-conf {P:} --out-vs {VS:}"
    (by simp [commandDict])
  have e : c!"iterative_decomposition.jl --conf {F:} --max-iter {N:} --out-conf {P:} --out-vs {VS:}" =
    c!"iterative_decomposition.jl --conf " ++
    ('{' :: (c!"F" ++ ':' :: '}' :: (c!" --max-iter " ++ ('{' :: (c!"N" ++ ':' :: '}' ::
      (c!" --out-conf " ++ ('{' :: (c!"P" ++ ':' :: '}' ::
      (c!" --out-vs " ++ ('{' :: (c!"VS" ++ ':' :: '}' :: []))))))))))) := rfl
  have hc : iterateCommand env (initFS root absRoot d r) n = .ok (c!"julia" ++ (c!" " ++
      (toolkit ++ (c!"/pibronic_bin/" ++ c!"iterative_decomposition.jl") ++ (c!" " ++ (c!"--conf" ++
      (c!" " ++ (dataDir absRoot d ++ c!"parameters/coupled_model.json" ++ (c!" " ++
      (c!"--max-iter" ++ (c!" " ++ (natStr n ++ (c!" " ++
      (c!"--out-conf" ++ (c!" " ++ (dataDir absRoot d ++ c!"parameters/iterative_model.json" ++
      (c!" " ++ (c!"--out-vs" ++ (c!" " ++ (dataDir absRoot d ++
      c!"parameters/iterative_matrix.txt"))))))))))))))))))) := by
    unfold iterateCommand
    rw [hk]
    simp only [bind, Except.bind]
    rw [e, format_literal _ _ _ t1 t2, format_literal _ _ _ (by decide) (by decide),
      format_text _ c!"F" _ (dataDir absRoot d ++ c!"parameters/coupled_model.json") (by decide)
        (by decide) (by decide) (by simp [initFS_eq hr]),
      format_literal _ _ _ (by decide) (by decide),
      format_text _ c!"N" _ (natStr n) (by decide) (by decide) (by decide) (by simp),
      format_literal _ _ _ (by decide) (by decide),
      format_text _ c!"P" _ (dataDir absRoot d ++ c!"parameters/iterative_model.json") (by decide)
        (by decide) (by decide) (by simp [initFS_eq hr]),
      format_literal _ _ _ (by decide) (by decide),
      format_text _ c!"VS" _ (dataDir absRoot d ++ c!"parameters/iterative_matrix.txt") (by decide)
        (by decide) (by decide) (by simp [initFS_eq hr]), format_nil]
    simp [Except.map]
  refine ⟨_, hc, ?_⟩
  rw [words_step _ _ (word_of _ (by simp) (by decide)), words_step _ _ hbin,
    words_step _ _ (word_of _ (by simp) (by decide)), words_step _ _ (hf _ (by decide)),
    words_step _ _ (word_of _ (by simp) (by decide)), words_step _ _ (natStr_word n),
    words_step _ _ (word_of _ (by simp) (by decide)), words_step _ _ (hf _ (by decide)),
    words_step _ _ (word_of _ (by simp) (by decide)), words_end _ (hf _ (by decide))]
  rfl

/-- C98: what is on disk afterwards is what the program left. -/
theorem C98_leaves_partial (env : Env) (run : Str → Files → Files × Completed) (s : FS) (n : Nat)
    (files after : Files) (h : iterateMethod env run s n files = .ok after) :
    ∃ cmd, iterateCommand env s n = .ok cmd ∧ after = (run cmd files).1 := by
  unfold iterateMethod at h
  cases hc : iterateCommand env s n with
  | error e => rw [hc] at h; cases h
  | ok cmd => rw [hc] at h; cases h; exact ⟨cmd, rfl, rfl⟩

/-- C98, refuted: that the iterative method returned does not mean that there is an iterative model: a
program that fails at once, with any return code and message, goes unnoticed, and an old model stays in
place. -/
theorem C98_failure_unnoticed_refuted {env : Env} {toolkit root absRoot : Str}
    (hj : Works env toolkit) (hr : RootOk root absRoot) (hw : Word absRoot) (d r n : Nat)
    (code : Nat) (message : Str) (files : Files) :
    iterateMethod env (fun _ files => (files, ⟨code, [], message⟩)) (initFS root absRoot d r) n files
      = .ok files := by
  obtain ⟨cmd, hc, -⟩ := C98_command_partial hj hr hw d r n
  unfold iterateMethod
  rw [hc]
  rfl

example (files : Files) : iterateMethod exampleEnv
    (fun _ files => (files, ⟨1, [], c!"ERROR: out of memory"⟩))
    (initFS c!"/work/pimc/" c!"/work/pimc" 11 0) 50 files = .ok files :=
  C98_failure_unnoticed_refuted exampleEnv_works ⟨by simp, by simp, .inr rfl⟩
    (word_of _ (by simp) (by decide)) 11 0 50 1 _ files

/-! ### C99 -/

/-- C99: numbers that stand for no molecule are refused before anything happens; for the others the
directories are made, the two input files are copied if both are found, and then the rest is run. -/
theorem C99_execute_partial (package : Option Str) (files : Files) (absRoot : Str)
    (rest : List Did × Option Err) (id : Nat) :
    (18 ≤ id → execute package files absRoot rest id = ([], some .exception)) ∧
    (∀ name idData p, molecules[id]? = some (name, idData) → package = some p →
      (∀ f ∈ [c!"_params.txt", c!"_zmat.txt"], files (join (join p name) f) ≠ none) →
      execute package files absRoot rest id = (.madeDirectories ::
        .copied (join (join p name) c!"_params.txt")
          (join (join (initFS c!"/work/ngraymon/pimc/" absRoot idData 0).pathEs name) c!"_params.txt") ::
        .copied (join (join p name) c!"_zmat.txt")
          (join (join (initFS c!"/work/ngraymon/pimc/" absRoot idData 0).pathEs name) c!"_zmat.txt") ::
        rest.1, rest.2)) := by
  constructor
  · intro h
    unfold execute
    rw [List.getElem?_eq_none (by simpa [molecules] using h)]
  · intro name idData p hm hp hf
    obtain ⟨t1, h1⟩ := Option.ne_none_iff_exists'.1 (hf c!"_params.txt" (by simp))
    obtain ⟨t2, h2⟩ := Option.ne_none_iff_exists'.1 (hf c!"_zmat.txt" (by simp))
    unfold execute
    rw [hm, hp]
    simp [copyInput, copyFile, h1, h2]

/-- C99, refuted: the input files are never found.  They are looked for below the file of the package
(a file with a name of its own, so nothing lies below it) or, when the package is a plain directory,
not at all; so no molecule gets further than its directories. -/
theorem C99_never_finishes_refuted (package : Option Str) (files : Files) (absRoot : Str)
    (rest : List Did × Option Err) (id : Nat) (hid : id < 18)
    (hfile : ∀ p, package = some p → p ≠ [] ∧ p.getLast? ≠ some '/' ∧ ∀ x, files (p ++ '/' :: x) = none) :
    execute package files absRoot rest id =
      ([.madeDirectories], some (if package = none then .attribute else .os)) := by
  have hn : ∀ e ∈ molecules, ∃ c cs, e.1 = c :: cs ∧ c ≠ '/' := by
    intro e he
    have h1 : ∀ e ∈ molecules, e.1.head? ≠ none ∧ e.1.head? ≠ some '/' := by decide
    obtain ⟨h2, h3⟩ := h1 e he
    cases h4 : e.1 with
    | nil => rw [h4] at h2; exact absurd rfl h2
    | cons c cs => rw [h4] at h3; exact ⟨c, cs, rfl, by simpa using h3⟩
  unfold execute
  obtain ⟨e, he⟩ : ∃ e, molecules[id]? = some e :=
    ⟨molecules[id]'(by simpa [molecules] using hid), List.getElem?_eq_getElem _⟩
  obtain ⟨c, cs, hname, hc⟩ := hn e (List.mem_of_getElem? he)
  rw [he]
  obtain ⟨name, idData⟩ := e
  simp only at hname
  subst hname
  cases package with
  | none => rfl
  | some p =>
    obtain ⟨h1, h2, h3⟩ := hfile p rfl
    have hj : ∃ x, join (join p (c :: cs)) c!"_params.txt" = p ++ '/' :: x := by
      have e1 : join p (c :: cs) = p ++ '/' :: c :: cs := by
        unfold join
        split
        · next t ht => exact absurd (List.cons.inj ht).1 hc
        · rw [if_neg (not_or.2 ⟨h1, h2⟩)]
      rw [e1]
      unfold join
      split
      · next h => exact absurd (List.cons.inj h).1 (by decide)
      split
      · exact ⟨c :: cs ++ c!"_params.txt", by simp⟩
      · exact ⟨c :: cs ++ '/' :: c!"_params.txt", by simp⟩
    obtain ⟨x, hx⟩ := hj
    simp only [copyInput, copyFile, hx, h3]
    rfl

example : execute (some c!"/repo/examples/input_files/__init__.py")
    (fun p => if p = c!"/repo/examples/input_files/water_params.txt" then some [] else none)
    c!"/work/ngraymon/pimc" ([], none) 8 = ([.madeDirectories], some .os) :=
  C99_never_finishes_refuted _ _ _ _ 8 (by norm_num) fun p hp => by
    cases hp
    refine ⟨by simp, by simp, fun x => ?_⟩
    rw [if_neg]
    simp

/-- C99, refuted: even if the input files were found they would be of no use: whatever is copied for a molecule is not put
where its calculation reads it. -/
theorem C99_wrong_place_refuted (package : Option Str) (files : Files) (absRoot : Str)
    (hr : RootOk c!"/work/ngraymon/pimc/" absRoot) (id : Nat) (name : Str) (idData : Nat)
    (hm : molecules[id]? = some (name, idData)) (src dst : Str)
    (hd : Did.copied src dst ∈ (execute package files absRoot ([], none) id).1) :
    dst ∉ calculationInputs (dataDir absRoot idData ++ c!"electronic_structure") name ∧
    (initFS c!"/work/ngraymon/pimc/" absRoot idData 0).pathEs = dataDir absRoot idData ++ c!"electronic_structure" := by
  have hes : (initFS c!"/work/ngraymon/pimc/" absRoot idData 0).pathEs =
      dataDir absRoot idData ++ c!"electronic_structure" := by
    rw [initFS_eq hr]
  refine ⟨?_, hes⟩
  have hn : ∀ e ∈ molecules, e.1.head? ≠ none ∧ e.1.head? ≠ some '/' ∧ e.1.getLast? ≠ some '/' := by decide
  obtain ⟨n1, n2, n3⟩ := hn _ (List.mem_of_getElem? hm)
  simp only at n1 n2 n3
  obtain ⟨c, cs, rfl⟩ : ∃ c cs, name = c :: cs := by
    cases name with
    | nil => exact absurd rfl n1
    | cons c cs => exact ⟨c, cs, rfl⟩
  have hc : c ≠ '/' := fun h => n2 (by rw [h]; rfl)
  obtain ⟨es, e, e1, e2⟩ : ∃ es, dataDir absRoot idData ++ c!"electronic_structure" = es ∧ es ≠ [] ∧
      es.getLast? ≠ some '/' :=
    ⟨_, rfl, by simp, by rw [List.getLast?_append_of_ne_nil _ (by simp)]; decide⟩
  have j0 : ∀ x : Str, join es (c :: x) = es ++ ['/'] ++ c :: x := by
    intro x
    unfold join
    split
    · next h => exact absurd (List.cons.inj h).1 hc
    · rw [if_neg (not_or.2 ⟨e1, e2⟩)]; simp
  have j1 := j0 cs
  have j2 : ∀ x : Str, join (es ++ ['/'] ++ c :: cs) ('_' :: x) = es ++ ['/'] ++ c :: cs ++ '/' :: '_' :: x := by
    intro x
    unfold join
    split
    · next h => exact absurd (List.cons.inj h).1 (by decide)
    · rw [if_neg]
      rw [not_or]
      refine ⟨by simp, ?_⟩
      rw [List.getLast?_append_of_ne_nil _ (by simp)]
      exact n3
  have j3 : ∀ x : Str, join es (c :: cs ++ x) = es ++ ['/'] ++ (c :: cs ++ x) := fun x => j0 _
  have hdst : dst = es ++ ['/'] ++ c :: cs ++ c!"/_params.txt" ∨ dst = es ++ ['/'] ++ c :: cs ++ c!"/_zmat.txt" := by
    unfold execute at hd
    rw [hm] at hd
    simp only [hes, e] at hd
    have hd' : Did.copied src dst ∈ (copyInput package files es (c :: cs)).1 := by
      split at hd
      · simpa using hd
      · simpa using hd
    unfold copyInput at hd'
    split at hd'
    · simp at hd'
    · simp only [j1, j2, copyFile] at hd'
      split at hd'
      · simp at hd'
      · next h1 =>
        split at h1
        · cases h1
          split at hd'
          · simp at hd'; exact .inl (by simp [hd'.2])
          · next h2 =>
            split at h2
            · cases h2
              simp at hd'
              rcases hd' with hd' | hd'
              · exact .inl (by simp [hd'.2])
              · exact .inr (by simp [hd'.2])
            · cases h2
        · cases h1
  rw [e, calculationInputs, j3, j3]
  simp only [List.mem_cons, List.not_mem_nil, or_false, not_or]
  rcases hdst with rfl | rfl <;>
  · constructor <;>
    · intro h
      rw [List.append_assoc, List.append_assoc, List.append_assoc] at h
      have h := List.append_cancel_left (List.append_cancel_left (List.append_cancel_left h))
      simp at h

/-- Water, with a package in which the files are found: they are copied, and the calculation reads others. -/
example : execute (some c!"/p") (fun _ => some []) c!"/work/ngraymon/pimc" ([], none) 8 =
    ([.madeDirectories,
      .copied c!"/p/water/_params.txt" c!"/work/ngraymon/pimc/data_set_208/electronic_structure/water/_params.txt",
      .copied c!"/p/water/_zmat.txt" c!"/work/ngraymon/pimc/data_set_208/electronic_structure/water/_zmat.txt"], none) ∧
    calculationInputs c!"/work/ngraymon/pimc/data_set_208/electronic_structure" c!"water" =
      [c!"/work/ngraymon/pimc/data_set_208/electronic_structure/water_params.txt",
       c!"/work/ngraymon/pimc/data_set_208/electronic_structure/water_zmat.txt"] := by
  decide +kernel

/-- C99, refuted: the vibronic model of a molecule is not looked for in the directory in which it is calculated. -/
theorem C99_result_elsewhere_refuted (absRoot : Str) (hr : RootOk c!"/work/ngraymon/pimc/" absRoot) (id : Nat)
    (name : Str) (idData : Nat) (hm : molecules[id]? = some (name, idData)) :
    ¬ (dataDir absRoot idData ++ c!"electronic_structure/") <+:
      resultFile (initFS c!"/work/ngraymon/pimc/" absRoot idData 0) name := by
  have hes : (initFS c!"/work/ngraymon/pimc/" absRoot idData 0).pathEs =
      dataDir absRoot idData ++ c!"electronic_structure" := by
    rw [initFS_eq hr]
  have hn : ∀ e ∈ molecules, e.1.head? ≠ none ∧ e.1.head? ≠ some '/' := by decide
  obtain ⟨n1, n2⟩ := hn _ (List.mem_of_getElem? hm)
  rw [resultFile, hes, List.append_assoc, List.append_assoc, List.prefix_append_right_inj]
  rw [show c!"electronic_structure/" = c!"electronic_structure" ++ c!"/" from rfl, List.prefix_append_right_inj]
  cases name with
  | nil => exact absurd rfl n1
  | cons c cs =>
    rintro ⟨t, ht⟩
    exact n2 (by rw [show '/' = c from (List.cons.inj ht).1]; rfl)

example : resultFile (initFS c!"/work/ngraymon/pimc/" c!"/work/ngraymon/pimc" 208 0) c!"water" =
    c!"/work/ngraymon/pimc/data_set_208/electronic_structurewater_vibron.h" := by decide +kernel

/-- C99, refuted: as a script it always fails, whatever its arguments, before doing anything: with a
number because a value is missing in the call, with another word because it is no number, and without or
with more arguments because of the check. -/
theorem C99_script_refuted (argv : List Str) :
    (argv.length ≠ 1 → script argv = ([], some .assertion)) ∧
    (∀ a n, argv = [a] → pyIntSigned a = .ok n → script argv = ([], some .type)) ∧
    (∀ a, argv = [a] → (∀ n, pyIntSigned a ≠ .ok n) → script argv = ([], some .value)) := by
  refine ⟨fun h => ?_, fun a n h hn => ?_, fun a h hn => ?_⟩
  · match argv, h with
    | [], _ => rfl
    | _ :: _ :: _, _ => rfl
  · subst h
    simp [script, hn]
  · subst h
    have : pyIntSigned a = .error .value := by
      cases h : pyIntSigned a with
      | ok n => exact absurd h (hn n)
      | error e => rw [pyIntSigned_value h]
    simp [script, this]

example : script [c!"12"] = ([], some .type) ∧ script [c!"water"] = ([], some .value) ∧
    script [] = ([], some .assertion) := by decide +kernel

end Pibronic.Props.Julia
