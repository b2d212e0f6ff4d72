import Verif.Lemmas.Orbitals
import Verif.Props.Inputs

set_option autoImplicit false

/-!
C104: the orbital energies that the suggestions are based on are those of the table in the output
of the Hartree-Fock calculation.
-/
namespace Pibronic.Props.Orbitals
open Pibronic.Py Pibronic.Buffer Pibronic.Workflow Pibronic.Molecule Pibronic.Inputs Pibronic.Orbitals

private theorem four {f : OutputFile} (h : f.Proper) :
    ∀ l ∈ [f.titleRest, f.heading 0, f.heading 1, f.heading 2], '\n' ∉ l := by
  intro l hl
  simp only [List.mem_cons, List.not_mem_nil, or_false] at hl
  rcases hl with rfl | rfl | rfl | rfl
  · exact h.title_line
  all_goals exact h.heading_lines _

private theorem lines_of {buf : Str} {i j : Nat} (h0 : buf ≠ []) (h1 : findString buf orbitalTitle = .ok i)
    (h2 : findString buf orbitalRule = .ok j) :
    orbitalLines buf = .ok (splitlines (strip (if skipForward buf 4 i ≤ j
      then (buf.drop (skipForward buf 4 i)).take (j - skipForward buf 4 i)
      else buf.drop (skipForward buf 4 i)))) := by
  unfold orbitalLines
  cases buf with
  | nil => exact absurd rfl h0
  | cons c s => simp only [h1, h2]

/-- The text before the rule does not end with a plus sign. -/
private theorem upToRule_end (f : OutputFile) (hb : ∀ c ∈ f.indent, c = ' ' ∨ c = '\t') :
    ∃ X c, f.upToRule = X ++ [c] ∧ c ≠ '+' := by
  unfold OutputFile.upToRule OutputFile.top
  rcases List.eq_nil_or_concat f.indent with h | ⟨i, c, h⟩
  · rw [h, List.append_nil]
    rcases List.eq_nil_or_concat f.rows with h' | ⟨i, r, h'⟩
    · exact ⟨f.before ++ (c!"ORBITAL EIGENVALUES (ALPHA)" ++
        (terminated [f.titleRest, f.heading 0, f.heading 1] ++ f.heading 2)), '\n', by
          rw [h']; simp [terminated], by decide⟩
    · exact ⟨f.before ++ (c!"ORBITAL EIGENVALUES (ALPHA)" ++
        terminated [f.titleRest, f.heading 0, f.heading 1, f.heading 2]) ++ (terminated i ++ r), '\n', by
          rw [h', List.concat_eq_append, terminated_append]; simp [terminated], by decide⟩
  · rw [List.concat_eq_append] at h
    refine ⟨f.before ++ (c!"ORBITAL EIGENVALUES (ALPHA)" ++
        terminated [f.titleRest, f.heading 0, f.heading 1, f.heading 2]) ++ terminated f.rows ++ i, c, by
          rw [h]; simp, ?_⟩
    rcases hb c (by rw [h]; simp) with rfl | rfl <;> decide

private theorem heading_end (ls : List Str) (h : ls ≠ []) (B : Str) :
    ∃ X, B ++ (orbitalTitle ++ terminated ls) = X ++ ['\n'] := by
  rcases List.eq_nil_or_concat ls with h' | ⟨i, r, h'⟩
  · exact absurd h' h
  · exact ⟨B ++ (orbitalTitle ++ (terminated i ++ r)), by
      rw [h', List.concat_eq_append, terminated_append]; simp [terminated]⟩

/-- C104: from an output with a table of orbital energies exactly the rows of the table are read,
word by word. -/
theorem C104_rows (f : OutputFile) (h : f.Proper) :
    ∃ lines, orbitalLines f.text = .ok lines ∧ lines.map splitWs = f.rows.map splitWs := by
  have ht : f.text = f.before ++ (orbitalTitle ++
      (terminated [f.titleRest, f.heading 0, f.heading 1, f.heading 2] ++ (terminated f.rows ++ f.indent ++
        (orbitalRule ++ f.after)))) := by
    simp [OutputFile.text, OutputFile.upToRule, OutputFile.top, orbitalTitle, orbitalRule]
  have hu : f.upToRule = f.before ++ (orbitalTitle ++
      terminated [f.titleRest, f.heading 0, f.heading 1, f.heading 2]) ++ (terminated f.rows ++ f.indent) := by
    simp [OutputFile.upToRule, OutputFile.top, orbitalTitle]
  have hu2 : f.text = f.upToRule ++ (orbitalRule ++ f.after) := by
    simp [OutputFile.text, orbitalRule]
  have e1 : findString f.text orbitalTitle = .ok f.before.length := by
    rw [ht]; exact title_found h.title_first
  have e2 : findString f.text orbitalRule = .ok f.upToRule.length := by
    obtain ⟨X, c, hX, hc⟩ := upToRule_end f h.blank_indent
    rw [hu2, hX]
    exact rule_found (by rw [← hX]; exact h.rule_first) hc
  have e3 : skipForward f.text 4 f.before.length + 1 = (f.before ++ (orbitalTitle ++
      terminated [f.titleRest, f.heading 0, f.heading 1, f.heading 2])).length := by
    have := skip_heading f.before (terminated f.rows ++ f.indent ++ (orbitalRule ++ f.after))
      [f.titleRest, f.heading 0, f.heading 1, f.heading 2] (four h) (by simp)
    rw [← this, ht]
    simp
  obtain ⟨X, hX⟩ := heading_end [f.titleRest, f.heading 0, f.heading 1, f.heading 2] (by simp) f.before
  have e4 : skipForward f.text 4 f.before.length = X.length := by
    rw [hX] at e3; simpa using e3
  have hu3 : f.upToRule = X ++ ('\n' :: (terminated f.rows ++ f.indent)) := by
    rw [hu, hX]; simp
  have e5 : f.text.drop X.length = '\n' :: (terminated f.rows ++ f.indent) ++ (orbitalRule ++ f.after) := by
    rw [hu2, hu3]; simp
  have e6 : f.upToRule.length - X.length = ('\n' :: (terminated f.rows ++ f.indent)).length := by
    rw [hu3]; simp
  have e7 : X.length ≤ f.upToRule.length := by rw [hu3]; simp
  refine ⟨splitlines (strip ('\n' :: (terminated f.rows ++ f.indent))), ?_, ?_⟩
  · rw [lines_of (by rw [ht]; simp [orbitalTitle]) e1 e2]
    simp only [e4, if_pos e7, e5, e6, List.take_left]
  · refine strip_rows f.rows f.indent h.row_lines (fun r hr => ink_ws (h.first_row r hr))
      (fun r hr => ink_ws (h.last_row r hr)) fun c hc => ?_
    rcases h.blank_indent c hc with rfl | rfl <;> decide

/-- C104: without the title or without the rule an exception is raised. -/
theorem C104_missing (buf : Str)
    (h : ¬ c!"ORBITAL EIGENVALUES (ALPHA)" <:+: buf ∨
      ¬ c!"+++++++++++++++++++++++++++++++++++++++++++" <:+: buf) :
    orbitalLines buf = .error (if buf = [] then .value else .exception) := by
  unfold orbitalLines
  split
  · rfl
  · next c s =>
    rcases Props.Buffer.C55_find (c :: s) orbitalTitle with ⟨i, h1, h2, -⟩ | ⟨h1, h2⟩
    · rcases Props.Buffer.C55_find (c :: s) orbitalRule with ⟨j, h3, h4, -⟩ | ⟨h3, h4⟩
      · exfalso
        rcases h with h | h
        · exact h (h2.isInfix.trans (List.drop_suffix _ _).isInfix)
        · exact h (h4.isInfix.trans (List.drop_suffix _ _).isInfix)
      · rw [h1, h3]; rfl
    · rw [h1]; rfl

private theorem energyOf_words {parse : Str → Option ℚ} {l l' : Str} (h : splitWs l = splitWs l') :
    energyOf parse l = energyOf parse l' := by
  unfold energyOf; rw [h]

private theorem energiesOf_words (parse : Str → Option ℚ) {ls ls' : List Str}
    (h : ls.map splitWs = ls'.map splitWs) : energiesOf parse ls = energiesOf parse ls' := by
  unfold energiesOf
  induction ls generalizing ls' with
  | nil =>
    cases ls' with
    | nil => rfl
    | cons a b => cases h
  | cons a ls ih =>
    cases ls' with
    | nil => cases h
    | cons b ls' =>
      rw [List.map_cons, List.map_cons, List.cons.injEq] at h
      rw [List.mapM_cons, List.mapM_cons, energyOf_words h.1, ih h.2]

private theorem energiesOf_ok (parse : Str → Option ℚ) (rows : List Str) (evs : List ℚ)
    (h : List.Forall₂ (fun r e => ∃ w, (splitWs r)[3]? = some w ∧ parse w = some e) rows evs) :
    energiesOf parse rows = .ok evs := by
  unfold energiesOf
  induction h with
  | nil => rfl
  | @cons r e rows evs hr _ ih =>
    obtain ⟨w, h1, h2⟩ := hr
    have : energyOf parse r = .ok e := by
      unfold energyOf; rw [h1]; simp only; rw [h2]
    rw [List.mapM_cons, this, ih]
    rfl

/-- C104: the suggested number of dropped orbitals is the one for the energies in the fourth column
of the table, in their order; with the user's consent it is written as the keyword. -/
theorem C104_dropmo (toInt : Str → Option ℤ) (parse : Str → Option ℚ) (f : OutputFile) (h : f.Proper)
    (evs : List ℚ)
    (he : List.Forall₂ (fun r e => ∃ w, (splitWs r)[3]? = some w ∧ parse w = some e) f.rows evs)
    (n : Nat) (hg : guessDropmo (.ok evs) = some n) (a : Str) (as : List Str)
    (ha : 'y' ∈ a ∨ 'Y' ∈ a) :
    estimateDropmo toInt parse f.text (a :: as) = .ok (dropmoString n) := by
  obtain ⟨lines, h1, h2⟩ := C104_rows f h
  unfold estimateDropmo
  rw [h1]
  simp only
  rw [energiesOf_words parse h2, energiesOf_ok parse f.rows evs he]
  simp only [hg, confirm, (Props.Inputs.isYes_iff a).mpr ha, if_true]

/-- C104: the estimate of the number of states is made from the energies in the fourth column of the
table. -/
theorem C104_nip (toInt : Str → Option ℤ) (parse : Str → Option ℚ) (f : OutputFile) (h : f.Proper)
    (evs : List ℚ)
    (he : List.Forall₂ (fun r e => ∃ w, (splitWs r)[3]? = some w ∧ parse w = some e) f.rows evs)
    (dropmo : Str) (as : List Str) :
    estimateNipOf toInt parse dropmo f.text as = estimateNip toInt dropmo (.ok evs) as := by
  obtain ⟨lines, h1, h2⟩ := C104_rows f h
  unfold estimateNipOf
  rw [h1]
  simp only
  rw [energiesOf_words parse h2, energiesOf_ok parse f.rows evs he]

private theorem energiesOf_error (parse : Str → Option ℚ) (rows : List Str) (r : Str) (hr : r ∈ rows)
    (h : (splitWs r).length ≤ 3 ∨ ∃ w, (splitWs r)[3]? = some w ∧ parse w = none) :
    ∃ e, energiesOf parse rows = .error e := by
  unfold energiesOf
  have hbad : ∃ e, energyOf parse r = .error e := by
    unfold energyOf
    rcases h with h | ⟨w, h1, h2⟩
    · rw [List.getElem?_eq_none h]; exact ⟨_, rfl⟩
    · rw [h1]; simp only; rw [h2]; exact ⟨_, rfl⟩
  induction rows with
  | nil => simp at hr
  | cons x rows ih =>
    rw [List.mapM_cons]
    rcases List.mem_cons.mp hr with rfl | hr
    · obtain ⟨e, he⟩ := hbad
      rw [he]; exact ⟨e, rfl⟩
    · obtain ⟨e, he⟩ := ih hr
      rw [he]
      cases energyOf parse x with
      | error e' => exact ⟨e', rfl⟩
      | ok v => exact ⟨e, rfl⟩

/-- C104 is false of a table with a row that has no energy: the code means to ask the user for the
number of dropped orbitals, but stops with an `UnboundLocalError`, whatever the user would answer. -/
theorem C104_unreadable_row_refuted (toInt : Str → Option ℤ) (parse : Str → Option ℚ) (f : OutputFile)
    (h : f.Proper) (r : Str) (hr : r ∈ f.rows)
    (hbad : (splitWs r).length ≤ 3 ∨ ∃ w, (splitWs r)[3]? = some w ∧ parse w = none) (as : List Str) :
    estimateDropmo toInt parse f.text as = .error .unbound := by
  obtain ⟨lines, h1, h2⟩ := C104_rows f h
  obtain ⟨e, he⟩ := energiesOf_error parse f.rows r hr hbad
  unfold estimateDropmo
  rw [h1]
  simp only
  rw [energiesOf_words parse h2, he]

/-- C104: for the number of states the user is asked in that case. -/
theorem C104_unreadable_row_nip (toInt : Str → Option ℤ) (parse : Str → Option ℚ) (f : OutputFile)
    (h : f.Proper) (r : Str) (hr : r ∈ f.rows)
    (hbad : (splitWs r).length ≤ 3 ∨ ∃ w, (splitWs r)[3]? = some w ∧ parse w = none)
    (a b : Str) (as : List Str) (n : Nat) (ha : toInt a = some (n : ℤ)) (hb : 'y' ∈ b ∨ 'Y' ∈ b) :
    estimateNipOf toInt parse [] f.text (a :: b :: as) = .ok n := by
  obtain ⟨lines, h1, h2⟩ := C104_rows f h
  obtain ⟨e, he⟩ := energiesOf_error parse f.rows r hr hbad
  unfold estimateNipOf
  rw [h1]
  simp only
  rw [energiesOf_words parse h2, he]
  simp only [estimateNip, dropmoOf, List.getLast?_nil, guessNip, confirm]
  have hi : getInteger toInt (a :: b :: as) = .ok (n, b :: as) := by
    unfold getInteger
    rw [ha]
    simp
  rw [askUntil]
  split
  · next h3 => rw [hi] at h3; cases h3
  · next h3 => rw [hi] at h3; cases h3
  · next h3 =>
    rw [hi] at h3
    cases h3
    rw [(Props.Inputs.isYes_iff b).mpr hb, if_pos rfl]

/-- C104 is false when a line of plus signs stands before the table: everything from the first row to
the end of the file is taken for the table. -/
theorem C104_early_rule_refuted (before titleRest h0 h1 h2 : Str) (rows : List Str)
    (ht : ¬ c!"ORBITAL EIGENVALUES (ALPHA)" <:+: before)
    (hr : c!"+++++++++++++++++++++++++++++++++++++++++++" <:+: before)
    (hl : ∀ l ∈ [titleRest, h0, h1, h2], '\n' ∉ l) (hrows : ∀ r ∈ rows, '\n' ∉ r)
    (hf : ∀ r, rows.head? = some r → HasInk r) (hla : ∀ r, rows.getLast? = some r → HasInk r) :
    ∃ lines, orbitalLines (before ++ (c!"ORBITAL EIGENVALUES (ALPHA)" ++
        terminated [titleRest, h0, h1, h2]) ++ terminated rows) = .ok lines ∧
      lines.map splitWs = rows.map splitWs := by
  change ∃ lines, orbitalLines (before ++ (orbitalTitle ++ terminated [titleRest, h0, h1, h2]) ++
    terminated rows) = .ok lines ∧ _
  set buf := before ++ (orbitalTitle ++ terminated [titleRest, h0, h1, h2]) ++ terminated rows with hbuf
  have e1 : findString buf orbitalTitle = .ok before.length := by
    have : buf = before ++ (orbitalTitle ++ (terminated [titleRest, h0, h1, h2] ++ terminated rows)) := by
      rw [hbuf]; simp
    rw [this]; exact title_found ht
  obtain ⟨u, v, huv⟩ := hr
  have e2 : ∃ j, findString buf orbitalRule = .ok j ∧ j < before.length := by
    have hp : orbitalRule <+: buf.drop u.length := by
      rw [hbuf, ← huv]
      simp only [List.append_assoc, List.drop_left]
      exact List.prefix_append _ _
    have hlt : u.length < before.length := by
      rw [← huv]; simp
    rcases Props.Buffer.C55_find buf orbitalRule with ⟨j, h3, -, h5⟩ | ⟨-, h4⟩
    · refine ⟨j, h3, ?_⟩
      by_contra hc
      exact h5 u.length (by omega) hp
    · exact absurd (hp.isInfix.trans (List.drop_suffix _ _).isInfix) h4
  obtain ⟨j, e2, hj⟩ := e2
  have e3 := skip_heading before (terminated rows) [titleRest, h0, h1, h2] hl (by simp)
  obtain ⟨X, hX⟩ := heading_end [titleRest, h0, h1, h2] (by simp) before
  rw [← hbuf, hX] at e3
  have e4 : skipForward buf 4 before.length = X.length := by simpa using e3
  have hXl : before.length ≤ X.length := by
    have := congrArg List.length hX
    simp only [List.length_append, List.length_singleton] at this
    have h27 : orbitalTitle.length = 27 := by decide
    omega
  refine ⟨splitlines (strip ('\n' :: (terminated rows ++ []))), ?_,
    strip_rows rows [] hrows (fun r hr => ink_ws (hf r hr)) (fun r hr => ink_ws (hla r hr)) (by simp)⟩
  rw [lines_of (by rw [hbuf]; simp [orbitalTitle]) e1 e2]
  simp only [e4]
  rw [if_neg (by omega), hbuf, hX]
  simp

/-- Witness: an output with a table of three orbitals. -/
def sample : OutputFile where
  before := c!" Some text.\n   "
  titleRest := c!"  (1H = 27.2 eV)"
  heading := fun _ => c!" ----"
  rows := [c!"  1  1  -20.5  -557.8", c!"  2  2  -1.3   -35.4  A1", c!"  3  3  -0.6   -16.3 "]
  indent := c!"  "
  after := c!"++\n More text.\n"

theorem sample_proper : sample.Proper where
  title_first := by decide
  rule_first := by decide +kernel
  title_line := by decide
  heading_lines := by decide
  row_lines := by decide
  first_row := by
    intro r hr
    simp only [sample, List.head?_cons, Option.some.injEq] at hr
    subst hr
    exact ⟨'1', by decide, by decide⟩
  last_row := by
    intro r hr
    simp only [sample, List.getLast?_cons_cons, List.getLast?_singleton, Option.some.injEq] at hr
    subst hr
    exact ⟨'3', by decide, by decide⟩
  blank_indent := by decide

example : orbitalLines sample.text = .ok [c!"1  1  -20.5  -557.8", c!"  2  2  -1.3   -35.4  A1",
    c!"  3  3  -0.6   -16.3"] := by decide +kernel

/-- `float` on the words of the sample. -/
def sampleParse (w : Str) : Option ℚ :=
  if w = c!"-557.8" then some (-557.8) else if w = c!"-35.4" then some (-35.4)
  else if w = c!"-16.3" then some (-16.3) else none

example : estimateDropmo (fun _ => none) sampleParse sample.text [c!"yes"] = .ok c!"DROPMO=1" := by
  have := C104_dropmo (fun _ => none) sampleParse sample sample_proper [-557.8, -35.4, -16.3]
    (by
      refine List.Forall₂.cons ⟨c!"-557.8", by decide +kernel, by simp [sampleParse]⟩
        (List.Forall₂.cons ⟨c!"-35.4", by decide +kernel, ?_⟩
          (List.Forall₂.cons ⟨c!"-16.3", by decide +kernel, ?_⟩ List.Forall₂.nil))
      all_goals (unfold sampleParse; decide +kernel))
    1 (by decide +kernel) c!"yes" [] (Or.inl (by decide))
  simpa [dropmoString] using this

/-- Witness: a rule in the banner of the program and the text after the table. -/
example : orbitalLines (c!"+++++++++++++++++++++++++++++++++++++++++++\n" ++
      c!"ORBITAL EIGENVALUES (ALPHA)\n\n\n\n 1 1 -20.5 -557.8\n++++++\n done\n") =
    .ok [c!"1 1 -20.5 -557.8", c!"++++++", c!" done"] ∧
    estimateDropmo (fun _ => none) sampleParse (c!"+++++++++++++++++++++++++++++++++++++++++++\n" ++
      c!"ORBITAL EIGENVALUES (ALPHA)\n\n\n\n 1 1 -20.5 -557.8\n++++++\n done\n") [c!"yes"] =
      .error .unbound := by decide +kernel

end Pibronic.Props.Orbitals
