import Verif.Lemmas.Molecule
import Verif.Props.Buffer

set_option autoImplicit false

/-!
Properties of the inputs of the electronic structure workflow: the parameter file (C69), the geometry
(C70, C71).
-/
namespace Pibronic.Props.Molecule
open Pibronic.Py Pibronic.Buffer Pibronic.Workflow Pibronic.Molecule

/-! ### C69 -/

/-- The names known to the class are the nine parameter names. -/
theorem initialDict_iff (k : Str) : initialDict k ≠ none ↔ k ∈ parameterNames := by
  unfold initialDict parameterNames
  simp only [List.mem_cons, List.not_mem_nil, or_false]
  split_ifs <;> simp_all

/-- C69: what a process reads from its first parameter file: every parameter has the (last) value
given in the file, and its default when the file does not mention it; the file is accepted exactly
when the basis, the theory and the calculation are supported ones. -/
theorem C69_values (items : List Item) (hc : ∀ i ∈ items, i.Clean)
    (hk : ∀ a h b c v e, Item.entry a h b c v e ∈ items → h ∈ parameterNames) :
    (∀ k, (readParameters initialDict (some (fileText items))).1 k
      = match given items k with
        | some v => some (.text v)
        | none => initialDict k) ∧
    ((readParameters initialDict (some (fileText items))).2 = .ok () ↔
      (∃ b ∈ [c!"TZ2P", c!"DZP"], given items c!"basis" = some b) ∧
      (∃ t ∈ [c!"MBPT(2)", c!"CCSD", c!"CCSD(T)"], given items c!"theory" = some t) ∧
      given items c!"calculation" = some c!"IP") ∧
    ((readParameters initialDict (some (fileText items))).2 ≠ .ok () →
      (readParameters initialDict (some (fileText items))).2 = .error .assertion) := by
  have h1 : readLines initialDict (keepLines (fileText items)) = (over initialDict items, .ok ()) := by
    unfold fileText
    rw [keepLines_terminated _ (items_no_nl hc)]
    have := readLines_items initialDict items [] hc fun a h b c v e hm =>
      (initialDict_iff h).mpr (hk a h b c v e hm)
    rw [List.append_nil] at this
    rw [this]; rfl
  have h2 : ∀ k names, initialDict k = some .none →
      (isOneOf (over initialDict items) k names = true ↔ ∃ b ∈ names, given items k = some b) := by
    intro k names hd
    unfold isOneOf over
    cases given items k with
    | none => simp [hd]
    | some v => simp
  have hb := h2 c!"basis" basisList rfl
  have ht := h2 c!"theory" theoryList rfl
  have hcalc := h2 c!"calculation" calculationsList rfl
  unfold readParameters
  simp only [h1]
  rw [show calculationsList = [c!"IP"] from rfl] at *
  rw [show basisList = [c!"TZ2P", c!"DZP"] from rfl] at *
  rw [show theoryList = [c!"MBPT(2)", c!"CCSD", c!"CCSD(T)"] from rfl] at *
  rw [← hb, ← ht]
  have hcalc' : given items c!"calculation" = some c!"IP" ↔
      isOneOf (over initialDict items) c!"calculation" [c!"IP"] = true := by
    rw [hcalc]; simp
  rw [hcalc']
  have e : ∀ k, over initialDict items k = match given items k with
        | some v => some (.text v)
        | none => initialDict k := fun k => rfl
  split_ifs <;> simp_all

/-- C69: an unknown header stops the reading with a `ValueError`, whatever follows it. -/
theorem C69_unknown_header (items : List Item) (a h b next rest : Str) (hc : ∀ i ∈ items, i.Clean)
    (hk : ∀ a h b c v e, Item.entry a h b c v e ∈ items → h ∈ parameterNames)
    (ha : Blank a) (hb : Blank b) (ht : Trimmed h) (hne : h ≠ []) (hcm : h.head? ≠ some '#')
    (hn : '\n' ∉ next) (hu : h ∉ parameterNames) :
    (readParameters initialDict
      (some (fileText items ++ (a ++ h ++ b ++ '\n' :: (next ++ '\n' :: rest))))).2
      = .error .value := by
  have h0 : '\n' ∉ a ++ h ++ b := by simp [ha.no_nl, hb.no_nl, ht.1]
  have h1 := readLines_items initialDict items (keepLines (a ++ h ++ b ++ '\n' :: (next ++ '\n' :: rest)))
    hc fun a h b c v e hm => (initialDict_iff h).mpr (hk a h b c v e hm)
  have h2 : given items h = none := by
    by_contra hg
    obtain ⟨v, hv⟩ := Option.ne_none_iff_exists'.mp hg
    unfold given at hv
    obtain ⟨i, hi, hv⟩ := List.exists_of_findSome?_eq_some hv
    cases i with
    | comment s => simp at hv
    | blank s => simp at hv
    | entry a' h' b' c' v' e' =>
      simp only [Option.ite_none_right_eq_some] at hv
      exact hu (hv.1 ▸ hk a' h' b' c' v' e' (by simpa using hi))
  have h3 : over initialDict items h = none := by
    unfold over; rw [h2]
    by_contra hh
    exact hu ((initialDict_iff h).mp hh)
  obtain ⟨g1, g2⟩ := header_line ha hb ht hne hcm
  have h4 : readLines initialDict (keepLines (fileText items ++ (a ++ h ++ b ++ '\n' :: (next ++ '\n' :: rest))))
      = (over initialDict items, .error .value) := by
    unfold fileText
    rw [keepLines_terminated_append _ (items_no_nl hc), h1, keepLines_line _ _ h0, keepLines_line _ _ hn]
    conv_lhs => unfold readLines
    rw [if_pos g2, g1]
    simp only [h3]
  unfold readParameters
  simp only [h4]

/-- C69: a header on the last line of the file, with nothing after it, is an error. -/
theorem C69_missing_value (items : List Item) (a h b : Str) (hc : ∀ i ∈ items, i.Clean)
    (hk : ∀ a h b c v e, Item.entry a h b c v e ∈ items → h ∈ parameterNames)
    (ha : Blank a) (hb : Blank b) (ht : Trimmed h) (hne : h ≠ []) (hcm : h.head? ≠ some '#') :
    (readParameters initialDict (some (fileText items ++ (a ++ h ++ b ++ ['\n'])))).2
      = .error .exception := by
  have h0 : '\n' ∉ a ++ h ++ b := by simp [ha.no_nl, hb.no_nl, ht.1]
  have h1 := readLines_items initialDict items (keepLines (a ++ h ++ b ++ ['\n']))
    hc fun a h b c v e hm => (initialDict_iff h).mpr (hk a h b c v e hm)
  obtain ⟨g1, g2⟩ := header_line ha hb ht hne hcm
  have h4 : readLines initialDict (keepLines (fileText items ++ (a ++ h ++ b ++ ['\n'])))
      = (over initialDict items, .error .exception) := by
    unfold fileText
    rw [keepLines_terminated_append _ (items_no_nl hc), h1, keepLines_line _ _ h0]
    simp only [keepLines]
    conv_lhs => unfold readLines
    rw [if_pos g2]
  unfold readParameters
  simp only [h4]

/-- C69: a missing file is an error that changes nothing. -/
theorem C69_missing_file (d : Dict) : readParameters d none = (d, .error .os) := rfl

/-- C69: files that give all parameters do not influence each other: the values read are those of
the file, whatever was read before. -/
theorem C69_independent_partial (d : Dict) (items : List Item) (hd : ∀ k, d k ≠ none ↔ k ∈ parameterNames)
    (hc : ∀ i ∈ items, i.Clean)
    (hk : ∀ a h b c v e, Item.entry a h b c v e ∈ items → h ∈ parameterNames)
    (hall : ∀ k ∈ parameterNames, given items k ≠ none) :
    readParameters d (some (fileText items)) = readParameters initialDict (some (fileText items)) := by
  have key : ∀ d : Dict, (∀ k, d k ≠ none ↔ k ∈ parameterNames) →
      readLines d (keepLines (fileText items)) = (over d items, .ok ()) := by
    intro d hd
    unfold fileText
    rw [keepLines_terminated _ (items_no_nl hc)]
    have := readLines_items d items [] hc fun a h b c v e hm => (hd h).mpr (hk a h b c v e hm)
    rw [List.append_nil] at this
    rw [this]; rfl
  have : over d items = over initialDict items := by
    funext k
    unfold over
    cases hg : given items k with
    | some v => rfl
    | none =>
      have : k ∉ parameterNames := fun h => hall k h hg
      have h1 := (hd k).not.mpr this
      have h2 := (initialDict_iff k).not.mpr this
      simp only [ne_eq, not_not] at h1 h2
      simp [h1, h2]
  unfold readParameters
  simp only [key d hd, key initialDict initialDict_iff, this]

/-- A complete file. -/
def firstFile : List Item :=
  [.comment c!" formaldehyde", .entry [] c!"calculation" [] [] c!"IP" [], .blank c!"  ",
   .entry [] c!"theory" c!" " c!"  " c!"CCSD" [], .entry [] c!"basis" [] [] c!"DZP" [],
   .entry [] c!"gridVibron" [] [] c!"4" []]

/-- Another one, which leaves out the grid. -/
def secondFile : List Item :=
  [.entry [] c!"calculation" [] [] c!"IP" [], .entry [] c!"theory" [] [] c!"CCSD" [],
   .entry [] c!"basis" [] [] c!"TZ2P" []]

/-- C69 is false for the second object of a process: the dictionary belongs to the class, so what the
second file leaves out is taken from the first file instead of the defaults. -/
theorem C69_independent_refuted :
    (readParameters initialDict (some (fileText firstFile))).2 = .ok () ∧
    (readParameters initialDict (some (fileText secondFile))).1 c!"gridVibron" = some (.int 3) ∧
    (readParameters (readParameters initialDict (some (fileText firstFile))).1
      (some (fileText secondFile))).1 c!"gridVibron" = some (.text c!"4") ∧
    (readParameters (readParameters initialDict (some (fileText firstFile))).1
      (some (fileText secondFile))).2 = .ok () := by
  decide +kernel

private theorem firstFile_clean : ∀ i ∈ firstFile, i.Clean := by
  intro i hi
  simp only [firstFile, List.mem_cons, List.not_mem_nil, or_false] at hi
  rcases hi with rfl | rfl | rfl | rfl | rfl | rfl <;>
    simp [Item.Clean, Blank, Trimmed, Space]

/-- Witness: the first file meets the hypotheses of `C69_values` and is accepted. -/
example : (∀ i ∈ firstFile, i.Clean) ∧
    (∀ a h b c v e, Item.entry a h b c v e ∈ firstFile → h ∈ parameterNames) ∧
    given firstFile c!"theory" = some c!"CCSD" ∧
    (readParameters initialDict (some (fileText firstFile))).2 = .ok () := by
  refine ⟨firstFile_clean, ?_, by decide +kernel, by decide +kernel⟩
  intro a h b c v e hm
  simp only [firstFile, List.mem_cons, List.not_mem_nil, or_false, reduceCtorEq, false_or,
    Item.entry.injEq] at hm
  rcases hm with h | h | h | h <;> rw [h.2.1] <;> decide

/-- A file that gives all parameters. -/
def fullFile : List Item :=
  [.entry [] c!"calculation" [] [] c!"IP" [], .entry [] c!"theory" [] [] c!"CCSD" [],
   .entry [] c!"basis" [] [] c!"TZ2P" [], .entry [] c!"DROPMO" [] [] [] [], .entry [] c!"NIP" [] [] c!"3" [],
   .entry [] c!"gridVibron" [] [] c!"4" [], .entry [] c!"ccConv" [] [] c!"8" [],
   .entry [] c!"scfConv" [] [] c!"8" [], .entry [] c!"estateTol" [] [] c!"8" []]

/-- Witness: reading it after the first file is the same as reading it alone. -/
example : readParameters (readParameters initialDict (some (fileText firstFile))).1 (some (fileText fullFile))
    = readParameters initialDict (some (fileText fullFile)) := by
  have hn : ∀ a h b c v e, Item.entry a h b c v e ∈ firstFile → h ∈ parameterNames := by
    intro a h b c v e hm
    simp only [firstFile, List.mem_cons, List.not_mem_nil, or_false, reduceCtorEq, false_or,
      Item.entry.injEq] at hm
    rcases hm with h | h | h | h <;> rw [h.2.1] <;> decide
  refine C69_independent_partial _ fullFile ?_ ?_ ?_ (by decide +kernel)
  · intro k
    rw [(C69_values firstFile firstFile_clean hn).1 k]
    cases hg : given firstFile k with
    | none => exact initialDict_iff k
    | some v =>
      unfold given at hg
      obtain ⟨i, hi, hv⟩ := List.exists_of_findSome?_eq_some hg
      cases i with
      | comment s => simp at hv
      | blank s => simp at hv
      | entry a' h' b' c' v' e' =>
        simp only [Option.ite_none_right_eq_some] at hv
        have := hn a' h' b' c' v' e' (by simpa using hi)
        rw [hv.1] at this
        simp [this]
  · intro i hi
    simp only [fullFile, List.mem_cons, List.not_mem_nil, or_false] at hi
    rcases hi with rfl | rfl | rfl | rfl | rfl | rfl | rfl | rfl | rfl <;>
      simp [Item.Clean, Blank, Trimmed, Space]
  · intro a h b c v e hm
    simp only [fullFile, List.mem_cons, List.not_mem_nil, or_false, Item.entry.injEq] at hm
    rcases hm with h | h | h | h | h | h | h | h | h <;> rw [h.2.1] <;> decide

/-- Witness for the unknown header. -/
example : (readParameters initialDict
      (some (fileText firstFile ++ (c!" " ++ c!"Theory" ++ [] ++ '\n' :: (c!"CCSD" ++ '\n' :: []))))).2
      = .error .value := by
  refine C69_unknown_header firstFile c!" " c!"Theory" [] c!"CCSD" [] firstFile_clean ?_ ?_ ?_ ?_ ?_ ?_ ?_ ?_
  · intro a h b c v e hm
    simp only [firstFile, List.mem_cons, List.not_mem_nil, or_false, reduceCtorEq, false_or,
      Item.entry.injEq] at hm
    rcases hm with h | h | h | h <;> rw [h.2.1] <;> decide
  all_goals first | decide | simp [Blank, Trimmed, Space]

/-! ### C70 -/

private theorem newZmat_internal (rel : List Str) (rows : List Row) (text : Str)
    (hrel : ∀ l ∈ rel, '\n' ∉ l) (hne : ∀ l ∈ rel, l ≠ []) (hrel0 : rel ≠ [])
    (hrows : ∀ r ∈ rows, r.Clean) (hrows0 : rows ≠ []) (hf : InternalFile rel rows text) :
    newZmat (some text) = .ok (.internal (terminated rel) (update [] (rows.map Row.pair))) := by
  have hl1 : ∀ l ∈ rows.map Row.line, '\n' ∉ l := by
    intro l hl
    obtain ⟨r, hr, rfl⟩ := List.mem_map.mp hl
    exact (hrows r hr).no_nl
  have hl2 : ∀ l ∈ rows.map Row.line, l ≠ [] := by
    intro l hl
    obtain ⟨r, hr, rfl⟩ := List.mem_map.mp hl
    exact r.line_ne_nil
  have heq : ∀ e : Str, '=' ∈ terminated rel ++ '\n' :: (terminated (rows.map Row.line) ++ e) := by
    intro e
    obtain ⟨r, rows', rfl⟩ := List.exists_cons_of_ne_nil hrows0
    simp [terminated, Row.line]
  have key : ∀ data b1 rest, text ++ ['\n'] = data →
      data = terminated rel ++ '\n' :: rest →
      item (split c!"\n\n" rest) 0 = .ok b1 → splitlines b1 = rows.map Row.line →
      '=' ∈ data →
      newZmat (some text) = .ok (.internal (terminated rel) (update [] (rows.map Row.pair))) := by
    intro data b1 rest h1 h2 h3 h4 h5
    obtain ⟨body, hb1, hb2⟩ := find_block rel hne hrel rest hrel0
    have e0 : item (split c!"\n\n" data) 0 = .ok body := by
      rw [h2]
      have := split_head '\n' ['\n'] (terminated rel ++ '\n' :: rest)
      rw [show ('\n' :: ['\n'] : Str) = c!"\n\n" from rfl] at this
      rw [this, hb2]
    have e1 : item (split c!"\n\n" data) 1 = .ok b1 := by
      rw [h2]
      have := split_second '\n' ['\n'] (terminated rel ++ '\n' :: rest) body rest hb2
      rw [show ('\n' :: ['\n'] : Str) = c!"\n\n" from rfl] at this
      rw [this, h3]
    unfold newZmat
    simp only [show c!"\n" = (['\n'] : Str) from rfl, h1, if_pos h5, e0, e1, h4,
      coordDict_rows rows hrows, hb1]
  rcases hf with hf | ⟨extra, hf, hx⟩
  · refine key _ (terminated (rows.map Row.line)) (terminated (rows.map Row.line)) rfl hf ?_
      (splitlines_terminated _ hl1) (by rw [hf]; simpa using heq [])
    have := split_head '\n' ['\n'] (terminated (rows.map Row.line))
    rw [show ('\n' :: ['\n'] : Str) = c!"\n\n" from rfl, find_block_none _ hl2 hl1] at this
    exact this
  · obtain ⟨e, he⟩ : ∃ e, extra ++ ['\n'] = '\n' :: e := by
      cases extra with
      | nil => exact ⟨[], rfl⟩
      | cons c x =>
        rcases hx with hx | hx
        · cases hx
        · simp only [List.head?_cons, Option.some.injEq] at hx
          exact ⟨x ++ ['\n'], by rw [hx]; rfl⟩
    obtain ⟨body, hb1, hb2⟩ := find_block (rows.map Row.line) hl2 hl1 e (by simpa using hrows0)
    have hd : text ++ ['\n']
        = terminated rel ++ '\n' :: (terminated (rows.map Row.line) ++ '\n' :: e) := by
      rw [hf, ← he]; simp
    refine key _ body _ rfl hd ?_ (splitlines_body _ hl2 hl1 body hb1) (by rw [hd]; exact heq _)
    have := split_head '\n' ['\n'] (terminated (rows.map Row.line) ++ '\n' :: e)
    rw [show ('\n' :: ['\n'] : Str) = c!"\n\n" from rfl, hb2] at this
    exact this

private theorem flatMap_pairs (rows : List Row) :
    ((rows.map Row.pair).flatMap fun p => p.1 ++ c!"=" ++ p.2 ++ c!"\n")
      = terminated (rows.map Row.plain) := by
  induction rows with
  | nil => rfl
  | cons r rows ih =>
    rw [List.map_cons, List.flatMap_cons, ih, List.map_cons, terminated_cons']
    simp [Row.pair, Row.plain]

/-- C70: reading a geometry in internal coordinates and writing it for an optimisation gives back the
relations, a blank line, the coordinates in the order of the file without blanks, and a blank line;
for every other calculation the same without the asterisks that mark what is to be optimised. -/
theorem C70_internal (rel : List Str) (rows : List Row) (text : Str)
    (hrel : ∀ l ∈ rel, '\n' ∉ l) (hne : ∀ l ∈ rel, l ≠ []) (hrel0 : rel ≠ [])
    (hrows : ∀ r ∈ rows, r.Clean) (hrows0 : rows ≠ []) (hnd : (rows.map Row.name).Nodup)
    (hf : InternalFile rel rows text) :
    ∃ z, newZmat (some text) = .ok z ∧
      z.get true = terminated rel ++ ['\n'] ++ terminated (rows.map Row.plain) ++ ['\n'] ∧
      z.get false = (terminated rel).filter (· ≠ '*') ++ ['\n'] ++ terminated (rows.map Row.plain)
        ++ ['\n'] := by
  refine ⟨_, newZmat_internal rel rows text hrel hne hrel0 hrows hrows0 hf, ?_⟩
  have : update [] (rows.map Row.pair) = rows.map Row.pair :=
    update_nodup [] _ (by simpa [Row.pair, Function.comp_def] using hnd)
  rw [this]
  constructor
  · simp only [Zmat.get, flatMap_pairs, if_true]
  · simp only [Zmat.get, flatMap_pairs, Bool.false_eq_true, if_false, List.filter_append]
    rfl

/-- C70: what is written for an optimisation can be read again and gives the same geometry. -/
theorem C70_internal_again (rel : List Str) (rows : List Row) (text : Str)
    (hrel : ∀ l ∈ rel, '\n' ∉ l) (hne : ∀ l ∈ rel, l ≠ []) (hrel0 : rel ≠ [])
    (hrows : ∀ r ∈ rows, r.Clean) (hrows0 : rows ≠ []) (hnd : (rows.map Row.name).Nodup)
    (hf : InternalFile rel rows text) :
    ∃ z, newZmat (some text) = .ok z ∧ newZmat (some (z.get true)) = .ok z := by
  obtain ⟨z, hz, h1, -⟩ := C70_internal rel rows text hrel hne hrel0 hrows hrows0 hnd hf
  refine ⟨z, hz, ?_⟩
  have hz' := newZmat_internal rel rows text hrel hne hrel0 hrows hrows0 hf
  rw [hz] at hz'
  cases hz'
  have hp := newZmat_internal rel (rows.map fun r => ⟨[], r.name, [], [], r.value, []⟩)
    (Zmat.get (.internal (terminated rel) (update [] (rows.map Row.pair))) true) hrel hne hrel0
    (by
      intro r hr
      obtain ⟨r', hr', rfl⟩ := List.mem_map.mp hr
      obtain ⟨-, -, -, -, a, b, c, d⟩ := hrows r' hr'
      exact ⟨by simp [Blank], by simp [Blank], by simp [Blank], by simp [Blank], a, b, c, d⟩)
    (by simpa using hrows0)
    (by
      right
      refine ⟨['\n'], ?_, Or.inr rfl⟩
      rw [h1, List.map_map]
      have : (rows.map (Row.line ∘ fun r => ⟨[], r.name, [], [], r.value, []⟩)) = rows.map Row.plain := by
        refine List.map_congr_left fun r _ => ?_
        simp [Row.line, Row.plain]
      rw [this]; simp)
  rw [hp, List.map_map]
  rfl

/-- C70: new values of coordinates replace the old ones, all other coordinates keep their values, and
the order of the coordinates and the relations stay. -/
theorem C70_update (relations : Str) (coord new : List (Str × Str))
    (hk : ∀ p ∈ new, p.1 ∈ coord.map (·.1)) :
    ∃ coord', (Zmat.internal relations coord).set (.coord new) = .ok (.internal relations coord') ∧
      coord'.map (·.1) = coord.map (·.1) ∧
      (∀ k, coord'.lookup k = (new.reverse.lookup k).or (coord.lookup k)) :=
  ⟨update coord new, rfl, keys_update coord new hk, lookup_update coord new⟩

/-- C70: a geometry without an equals sign is passed on as it is. -/
theorem C70_cartesian (text : Str) (h : '=' ∉ text) :
    ∃ z, newZmat (some text) = .ok z ∧ ∀ o, z.get o = text ++ c!"\n\n" := by
  refine ⟨.cartesian (text ++ c!"\n" ++ c!"\n"), ?_, ?_⟩
  · unfold newZmat
    simp [h]
  · intro o; simp [Zmat.get]

/-- C70: new cartesian coordinates replace the last lines; the lines before them stay.  Blank lines
are dropped. -/
theorem C70_cartesian_update (text : Str) (ls ns : List Str) (h : '=' ∉ text)
    (hl : ∀ l ∈ ls, '\n' ∉ l) (hn : ∀ l ∈ ns, '\n' ∉ l) (hls : text ++ ['\n'] = terminated ls)
    (hlen : (ns.filter (· ≠ [])).length ≤ (ls.filter (· ≠ [])).length)
    (h0 : ls.filter (· ≠ []) ≠ []) :
    ∃ z z', newZmat (some text) = .ok z ∧ z.set (.text (terminated ns)) = .ok z' ∧
      ∀ o, z'.get o
        = terminated ((ls.filter (· ≠ [])).take
            ((ls.filter (· ≠ [])).length - (ns.filter (· ≠ [])).length) ++ ns.filter (· ≠ []))
          ++ ['\n'] := by
  have hz : newZmat (some text) = .ok (.cartesian (terminated ls ++ ['\n'])) := by
    unfold newZmat
    simp [h, ← hls]
  have hne : (ls.filter (· ≠ [])).take
      ((ls.filter (· ≠ [])).length - (ns.filter (· ≠ [])).length) ++ ns.filter (· ≠ []) ≠ [] := by
    intro e
    have := congrArg List.length e
    rw [List.length_append, List.length_take] at this
    have h1 := List.length_pos_iff.mpr h0
    simp only [List.length_nil] at this
    omega
  refine ⟨_, .cartesian (joinLines ((ls.filter (· ≠ [])).take
      ((ls.filter (· ≠ [])).length - (ns.filter (· ≠ [])).length) ++ ns.filter (· ≠ [])) ++ c!"\n\n"),
    hz, ?_, ?_⟩
  · unfold Zmat.set
    simp only [nonEmpty_terminated_nl _ hl, nonEmpty_terminated _ hn]
    split_ifs with h1 h2
    · rw [h1, Nat.sub_self]; rfl
    · rw [overwrite_eq _ _ hlen]
    · omega
  · intro o
    simp only [Zmat.get]
    rw [← joinLines_terminated _ hne]
    simp

/-- C70: more new lines than there are old ones are rejected. -/
theorem C70_cartesian_rejected (text : Str) (ls ns : List Str)
    (hl : ∀ l ∈ ls, '\n' ∉ l) (hn : ∀ l ∈ ns, '\n' ∉ l) (hls : text = terminated ls)
    (hlen : (ls.filter (· ≠ [])).length < (ns.filter (· ≠ [])).length) :
    (Zmat.cartesian text).set (.text (terminated ns)) = .error .exception := by
  unfold Zmat.set
  simp only [hls, nonEmpty_terminated _ hl, nonEmpty_terminated _ hn]
  split_ifs with h1 h2
  · omega
  · omega
  · rfl

/-- C70: without a file there is no molecule. -/
theorem C70_missing_file : newZmat none = .error .os := rfl

/-- C70: a file with an equals sign but without a blank line is rejected. -/
theorem C70_no_blank_line (text : Str) (h : '=' ∈ text) (hb : ¬ c!"\n\n" <:+: text ++ ['\n']) :
    newZmat (some text) = .error .index := by
  unfold newZmat
  have h1 : split c!"\n\n" (text ++ c!"\n") = [text ++ c!"\n"] :=
    split_of_find_none '\n' ['\n'] _ (find_none_of_not_infix _ _ hb)
  simp only [h1]
  rw [if_pos (by simp [h])]
  rfl

private theorem keyValue_bad (l : Str) (h : l.count '=' ≠ 1) : keyValue l = .error .value := by
  unfold keyValue
  by_cases hm : '=' ∈ l
  · obtain ⟨a, b, rfl, ha⟩ := List.eq_append_cons_of_mem hm
    have hb : '=' ∈ b := by
      by_contra hb
      exact h (by simp [List.count_eq_zero_of_not_mem ha, List.count_eq_zero_of_not_mem hb])
    obtain ⟨x, y, rfl, hx⟩ := List.eq_append_cons_of_mem hb
    have h1 := split_of_find '=' [] _ _ _ (find_of_notMem '=' [] a (x ++ '=' :: y) ha)
    have h2 := split_of_find '=' [] _ _ _ (find_of_notMem '=' [] x y hx)
    simp only [List.append_assoc, List.cons_append, List.nil_append] at h1 h2
    rw [h1, h2]
    cases hs : split ['='] y with
    | nil => exact absurd hs (by
        cases hf : find ['='] y with
        | none => rw [split_of_find_none _ _ _ hf]; simp
        | some p => rw [split_of_find _ _ _ p.1 p.2 hf]; simp)
    | cons p q => rfl
  · rw [split_of_find_none '=' [] l (find_none_of_notMem '=' [] l hm)]

/-- C70: a coordinate without a value, or with two equals signs, is rejected. -/
theorem C70_bad_row (rel ls : List Str) (text bad : Str) (hrel : ∀ l ∈ rel, '\n' ∉ l)
    (hne : ∀ l ∈ rel, l ≠ []) (hrel0 : rel ≠ []) (hls : ∀ l ∈ ls, '\n' ∉ l) (hls0 : ∀ l ∈ ls, l ≠ [])
    (hbad : bad ∈ ls) (hc : bad.count '=' ≠ 1) (heq : '=' ∈ text)
    (hf : text ++ ['\n'] = terminated rel ++ '\n' :: terminated ls) :
    newZmat (some text) = .error .value := by
  obtain ⟨body, hb1, hb2⟩ := find_block rel hne hrel (terminated ls) hrel0
  have e0 : item (split c!"\n\n" (text ++ ['\n'])) 0 = .ok body := by
    rw [hf]
    have := split_head '\n' ['\n'] (terminated rel ++ '\n' :: terminated ls)
    rw [show ('\n' :: ['\n'] : Str) = c!"\n\n" from rfl] at this
    rw [this, hb2]
  have e1 : item (split c!"\n\n" (text ++ ['\n'])) 1 = .ok (terminated ls) := by
    rw [hf]
    have := split_second '\n' ['\n'] (terminated rel ++ '\n' :: terminated ls) body _ hb2
    rw [show ('\n' :: ['\n'] : Str) = c!"\n\n" from rfl] at this
    rw [this]
    have := split_head '\n' ['\n'] (terminated ls)
    rw [show ('\n' :: ['\n'] : Str) = c!"\n\n" from rfl, find_block_none _ hls0 hls] at this
    exact this
  have hm : ls.mapM keyValue = .error .value := by
    clear hls hls0 hf hb2 e0 e1
    induction ls with
    | nil => cases hbad
    | cons l ls ih =>
      rw [List.mapM_cons]
      rcases List.mem_cons.1 hbad with rfl | hb
      · rw [keyValue_bad _ hc]; rfl
      · have := ih hb
        cases hk : keyValue l with
        | error e =>
          have : e = .value := by
            unfold keyValue at hk
            split at hk
            · cases hk
            · cases hk; rfl
          rw [this]; rfl
        | ok p => rw [this]; rfl
  unfold newZmat
  simp only [show c!"\n" = (['\n'] : Str) from rfl, e0, e1,
    if_pos (List.mem_append_left ['\n'] heq), splitlines_terminated _ hls, coordDict, hm]

example : newZmat (some c!"H\nO 1 R*\n\nR=0.9\nA 104") = .error .value :=
  C70_bad_row [c!"H", c!"O 1 R*"] [c!"R=0.9", c!"A 104"] _ c!"A 104" (by decide) (by decide) (by decide)
    (by decide) (by decide) (by decide) (by decide) (by decide) (by decide)

/-! ### C71 -/

private theorem findString_first (buf header pre post : Str) (hb : buf = pre ++ header ++ post)
    (hfirst : ∀ k < pre.length, ¬ header <+: buf.drop k) :
    findString buf header = .ok pre.length := by
  rcases Pibronic.Props.Buffer.C55_find buf header with ⟨i, h1, h2, h3⟩ | ⟨h1, h2⟩
  · rw [h1]
    have hle : ¬ i < pre.length := fun hlt => hfirst i hlt h2
    have hge : ¬ pre.length < i := fun hlt => h3 pre.length hlt (by
      rw [hb, List.append_assoc, List.drop_left]; exact List.prefix_append _ _)
    congr 1; omega
  · exact absurd ⟨pre, post, hb.symm⟩ h2

private theorem geometryLines_eq (header buf pre line1 line2 post : Str) (ls : List Str)
    (hb : buf = pre ++ header ++ (line1 ++ '\n' :: (line2 ++ '\n' :: (terminated ls ++ '\n' :: post))))
    (hfirst : ∀ k < pre.length, ¬ header <+: buf.drop k)
    (hh : '\n' ∉ header) (h1 : '\n' ∉ line1) (h2 : '\n' ∉ line2)
    (hl : ∀ l ∈ ls, '\n' ∉ l) (hne : ∀ l ∈ ls, l ≠ []) :
    geometryLines header buf = .done (ls.map fun l => l ++ ['\n']) := by
  have hf := findString_first buf header pre _ hb hfirst
  have hd : (keepLines (buf.drop pre.length)).drop 2
      = (ls.map fun l => l ++ ['\n']) ++ c!"\n" :: keepLines post := by
    rw [hb, List.append_assoc, List.drop_left, ← List.append_assoc,
      keepLines_line _ _ (by simp [hh, h1]), keepLines_line _ _ h2,
      keepLines_terminated_append _ hl]
    simp [keepLines]
  unfold geometryLines
  cases hbuf : buf with
  | nil => rw [hbuf] at hb; simp at hb
  | cons c s =>
    simp only
    rw [← hbuf, hf]
    simp only [hd, readBlock_rows ls _ hne]

/-- C71: after an optimisation every coordinate has the value printed (last) in the summary of the output,
every other coordinate the old one, and the order of the coordinates and the relations stay. -/
theorem C71_internal_partial (relations : Str) (coord : List (Str × Str)) (buf pre line1 line2 post : Str)
    (rows : List Row) (hrows : ∀ r ∈ rows, r.Clean)
    (hb : buf = pre ++ internalHeader ++ (line1 ++ '\n' :: (line2 ++ '\n' ::
      (terminated (rows.map Row.line) ++ '\n' :: post))))
    (hfirst : ∀ k < pre.length, ¬ internalHeader <+: buf.drop k)
    (h1 : '\n' ∉ line1) (h2 : '\n' ∉ line2) (hk : ∀ r ∈ rows, r.name ∈ coord.map (·.1)) :
    ∃ coord', parseOpt (.internal relations coord) buf = .done (.internal relations coord') ∧
      coord'.map (·.1) = coord.map (·.1) ∧
      (∀ k, coord'.lookup k = ((rows.map Row.pair).reverse.lookup k).or (coord.lookup k)) := by
  have hg := geometryLines_eq internalHeader buf pre line1 line2 post (rows.map Row.line) hb hfirst
    (by decide) h1 h2
    (by intro l hl; obtain ⟨r, hr, rfl⟩ := List.mem_map.mp hl; exact (hrows r hr).no_nl)
    (by intro l hl; obtain ⟨r, hr, rfl⟩ := List.mem_map.mp hl; exact r.line_ne_nil)
  rw [List.map_map] at hg
  refine ⟨update coord (update [] (rows.map Row.pair)), ?_, ?_, ?_⟩
  · unfold parseOpt
    simp only [hg]
    have := coordDict_rows_nl rows hrows
    rw [show (fun r : Row => r.line ++ ['\n']) = ((fun l => l ++ ['\n']) ∘ Row.line) from rfl] at this
    rw [this]
    rfl
  · refine keys_update _ _ ?_
    intro p hp
    have hl : (update [] (rows.map Row.pair)).lookup p.1 ≠ none := by
      intro e
      rw [List.lookup_eq_none_iff] at e
      have := e p hp
      simp at this
    rw [lookup_update] at hl
    simp only [List.lookup_nil, Option.or_none] at hl
    obtain ⟨v, hv⟩ := Option.ne_none_iff_exists'.mp hl
    have hm : (p.1, v) ∈ (rows.map Row.pair).reverse := by
      obtain ⟨l1, l2, h, -⟩ := List.lookup_eq_some_iff.mp hv
      rw [h]; simp
    rw [List.mem_reverse] at hm
    obtain ⟨r, hr, e⟩ := List.mem_map.mp hm
    have : r.name = p.1 := congrArg Prod.fst e
    rw [← this]; exact hk r hr
  · intro k
    rw [lookup_update, lookup_reverse_update]

/-- The lines of words the program makes of printed lines: single blanks after every word. -/
def tidy (l : Str) : Str := (splitWs l).flatMap fun w => w ++ c!" "

private theorem wordsText_eq (ls : List Str) : wordsText ls = terminated (ls.map tidy ++ [[]]) := by
  unfold wordsText terminated
  rw [List.flatMap_append, List.flatMap_map]
  simp [tidy]

private theorem splitWs_no_nl (l : Str) : ∀ w ∈ splitWs l, '\n' ∉ w := by
  induction l with
  | nil => simp [splitWs]
  | cons c s ih =>
    unfold splitWs
    split
    · exact ih
    · next hc =>
      have hc' : '\n' ≠ c := by rintro rfl; exact hc (by decide)
      cases s with
      | nil => intro w hw; simp only [List.mem_singleton] at hw; simp [hw, hc']
      | cons d s =>
        cases hs : splitWs (d :: s) with
        | nil => intro w hw; simp only [List.mem_singleton] at hw; simp [hw, hc']
        | cons w ws =>
          rw [hs] at ih
          simp only
          split
          · intro x hx
            rcases List.mem_cons.mp hx with rfl | hx
            · simp [hc']
            · exact ih x hx
          · intro x hx
            rcases List.mem_cons.mp hx with rfl | hx
            · simp [hc', ih w (by simp)]
            · exact ih x (by simp [hx])

private theorem tidy_no_nl (l : Str) : '\n' ∉ tidy l := by
  unfold tidy
  intro h
  obtain ⟨w, hw, hm⟩ := List.mem_flatMap.mp h
  rcases List.mem_append.mp hm with hm | hm
  · exact splitWs_no_nl l w hw hm
  · revert hm; decide

/-- C71: after an optimisation in cartesian coordinates the last lines of the geometry are the lines of the
summary, with single blanks between the words; the lines before them stay. -/
theorem C71_cartesian_partial (old : List Str) (buf pre line1 line2 post : Str) (ls : List Str)
    (hold : ∀ l ∈ old, '\n' ∉ l ∧ l ≠ []) (hold0 : old ≠ [])
    (hl : ∀ l ∈ ls, '\n' ∉ l) (hw : ∀ l ∈ ls, splitWs l ≠ [])
    (hb : buf = pre ++ cartesianHeader ++ (line1 ++ '\n' :: (line2 ++ '\n' ::
      (terminated ls ++ '\n' :: post))))
    (hfirst : ∀ k < pre.length, ¬ cartesianHeader <+: buf.drop k)
    (h1 : '\n' ∉ line1) (h2 : '\n' ∉ line2) (hlen : ls.length ≤ old.length) :
    parseOpt (.cartesian (terminated old ++ ['\n'])) buf
      = .done (.cartesian
          (terminated (old.take (old.length - ls.length) ++ ls.map fun l => tidy (l ++ ['\n'])) ++ ['\n'])) := by
  have hne : ∀ l ∈ ls, l ≠ [] := by
    rintro l hm rfl
    exact hw [] hm rfl
  have hg := geometryLines_eq cartesianHeader buf pre line1 line2 post ls hb hfirst (by decide) h1 h2 hl hne
  have hws : ∀ l : Str, splitWs l ≠ [] → tidy (l ++ ['\n']) ≠ [] := by
    intro l hl0 he
    have hx : ∀ s : Str, splitWs s ≠ [] → splitWs (s ++ ['\n']) ≠ [] := by
      intro s
      induction s with
      | nil => intro h; exact absurd rfl h
      | cons c s ih =>
        intro h
        rw [List.cons_append]
        unfold splitWs
        by_cases hc : isWs c = true
        · unfold splitWs at h
          rw [if_pos hc] at h
          rw [if_pos hc]; exact ih h
        · rw [if_neg hc]
          cases s with
          | nil => rw [List.nil_append, show splitWs ['\n'] = [] by decide]; simp
          | cons d s =>
            rw [List.cons_append]
            cases splitWs (d :: (s ++ ['\n'])) with
            | nil => simp
            | cons w ws => simp only; split <;> simp
    cases hs : splitWs (l ++ ['\n']) with
    | nil => exact hx l hl0 hs
    | cons w ws => unfold tidy at he; rw [hs] at he; simp at he
  have hnew : nonEmptyLines (wordsText (ls.map fun l => l ++ ['\n']))
      = ls.map fun l => tidy (l ++ ['\n']) := by
    rw [wordsText_eq, nonEmpty_terminated _ (by
      intro l hm
      rcases List.mem_append.mp hm with hm | hm
      · obtain ⟨l', -, rfl⟩ := List.mem_map.mp hm
        exact tidy_no_nl _
      · simp at hm; simp [hm]), List.filter_append, List.map_map, List.filter_eq_self.mpr]
    · simp [Function.comp_def]
    · intro l hm
      obtain ⟨l', hl', rfl⟩ := List.mem_map.mp hm
      simpa using hws l' (hw l' hl')
  have hold' : nonEmptyLines (terminated old ++ ['\n']) = old := by
    rw [nonEmpty_terminated_nl _ fun l h => (hold l h).1, List.filter_eq_self.mpr]
    intro l h; simpa using (hold l h).2
  have hset : (Zmat.cartesian (terminated old ++ ['\n'])).set
      (.text (wordsText (ls.map fun l => l ++ ['\n'])))
      = .ok (.cartesian
          (terminated (old.take (old.length - ls.length) ++ ls.map fun l => tidy (l ++ ['\n'])) ++ ['\n'])) := by
    unfold Zmat.set
    simp only [hnew, hold']
    have hne0 : old.take (old.length - ls.length) ++ (ls.map fun l => tidy (l ++ ['\n'])) ≠ [] := by
      intro e
      have := congrArg List.length e
      rw [List.length_append, List.length_take, List.length_map] at this
      have h1 := List.length_pos_iff.mpr hold0
      simp only [List.length_nil] at this
      omega
    rw [← joinLines_terminated _ hne0]
    have hov := overwrite_eq old (ls.map fun l => tidy (l ++ ['\n'])) (by simpa using hlen)
    rw [List.length_map] at hov
    simp only [List.length_map]
    split_ifs with g1 g2
    · rw [g1, Nat.sub_self]; simp
    · rw [hov]; simp
    · omega
  unfold parseOpt
  simp only [hg, hset]

/-- C71: without the summary in the output the workflow stops with an error. -/
theorem C71_no_summary (z : Zmat) (buf : Str) (h1 : ¬ internalHeader <:+: buf) (h2 : ¬ cartesianHeader <:+: buf) :
    ∃ e, parseOpt z buf = .raised e := by
  have key : ∀ header, ¬ header <:+: buf → ∃ e, geometryLines header buf = .raised e := by
    intro header h
    unfold geometryLines
    cases buf with
    | nil => exact ⟨_, rfl⟩
    | cons c s =>
      simp only
      rcases Pibronic.Props.Buffer.C55_find (c :: s) header with ⟨i, -, g2, -⟩ | ⟨g1, -⟩
      · exact absurd (g2.isInfix.trans (List.drop_suffix _ _).isInfix) h
      · rw [g1]; exact ⟨_, rfl⟩
  cases z with
  | internal r c =>
    obtain ⟨e, he⟩ := key _ h1
    exact ⟨e, by unfold parseOpt; simp only [he]⟩
  | cartesian t =>
    obtain ⟨e, he⟩ := key _ h2
    exact ⟨e, by unfold parseOpt; simp only [he]⟩

/-- C71 is false for an output that ends within the summary: the program reads empty lines for ever. -/
theorem C71_cut_off_refuted (relations : Str) (coord : List (Str × Str)) (buf pre line1 line2 : Str)
    (ls : List Str) (hl : ∀ l ∈ ls, '\n' ∉ l) (hne : ∀ l ∈ ls, l ≠ [])
    (hb : buf = pre ++ internalHeader ++ (line1 ++ '\n' :: (line2 ++ '\n' :: terminated ls)))
    (hfirst : ∀ k < pre.length, ¬ internalHeader <+: buf.drop k)
    (h1 : '\n' ∉ line1) (h2 : '\n' ∉ line2) :
    parseOpt (.internal relations coord) buf = .hangs := by
  have hf := findString_first buf internalHeader pre _ hb hfirst
  have hd : (keepLines (buf.drop pre.length)).drop 2 = ls.map fun l => l ++ ['\n'] := by
    rw [hb, List.append_assoc, List.drop_left, ← List.append_assoc,
      keepLines_line _ _ (by simp [h1]; decide), keepLines_line _ _ h2,
      keepLines_terminated _ hl]
    rfl
  unfold parseOpt geometryLines
  cases hbuf : buf with
  | nil => rw [hbuf] at hb; simp [internalHeader] at hb
  | cons c s =>
    simp only
    rw [← hbuf, hf]
    simp only [hd, readBlock_hangs ls hne]

/-! ### Witnesses -/

/-- A geometry of water. -/
def waterText : Str := c!"water\nH\nO 1 R*\nH 2 R* 1 A*\n\nR = 0.96\nA=104.5\n"

def waterRel : List Str := [c!"water", c!"H", c!"O 1 R*", c!"H 2 R* 1 A*"]

def waterRows : List Row :=
  [⟨[], c!"R", c!" ", c!" ", c!"0.96", []⟩, ⟨[], c!"A", [], [], c!"104.5", []⟩]

private theorem water_clean : ∀ r ∈ waterRows, r.Clean := by
  intro r hr
  simp only [waterRows, List.mem_cons, List.not_mem_nil, or_false] at hr
  rcases hr with rfl | rfl <;> simp [Row.Clean, Blank, Trimmed, Space]

/-- Witness: the file of water meets the hypotheses of `C70_internal` and `C70_internal_again`. -/
example : InternalFile waterRel waterRows waterText ∧ (∀ l ∈ waterRel, '\n' ∉ l) ∧
    (∀ l ∈ waterRel, l ≠ []) ∧ (∀ r ∈ waterRows, r.Clean) ∧ (waterRows.map Row.name).Nodup ∧
    ∃ z, newZmat (some waterText) = .ok z ∧
      z.get false = c!"water\nH\nO 1 R\nH 2 R 1 A\n\nR=0.96\nA=104.5\n\n" := by
  have hf : InternalFile waterRel waterRows waterText := Or.inr ⟨[], by decide, Or.inl rfl⟩
  refine ⟨hf, by decide, by decide, water_clean, by decide, ?_⟩
  obtain ⟨z, hz, -, h⟩ := C70_internal waterRel waterRows waterText (by decide) (by decide) (by decide)
    water_clean (by decide) (by decide) hf
  exact ⟨z, hz, h.trans (by decide)⟩

/-- Witness: an optimised bond length. -/
example : ∃ coord', parseOpt (.internal c!"" [(c!"R", c!"0.96"), (c!"A", c!"104.5")])
      (c!"x\n" ++ c!"Summary of optimized internal coordinates" ++ c!" :\n ----\nR = 0.97\n\nend\n") = .done (.internal c!"" coord') ∧
      coord'.lookup c!"R" = some c!"0.97" ∧ coord'.lookup c!"A" = some c!"104.5" := by
  obtain ⟨c', h1, -, h3⟩ := C71_internal_partial c!"" [(c!"R", c!"0.96"), (c!"A", c!"104.5")]
    (c!"x\n" ++ internalHeader ++ c!" :\n ----\nR = 0.97\n\nend\n") c!"x\n" c!" :" c!" ----" c!"end\n"
    [⟨[], c!"R", c!" ", c!" ", c!"0.97", []⟩]
    (by intro r hr; rw [List.mem_singleton] at hr; subst hr; simp [Row.Clean, Blank, Trimmed, Space])
    (by decide) (by decide) (by decide) (by decide) (by decide)
  exact ⟨c', h1, by rw [h3]; decide, by rw [h3]; decide⟩

/-- Witness: an optimised position. -/
example : parseOpt (.cartesian (terminated [c!"he", c!"He 0 0 0"] ++ ['\n']))
      (c!"Summary of optimized Cartesian coordinates (Ang)" ++ c!" \n\nHe   0.1  0 0\n\n")
      = .done (.cartesian (terminated [c!"he", c!"He 0.1 0 0 "] ++ ['\n'])) := by
  have := C71_cartesian_partial [c!"he", c!"He 0 0 0"] (cartesianHeader ++ c!" \n\nHe   0.1  0 0\n\n")
    [] c!" " [] [] [c!"He   0.1  0 0"] (by decide) (by decide) (by decide) (by decide) (by decide)
    (by decide) (by decide) (by decide) (by decide)
  exact this.trans (by decide)

end Pibronic.Props.Molecule
