import Verif.Spec.ThermoText
import Verif.Lemmas.JsonPrefix
import Verif.Lemmas.JsonDict
import Verif.Props.Plotting

set_option autoImplicit false

/-! C120: thermo files from the analysis to the table of a plot. -/
namespace Pibronic.Props.ThermoText
open Pibronic.Py Pibronic.Analysis Pibronic.FileStructure Pibronic.ThermoText Pibronic.Spec.ThermoText
open Pibronic.Postprocessing Pibronic.Props.Postprocessing
open Pibronic.Plotting (ThermoDict Val Lists)
open Pibronic.Spec.Plotting (thermoFile HasHashes WellFormed entry)

/-- The dictionary that `json.dumps` gets is one that `json.loads` gives back. -/
theorem valid_thermo (fl : Floats) (hv hr : Str) (st : Stat) :
    (Json.dict (statItems fl st ++ [(c!"hash_vib", .str hv), (c!"hash_rho", .str hr)])).Valid := by
  have ht := fl.tok
  cases st with
  | plain e =>
    simp only [statItems, estimateItems, List.cons_append, List.nil_append, Json.Valid, validPairs,
      List.map_cons, List.map_nil, ht, and_true]
    decide
  | jackknife o =>
    simp only [statItems, estimateItems, jkItems, List.cons_append, List.nil_append, Json.Valid, validPairs,
      List.map_cons, List.map_nil, ht, and_true]
    decide

/-- What is read from a complete file. -/
theorem read_eq (fl : Floats) (hv hr : Str) (st : Stat) :
    readThermo fl (thermoText fl hv hr st) = .ok ((statItems fl st).map (fun p => (p.1, valOf fl p.2)) ++
      [(c!"hash_vib", .text hv), (c!"hash_rho", .text hr)]) := by
  unfold readThermo thermoText
  rw [loads_dumpsDefault _ (valid_thermo fl hv hr st)]
  simp [bind, Except.bind, valOf]

/-- C120: a complete thermo file is read as the dictionary with the two hashes and, under its name, each
number that the analysis found (as the nearest float), each name once and nothing else. -/
theorem C120_read_back (fl : Floats) (hv hr : Str) (st : Stat) :
    ∃ d, readThermo fl (thermoText fl hv hr st) = .ok d ∧ (d.map Prod.fst).Nodup ∧
      HasHashes hv hr d ∧ WellFormed d ∧
      (∀ f x, found st f = some x → (f, Val.num (asFloat fl x)) ∈ d) ∧
      (∀ f, f ≠ c!"hash_vib" → f ≠ c!"hash_rho" → found st f = none → ∀ v, (f, v) ∉ d) := by
  refine ⟨_, read_eq fl hv hr st, ?_, ?_, ?_, ?_, ?_⟩
  · cases st <;> simp only [statItems, estimateItems, jkItems, List.cons_append, List.nil_append,
      List.map_cons, List.map_nil] <;> decide
  · simp [HasHashes]
  · cases st <;> simp [statItems, estimateItems, jkItems, WellFormed, valOf]
  · intro f x h
    cases st with
    | plain e =>
      unfold found at h
      simp only at h
      split_ifs at h <;> subst_vars <;> cases h <;>
        simp [statItems, estimateItems, jkItems, valOf, asFloat]
    | jackknife o =>
      unfold found at h
      simp only at h
      split_ifs at h <;> subst_vars <;> cases h <;>
        simp [statItems, estimateItems, jkItems, valOf, asFloat]
  · intro f h1 h2 h v hv
    replace hv := List.mem_map_of_mem (f := Prod.fst) hv
    cases st with
    | plain e =>
      change f ∈ [c!"Z", c!"Z error", c!"E", c!"E error", c!"Cv", c!"Cv error", c!"hash_vib",
        c!"hash_rho"] at hv
      simp only [List.mem_cons, List.not_mem_nil, or_false] at hv
      rcases hv with rfl | rfl | rfl | rfl | rfl | rfl | rfl | rfl <;>
        first | exact h1 rfl | exact h2 rfl | simp [found] at h
    | jackknife o =>
      change f ∈ [c!"Z", c!"Z error", c!"E", c!"E error", c!"Cv", c!"Cv error", c!"jk_E", c!"jk_E error",
        c!"jk_Cv", c!"jk_Cv error", c!"hash_vib", c!"hash_rho"] at hv
      simp only [List.mem_cons, List.not_mem_nil, or_false] at hv
      rcases hv with rfl | rfl | rfl | rfl | rfl | rfl | rfl | rfl | rfl | rfl | rfl | rfl <;>
        first | exact h1 rfl | exact h2 rfl | simp [found] at h

/-- C120: after a crash at any character of the write the file is rejected when it is read. -/
theorem C120_cut_file_rejected (fl : Floats) (hv hr : Str) (st : Stat) (n : Nat)
    (hn : n < (thermoText fl hv hr st).length) :
    readThermo fl ((thermoText fl hv hr st).take n) = .error .value := by
  have h : loads ((thermoText fl hv hr st).take n) = .error .value := by
    refine loads_truncated _ (valid_thermo fl hv hr st) rfl _ ((thermoText fl hv hr st).drop n) ?_ ?_
    · exact (List.take_append_drop n (thermoText fl hv hr st)).symm
    · intro h0
      rw [List.drop_eq_nil_iff] at h0
      omega
  unfold readThermo
  rw [h]
  rfl

theorem hashes_of_read {fl : Floats} {d : TextDisk} {p : Str} {x : ThermoDict ℝ} (h : d.read fl p = .ok x) :
    d.hashes fl p = .ok (Plotting.storedHashes x) := by
  unfold TextDisk.read readThermo at h
  unfold TextDisk.hashes readHashes
  cases hf : d.files p with
  | none => rw [hf] at h; cases h
  | some text =>
    rw [hf] at h
    simp only at h ⊢
    cases hl : loads text with
    | error e => rw [hl] at h; cases h
    | ok v =>
      rw [hl] at h
      cases v with
      | dict l => cases h; rfl
      | _ => cases h

/-- C120: what a dictionary that somebody else wrote is taken for: the names stay, integers and floats are numbers,
`true` and `false` are 1 and 0, `null` is NaN, texts stay texts. -/
theorem C120_entries (fl : Floats) (text : Str) (l : List (Str × Json)) (h : loads text = .ok (.dict l)) :
    ∃ d, readThermo fl text = .ok d ∧ d.map Prod.fst = l.map Prod.fst ∧ ∀ (i : Nat) (name : Str),
      (∀ z : Int, l[i]? = some (name, .int z) → d[i]? = some (name, .num (some (z : ℝ)))) ∧
      (∀ t, l[i]? = some (name, .float t) → d[i]? = some (name, .num (fl.number t))) ∧
      (∀ b, l[i]? = some (name, .bool b) → d[i]? = some (name, .num (some (if b then 1 else 0)))) ∧
      (l[i]? = some (name, .null) → d[i]? = some (name, .num none)) ∧
      (∀ s, l[i]? = some (name, .str s) → d[i]? = some (name, .text s)) := by
  refine ⟨l.map fun p => (p.1, valOf fl p.2), by simp only [readThermo, h, bind, Except.bind], by simp, fun i name => ?_⟩
  refine ⟨fun z hz => ?_, fun t hz => ?_, fun b hz => ?_, fun hz => ?_, fun s hz => ?_⟩ <;>
    rw [List.getElem?_map, hz] <;> rfl

/-- If every thermo file can be read, the set up is that of `Model/Plotting.lean`. -/
theorem initOne_view {hash : Str → Str} {texts : FileStructure.Disk} {fl : Floats} {d : TextDisk} {s : FS}
    (h : ∀ s', ∀ p ∈ retriveJackknifeFileList s' d.listing, s'.pathRhoResults = s.pathRhoResults →
      ∃ x, d.read fl p = .ok x) :
    initOne hash texts fl d s = Plotting.initOne hash texts (d.view fl) s := by
  unfold initOne Plotting.initOne
  cases hg : s.generateModelHashes hash texts false with
  | error e => rfl
  | ok s' =>
    have hp : s'.pathRhoResults = s.pathRhoResults := by
      unfold FS.generateModelHashes at hg
      split at hg
      · cases hg; rfl
      · simp only [bind, Except.bind] at hg
        split at hg
        · cases hg
        · split at hg
          · cases hg
          · cases hg; rfl
    have : fileList fl s' d = Plotting.fileList s' (d.view fl) := by
      unfold fileList Plotting.fileList
      have hr : ∀ ps : List Str, (∀ p ∈ ps, ∃ x, d.read fl p = .ok x) → ∀ v r,
          pruneResultsUsingHashes v r (d.hashes fl) ps =
          pruneResultsUsingHashes v r (fun p => ((d.view fl).read p).map Plotting.storedHashes) ps := by
        intro ps hps v r
        induction ps with
        | nil => rfl
        | cons p ps ih =>
          obtain ⟨x, hx⟩ := hps p (by simp)
          have e : (d.view fl).read p = .ok x := by
            simp [TextDisk.view, Plotting.Disk.read, hx, Except.toOption]
          rw [pruneResultsUsingHashes, pruneResultsUsingHashes, ih fun q hq => hps q (by simp [hq]), hashes_of_read hx, e]
          rfl
      exact hr _ (fun p hp' => h s' p hp' hp) _ _
    simp only [bind, Except.bind, this]

/-- A thermo file that `retrive_jackknife_file_list` lists. -/
theorem listed {s : FS} {d : TextDisk} (ht : Tidy s d) {s' : FS}
    (hs : s'.pathRhoResults = s.pathRhoResults) {p : Str} (h : p ∈ retriveJackknifeFileList s' d.listing) :
    p ∈ d.listing ∧ s.pathRhoResults <+: p ∧ c!"_thermo" <:+ p := by
  obtain ⟨e1, a, b, c, -, e2⟩ := (C14_listed_thermo_files s' (by rw [hs]; exact ht.noStar) _ _).1 h
  rw [hs] at e2
  exact ⟨e1, by rw [e2]; exact List.prefix_append _ _, by rw [e2]; exact ⟨_, List.append_assoc ..⟩⟩

theorem read_keys {fl : Floats} {d : TextDisk} {path : Str} {x : ThermoDict ℝ} (h : d.read fl path = .ok x) :
    (x.map Prod.fst).Nodup := by
  unfold TextDisk.read readThermo at h
  split at h
  · cases h
  · simp only [bind, Except.bind] at h
    split at h
    · cases h
    · next v hv =>
      split at h
      · cases h
        have := loads_keys_nodup hv
        simpa [List.map_map, Function.comp_def] using this
      · cases h

theorem tidy_view {s : FS} {d : TextDisk} (ht : Tidy s d) (fl : Floats) : Spec.Plotting.Tidy s (d.view fl) where
  noStar := ht.noStar
  noP := ht.noP
  noT := ht.noT
  noX := ht.noX
  names := ht.names
  keys := by
    intro path x h
    simp only [TextDisk.view] at h
    cases hr : d.read fl path with
    | error e => rw [hr] at h; cases h
    | ok y => rw [hr] at h; cases h; exact read_keys hr

theorem written_read {fl : Floats} {d : TextDisk} {path hv hr : Str} {st : Stat}
    (h : Written fl d path hv hr st) : ∃ x, d.read fl path = .ok x ∧ HasHashes hv hr x ∧ WellFormed x ∧
      (∀ f y, found st f = some y → (f, Val.num (asFloat fl y)) ∈ x) ∧
      (∀ f, f ≠ c!"hash_vib" → f ≠ c!"hash_rho" → found st f = none → ∀ v, (f, v) ∉ x) := by
  obtain ⟨x, h1, -, h2⟩ := C120_read_back fl hv hr st
  exact ⟨x, by unfold TextDisk.read; rw [h.2]; exact h1, h2⟩

theorem complete_init {hash : Str → Str} {texts : FileStructure.Disk} {fl : Floats} {d : TextDisk} {s : FS}
    (ht : Tidy s d) (hc : Complete fl s d) :
    initOne hash texts fl d s = Plotting.initOne hash texts (d.view fl) s :=
  initOne_view fun s' p hp hs => by
    obtain ⟨e1, e2, e3⟩ := listed ht hs hp
    obtain ⟨hv, hr, st, hw⟩ := hc p e1 e2 e3
    obtain ⟨x, hx, -⟩ := written_read hw
    exact ⟨x, hx⟩

theorem hashes_unique {x : ThermoDict ℝ} (hn : (x.map Prod.fst).Nodup) {hv hr hv' hr' : Str}
    (h : HasHashes hv hr x) (h' : HasHashes hv' hr' x) : hv = hv' ∧ hr = hr' := by
  have a := (Plotting.textOf_eq hn c!"hash_vib" hv).2 h.1
  have b := (Plotting.textOf_eq hn c!"hash_vib" hv').2 h'.1
  have c := (Plotting.textOf_eq hn c!"hash_rho" hr).2 h.2
  have e := (Plotting.textOf_eq hn c!"hash_rho" hr').2 h'.2
  rw [a] at b; rw [c] at e
  cases b; cases e
  exact ⟨rfl, rfl⟩

theorem view_thermo {fl : Floats} {d : TextDisk} {path : Str} {x : ThermoDict ℝ} :
    (d.view fl).thermo path = some x ↔ d.read fl path = .ok x := by
  simp only [TextDisk.view]
  cases d.read fl path <;> simp [Except.toOption]

theorem current_iff {fl : Floats} {s : FS} {d : TextDisk} (hc : Complete fl s d) {P T X : Nat} {hv hr : Str}
    {x : ThermoDict ℝ} : Spec.Plotting.CurrentFile s (d.view fl) hv hr P T X x ↔
      ∃ st, Written fl d (thermoFile s P T X) hv hr st ∧ d.read fl (thermoFile s P T X) = .ok x := by
  unfold Spec.Plotting.CurrentFile
  rw [view_thermo]
  constructor
  · rintro ⟨h1, h2, h3⟩
    obtain ⟨hv', hr', st, hw⟩ := hc _ h1 (List.prefix_append _ _)
      ⟨s.pathRhoResults ++ (c!"P" ++ natStr P ++ c!"_T" ++ tempStr T ++ c!"_X" ++ natStr X), by
        simp [thermoFile]⟩
    obtain ⟨y, hy, hh, -⟩ := written_read hw
    rw [hy] at h2
    cases h2
    obtain ⟨rfl, rfl⟩ := hashes_unique (read_keys hy) h3 hh
    exact ⟨st, hw, hy⟩
  · rintro ⟨st, hw, hx⟩
    obtain ⟨y, hy, hh, -⟩ := written_read hw
    rw [hy] at hx
    cases hx
    exact ⟨hw.1, hy, hh⟩

/-- C120: when every thermo file of the directory was written to the end, whatever models and methods
they come from, a plotting object is set up and its table loaded. -/
theorem C120_succeeds {hash : Str → Str} {texts : FileStructure.Disk} {fl : Floats} {d : TextDisk} {s : FS}
    {tv tr : Str} (hnew : s.hashVib = none ∨ s.hashRho = none) (ht : Tidy s d) (hc : Complete fl s d)
    (hv : texts.files s.pathVibModel = some tv) (hr : texts.files s.pathRhoModel = some tr) (skip : Bool) :
    ∃ paths l t, initOne hash texts fl d s =
        .ok ({ s with hashVib := some (hash tv), hashRho := some (hash tr) }, paths, l) ∧
      Plotting.loadPimcData skip (d.view fl) l paths = .ok t := by
  rw [complete_init ht hc]
  refine Plotting.C80_succeeds hnew (tidy_view ht fl) hv hr (fun path h1 h2 h3 => ?_)
    (fun P T X x hx => ?_) skip
  · obtain ⟨_, _, _, hw⟩ := hc path h1 h2 h3
    obtain ⟨x, hx, -⟩ := written_read hw
    exact ⟨x, view_thermo.2 hx⟩
  · obtain ⟨st, hw, hx⟩ := (current_iff hc).1 hx
    obtain ⟨y, hy, -, hwf, -⟩ := written_read hw
    rw [hy] at hx
    cases hx
    exact hwf

/-- C120: the entry of a plot's table for a number of beads, a temperature, a number of samples and the
name of a quantity is the number that the analysis found (as the nearest float) if the file was
calculated from the models now in the model files.  It is NaN if the analysis does not calculate the
quantity, and if there is no such file. -/
theorem C120_table {hash : Str → Str} {texts : FileStructure.Disk} {fl : Floats} {d : TextDisk} {s s' : FS}
    {paths : List Str} {l : Lists} (hnew : s.hashVib = none ∨ s.hashRho = none) (ht : Tidy s d)
    (hc : Complete fl s d) (h : initOne hash texts fl d s = .ok (s', paths, l)) {skip : Bool}
    {t : Plotting.Table ℝ} (hload : Plotting.loadPimcData skip (d.view fl) l paths = .ok t) :
    t.lists = l ∧ ∃ tv tr, texts.files s.pathVibModel = some tv ∧ texts.files s.pathRhoModel = some tr ∧
      ∀ P ∈ l.P, ∀ T ∈ l.T, ∀ X ∈ l.X, ∀ f ∈ [c!"Z", c!"Z error", c!"E", c!"E error", c!"Cv", c!"Cv error",
          c!"jk_E", c!"jk_E error", c!"jk_Cv", c!"jk_Cv error"],
        (∀ st, Written fl d (thermoFile s P T X) (hash tv) (hash tr) st →
          entry t P T X f = (found st f).bind (asFloat fl)) ∧
        ((∀ st, ¬ Written fl d (thermoFile s P T X) (hash tv) (hash tr) st) → entry t P T X f = none) := by
  rw [complete_init ht hc] at h
  obtain ⟨h0, tv, tr, h1, h2, h3⟩ := Plotting.C80_table hnew (tidy_view ht fl) h hload
  refine ⟨h0, tv, tr, h1, h2, fun P hP T hT X hX f hf => ⟨fun st hw => ?_, fun hno => ?_⟩⟩
  · obtain ⟨x, hx, hh, -, ha, hb⟩ := written_read hw
    obtain ⟨g1, g2⟩ := (h3 P hP T hT X hX f hf).1 x ((current_iff hc).2 ⟨st, hw, hx⟩)
    cases hfd : found st f with
    | none =>
      refine g2 (hb f ?_ ?_ hfd)
      · rintro rfl; revert hf; decide
      · rintro rfl; revert hf; decide
    | some y => exact g1 _ (ha f y hfd)
  · refine (h3 P hP T hT X hX f hf).2 fun x hx => ?_
    obtain ⟨st, hw, -⟩ := (current_iff hc).1 hx
    exact hno st hw

theorem not_infix_of_find_none {n t : Str} (h : find n t = none) : ¬ n <:+: t := by
  induction t with
  | nil =>
    unfold find at h
    intro hi
    have : n = [] := List.eq_nil_of_infix_nil hi
    subst this
    simp [dropPrefix] at h
  | cons c s ih =>
    unfold find at h
    split at h
    · cases h
    · next hd =>
      simp only [Option.map_eq_none_iff] at h
      intro hi
      rcases List.infix_cons_iff.1 hi with hp | hi
      · obtain ⟨r, hr⟩ := hp
        rw [← hr, dropPrefix_append] at hd
        cases hd
      · exact ih h hi

/-- One thermo file without usable hashes among complete ones stops the set up. -/
theorem one_bad {hash : Str → Str} {texts : FileStructure.Disk} {fl : Floats} {d : TextDisk}
    {s : FS} {tv tr : Str} (hnew : s.hashVib = none ∨ s.hashRho = none) (ht : Tidy s d)
    (hv : texts.files s.pathVibModel = some tv) (hr : texts.files s.pathRhoModel = some tr)
    {P T X : Nat} {e : Err} (hin : thermoFile s P T X ∈ d.listing)
    (hbad : d.hashes fl (thermoFile s P T X) = .error e)
    (hothers : ∀ path ∈ d.listing, path ≠ thermoFile s P T X → s.pathRhoResults <+: path →
      c!"_thermo" <:+ path → ∃ hv hr st, Written fl d path hv hr st) :
    initOne hash texts fl d s = .error e := by
  unfold initOne FS.generateModelHashes
  rw [if_neg (by rcases hnew with e | e <;> simp [e])]
  simp only [hashOfFile, hv, hr]
  have hl : fileList fl { s with hashVib := some (hash tv), hashRho := some (hash tr) } d = .error e := by
    unfold fileList
    set s' : FS := { s with hashVib := some (hash tv), hashRho := some (hash tr) } with hs'
    have hmem : thermoFile s P T X ∈ retriveJackknifeFileList s' d.listing := by
      refine (C14_listed_thermo_files s' ht.noStar _ _).2 ⟨hin, natStr P, tempStr T, natStr X, ⟨?_, ?_, ?_⟩, rfl⟩
      · exact notMem_natStr (by decide) _
      · exact notMem_tempStr (by decide) (by decide) _
      · exact notMem_natStr (by decide) _
    obtain ⟨pre, post, hsplit, hnot⟩ := List.eq_append_cons_of_mem hmem
    rw [hsplit]
    refine (C16_prune_errors (hash tv) (hash tr) _ pre post _ fun q hq => ?_).2 e ?_ ?_
    · have hq' : q ∈ retriveJackknifeFileList s' d.listing := by rw [hsplit]; simp [hq]
      obtain ⟨e1, e2, e3⟩ := listed ht rfl hq'
      refine ⟨.inr (List.IsSuffix.trans ⟨c!"_", rfl⟩ e3), ?_⟩
      obtain ⟨_, _, _, hw⟩ := hothers q e1 (fun e => hnot (e ▸ hq)) e2 e3
      obtain ⟨x, hx, -⟩ := written_read hw
      exact ⟨Plotting.storedHashes x, hashes_of_read hx⟩
    · exact .inr ⟨s.pathRhoResults ++ (c!"P" ++ natStr P ++ c!"_T" ++ tempStr T ++ c!"_X" ++ natStr X
        ++ c!"_"), by simp [thermoFile]⟩
    · exact hbad
  simp only [bind, Except.bind, hl]

/-- C120: a thermo file that is listed but gone when it is opened makes every plotting object for the directory raise
an `OSError`. -/
theorem C120_vanished {hash : Str → Str} {texts : FileStructure.Disk} {fl : Floats} {d : TextDisk}
    {s : FS} {tv tr : Str} (hnew : s.hashVib = none ∨ s.hashRho = none) (ht : Tidy s d)
    (hv : texts.files s.pathVibModel = some tv) (hr : texts.files s.pathRhoModel = some tr)
    {P T X : Nat} (hin : thermoFile s P T X ∈ d.listing) (hf : d.files (thermoFile s P T X) = none)
    (hothers : ∀ path ∈ d.listing, path ≠ thermoFile s P T X → s.pathRhoResults <+: path →
      c!"_thermo" <:+ path → ∃ hv hr st, Written fl d path hv hr st) :
    initOne hash texts fl d s = .error .os := by
  refine one_bad hnew ht hv hr hin ?_ hothers
  unfold TextDisk.hashes
  rw [hf]

/-- C120: a thermo file whose text is JSON without any entries, a number, `true`, `false` or `null`, or a list or a text
in which the names of both hashes occur, makes every plotting object for the directory raise a `TypeError`. -/
theorem C120_number_in_file {hash : Str → Str} {texts : FileStructure.Disk} {fl : Floats} {d : TextDisk}
    {s : FS} {tv tr : Str} (hnew : s.hashVib = none ∨ s.hashRho = none) (ht : Tidy s d)
    (hv : texts.files s.pathVibModel = some tv) (hr : texts.files s.pathRhoModel = some tr)
    {P T X : Nat} {text : Str} {v : Json} (hin : thermoFile s P T X ∈ d.listing)
    (hf : d.files (thermoFile s P T X) = some text) (hl : loads text = .ok v)
    (hnum : (∃ z, v = .int z) ∨ (∃ t, v = .float t) ∨ (∃ b, v = .bool b) ∨ v = .null ∨
      (∃ l, v = .list l ∧ Json.str c!"hash_vib" ∈ l ∧ Json.str c!"hash_rho" ∈ l) ∨
      ∃ t, v = .str t ∧ c!"hash_vib" <:+: t ∧ c!"hash_rho" <:+: t)
    (hothers : ∀ path ∈ d.listing, path ≠ thermoFile s P T X → s.pathRhoResults <+: path →
      c!"_thermo" <:+ path → ∃ hv hr st, Written fl d path hv hr st) :
    initOne hash texts fl d s = .error .type := by
  refine one_bad hnew ht hv hr hin ?_ hothers
  unfold TextDisk.hashes readHashes
  rw [hf]
  simp only [hl, bind, Except.bind]
  rcases hnum with ⟨z, rfl⟩ | ⟨t, rfl⟩ | ⟨b, rfl⟩ | rfl | ⟨l, rfl, h1, h2⟩ | ⟨t, rfl, h1, h2⟩
  · rfl
  · rfl
  · rfl
  · rfl
  · refine if_pos ?_
    simp only [Bool.and_eq_true, List.any_eq_true]
    exact ⟨⟨_, h1, by simp⟩, ⟨_, h2, by simp⟩⟩
  · refine if_pos ?_
    have key : ∀ {n : Str}, n <:+: t → (find n t).isSome = true := by
      intro n hn
      cases hf : find n t with
      | some r => rfl
      | none => exact absurd hn (not_infix_of_find_none hf)
    simp [key h1, key h2]

theorem prune_filter {v r : Option Str} {read : Str → Except Err StoredHashes} {q : Str}
    (hq : c!"thermo" <:+ q) (hread : read q = .ok ⟨none, none⟩) (ps : List Str) :
    pruneResultsUsingHashes v r read ps = pruneResultsUsingHashes v r read (ps.filter (· ≠ q)) := by
  induction ps with
  | nil => rfl
  | cons p ps ih =>
    by_cases hp : p = q
    · subst hp
      rw [List.filter_cons_of_neg (by simp), ← ih, pruneResultsUsingHashes]
      have : lastN 4 p = c!".npz" ∨ lastN 6 p = c!"thermo" := by
        right
        obtain ⟨a, rfl⟩ := hq
        simp [lastN]
      rw [if_pos this, hread]
      simp only [bind, Except.bind, keepFile]
      cases pruneResultsUsingHashes v r read ps <;> simp
    · rw [List.filter_cons_of_pos (by simpa using hp), pruneResultsUsingHashes, pruneResultsUsingHashes, ih]

/-- C120: a thermo file that holds a list or a text in which one of the names of the hashes does not occur is
passed over: everything is as if the file were not there. -/
theorem C120_passed_over {hash : Str → Str} {texts : FileStructure.Disk} {fl : Floats} {d : TextDisk} {s : FS}
    {q text : Str} (hq : c!"_thermo" <:+ q) (hf : d.files q = some text)
    (h : (∃ l name, loads text = .ok (.list l) ∧ name ∈ [c!"hash_vib", c!"hash_rho"] ∧ Json.str name ∉ l) ∨
      ∃ t name, loads text = .ok (.str t) ∧ name ∈ [c!"hash_vib", c!"hash_rho"] ∧ ¬ name <:+: t) :
    initOne hash texts fl d s = initOne hash texts fl { d with listing := d.listing.filter (· ≠ q) } s := by
  have hread : d.hashes fl q = .ok ⟨none, none⟩ := by
    unfold TextDisk.hashes readHashes
    rw [hf]
    rcases h with ⟨l, name, hl, hn, hno⟩ | ⟨t, name, hl, hn, hno⟩
    · simp only [hl, bind, Except.bind]
      rw [if_neg]
      simp only [Bool.and_eq_true, List.any_eq_true, not_and_or]
      have key : ¬ ∃ x ∈ l, (match x with | .str s => s == name | _ => false) = true := by
        rintro ⟨x, hx, he⟩
        cases x with
        | str s => simp only [beq_iff_eq] at he; subst he; exact hno hx
        | _ => simp at he
      simp only [List.mem_cons, List.not_mem_nil, or_false] at hn
      rcases hn with rfl | rfl
      · exact .inl key
      · exact .inr key
    · simp only [hl, bind, Except.bind]
      rw [if_neg]
      have key : (find name t).isSome = false := by rw [find_none_of_not_infix _ _ hno]; rfl
      simp only [List.mem_cons, List.not_mem_nil, or_false] at hn
      rcases hn with rfl | rfl <;> simp [key]
  unfold initOne
  cases s.generateModelHashes hash texts false with
  | error e => rfl
  | ok s' =>
    have : fileList fl s' d = fileList fl s' { d with listing := d.listing.filter (· ≠ q) } := by
      unfold fileList
      have hg : retriveJackknifeFileList s' (d.listing.filter (· ≠ q)) =
          (retriveJackknifeFileList s' d.listing).filter (· ≠ q) := by
        simp only [retriveJackknifeFileList, glob, List.filter_filter]
        congr 1
        funext x
        exact Bool.and_comm ..
      simp only [hg]
      exact prune_filter (List.IsSuffix.trans ⟨c!"_", rfl⟩ hq) hread _
    simp only [bind, Except.bind, this]

/-- Witness: a list without hashes, and a number. -/
example : (∃ l name, loads (dumpsDefault (.list [.null])) = .ok (.list l) ∧ name ∈ [c!"hash_vib", c!"hash_rho"] ∧
      Json.str name ∉ l) ∧ ∃ z, loads (dumpsDefault (.int 3)) = .ok (.int z) :=
  ⟨⟨[.null], c!"hash_vib", loads_dumpsDefault _ (by simp [Json.Valid, validItems]), by simp, by simp⟩,
    3, loads_dumpsDefault _ (by simp [Json.Valid])⟩

/-- C120: one thermo file in the directory that was cut short, by a crash at any character of the write
and whatever models it was calculated from, makes every plotting object for the directory raise a
`ValueError`, although all the other files are complete. -/
theorem C120_one_cut_file_refuted {hash : Str → Str} {texts : FileStructure.Disk} {fl : Floats} {d : TextDisk}
    {s : FS} {tv tr : Str} (hnew : s.hashVib = none ∨ s.hashRho = none) (ht : Tidy s d)
    (hv : texts.files s.pathVibModel = some tv) (hr : texts.files s.pathRhoModel = some tr)
    {P T X n : Nat} {hv' hr' : Str} {st : Stat} (hin : thermoFile s P T X ∈ d.listing)
    (hn : n < (thermoText fl hv' hr' st).length)
    (hcut : d.files (thermoFile s P T X) = some ((thermoText fl hv' hr' st).take n))
    (hothers : ∀ path ∈ d.listing, path ≠ thermoFile s P T X → s.pathRhoResults <+: path →
      c!"_thermo" <:+ path → ∃ hv hr st, Written fl d path hv hr st) :
    initOne hash texts fl d s = .error .value := by
  refine one_bad hnew ht hv hr hin ?_ hothers
  have hbad := C120_cut_file_rejected fl hv' hr' st n hn
  unfold TextDisk.hashes readHashes
  unfold readThermo at hbad
  rw [hcut]
  simp only
  cases hl : loads ((thermoText fl hv' hr' st).take n) with
  | error e => rw [hl] at hbad; cases hbad; rfl
  | ok v => rw [hl] at hbad; cases v <;> cases hbad

/-- C120: a crash is repaired by running the analysis again: once the file is written to the end the
directory is complete. -/
theorem C120_repaired {fl : Floats} {s : FS} {d : TextDisk} {path hv hr : Str} {st : Stat}
    (hothers : ∀ p ∈ d.listing, p ≠ path → s.pathRhoResults <+: p → c!"_thermo" <:+ p →
      ∃ hv hr st, Written fl d p hv hr st) :
    Complete fl s (d.write path (thermoText fl hv hr st)) := by
  intro p hp h1 h2
  by_cases e : p = path
  · subst e
    exact ⟨hv, hr, st, hp, by simp [TextDisk.write]⟩
  · have hp' : p ∈ d.listing := by
      simp only [TextDisk.write] at hp
      split at hp
      · exact hp
      · simpa [e] using hp
    obtain ⟨a, b, c, hw⟩ := hothers p hp' e h1 h2
    exact ⟨a, b, c, hp, by simp [TextDisk.write, e, hw.2]⟩

/-- C120: the jackknife results are lost when the same results are analysed without jackknife
afterwards: the later file replaces the earlier one (the names agree, see `C120_later_analysis`), and
it has none of the jackknife quantities. -/
theorem C120_jackknife_lost_refuted (fl : Floats) (d : TextDisk) (path hv hr : Str) (o : Stats.Output)
    (e : Stats.Estimate) :
    ∃ x y, (d.write path (thermoText fl hv hr (.jackknife o))).read fl path = .ok x ∧
      ((d.write path (thermoText fl hv hr (.jackknife o))).write path (thermoText fl hv hr (.plain e))).read
        fl path = .ok y ∧
      (c!"jk_E", Val.num (asFloat fl o.jk.E)) ∈ x ∧ (c!"jk_Cv", Val.num (asFloat fl o.jk.Cv)) ∈ x ∧
      ∀ v, (c!"jk_E", v) ∉ y ∧ (c!"jk_E error", v) ∉ y ∧ (c!"jk_Cv", v) ∉ y ∧ (c!"jk_Cv error", v) ∉ y := by
  obtain ⟨x, hx, -, -, -, h1, -⟩ := C120_read_back fl hv hr (.jackknife o)
  obtain ⟨y, hy, -, -, -, -, h2⟩ := C120_read_back fl hv hr (.plain e)
  refine ⟨x, y, ?_, ?_, h1 _ _ (by simp [found]), h1 _ _ (by simp [found]), fun v => ?_⟩
  · simpa [TextDisk.read, TextDisk.write] using hx
  · simpa [TextDisk.read, TextDisk.write] using hy
  · exact ⟨h2 _ (by decide) (by decide) (by simp [found]) v, h2 _ (by decide) (by decide) (by simp [found]) v,
      h2 _ (by decide) (by decide) (by simp [found]) v, h2 _ (by decide) (by decide) (by simp [found]) v⟩

/-- Floats for the examples: every number is written as one of two texts. -/
noncomputable def fl0 : Floats where
  repr := fun x => if x = 0 then c!"0.0" else c!"2.5"
  number := fun t => if t = c!"0.0" then some 0 else if t = c!"2.5" then some (5 / 2) else none
  tok := by
    intro x
    split
    · exact .inr (.inr (.inr ⟨[], c!"0", c!".0", [], rfl, .inl rfl, .inl rfl,
        .inr ⟨['0'], by decide, by decide, rfl⟩, .inl rfl, .inl (by decide)⟩))
    · exact .inr (.inr (.inr ⟨[], c!"2", c!".5", [], rfl, .inl rfl,
        .inr ⟨'2', [], rfl, by decide, by decide⟩, .inr ⟨['5'], by decide, by decide, rfl⟩, .inl rfl,
        .inl (by decide)⟩))

/-- The directory of the example of C80 with one complete file and one that was cut after five
characters meets the hypotheses. -/
example (hash : Str → Str) (e : Stats.Estimate) (o : Stats.Output) :
    let p := thermoFile Plotting.demoFS 12 30000 100
    let q := thermoFile Plotting.demoFS 24 30000 100
    initOne hash ⟨[], fun _ => some c!"{}"⟩ fl0
      ⟨[p, q], fun x => if x = p then some (thermoText fl0 c!"h" c!"h" (.jackknife o))
        else if x = q then some ((thermoText fl0 c!"h" c!"h" (.plain e)).take 5) else none⟩
      Plotting.demoFS = .error .value := by
  intro p q
  have hpq : q ≠ p := by
    intro h
    have h1 := List.append_cancel_left (h : Plotting.demoFS.pathRhoResults ++ _ = _ ++ _)
    revert h1
    decide +kernel
  refine C120_one_cut_file_refuted (tv := c!"{}") (tr := c!"{}") (P := 24) (T := 30000) (X := 100) (n := 5)
    (hv' := c!"h") (hr' := c!"h") (st := .plain e) (.inl rfl) ⟨?_, ?_, ?_, ?_, ?_⟩ rfl rfl (by simp [q]) ?_ ?_ ?_
  · exact Plotting.demo_tidy.noStar
  · exact Plotting.demo_tidy.noP
  · exact Plotting.demo_tidy.noT
  · exact Plotting.demo_tidy.noX
  · intro path hp _ _
    rcases List.mem_cons.1 hp with rfl | hp
    · exact ⟨_, _, _, rfl⟩
    · cases List.mem_singleton.1 hp
      exact ⟨_, _, _, rfl⟩
  · have h : c!"{\"Z\": " <+: thermoText fl0 c!"h" c!"h" (.plain e) := by
      unfold thermoText statItems estimateItems
      exact ⟨_, rfl⟩
    have h3 := h.length_le
    simp only [List.length_cons, List.length_nil] at h3
    omega
  · change (if q = p then _ else if q = q then _ else none) = _
    rw [if_neg hpq, if_pos rfl]
  · intro path hp hne _ _
    rcases List.mem_cons.1 hp with rfl | hp
    · exact ⟨_, _, .jackknife o, by simp, if_pos rfl⟩
    · exact (hne (List.mem_singleton.1 hp)).elim

end Pibronic.Props.ThermoText
