import Verif.Props.Examples
import Verif.Props.Setup
import Verif.Lemmas.Postprocessing

set_option autoImplicit false
set_option linter.unusedSectionVars false

/-!
C127: the models of the paper.  C128: the sampling model of the iterative method.
-/
namespace Pibronic.Props.SetupPaper
open Py FileName Pibronic.FileStructure Pibronic.Setup Pibronic.Examples Spec.FileStructure Spec.ModelIO
open Pibronic.ModelIO hiding Disk
open Pibronic.Postprocessing (globMatch_literal_prefix globMatch_star globMatch_literal)
open Pibronic.Props.FileStructure Pibronic.Props.ModelGenerated Pibronic.Props.Setup
variable {α : Type}

/-- What the names of the alternate sampling models of data set `d` begin with:
`<directory of the script>/alternate_rhos/<system>_D<last digit of d>`. -/
def altStem (scriptDir name : Str) (d : Nat) : Str :=
  join (join scriptDir c!"alternate_rhos") (name ++ c!"_D" ++ natStr (d % 10))

/-- The file of the alternate sampling model `r`. -/
def altFile (scriptDir name : Str) (d r : Nat) : Str :=
  altStem scriptDir name d ++ c!"_R" ++ natStr r ++ c!".json"

theorem join_append (a b c : Str) (hb : b ≠ []) : join a (b ++ c) = join a b ++ c := by
  cases b with
  | nil => exact absurd rfl hb
  | cons x b =>
    by_cases hx : x = '/'
    · subst hx; rfl
    · have h1 : ∀ t, join a (x :: t) = if a = [] ∨ a.getLast? = some '/' then a ++ x :: t else a ++ '/' :: x :: t := by
        intro t
        unfold join
        split
        · next h => exact absurd (List.cons.inj h).1 hx
        · rfl
      rw [List.cons_append, h1, h1]
      split <;> simp

/-- The pattern of the alternate sampling models. -/
theorem pattern_eq (e : Env α) (name : Str) (d : Nat) :
    inputPath e c!"alternate_rhos" (name ++ c!"_D" ++ natStr (d % 10) ++ c!"_R*.json") =
      altStem e.scriptDir name d ++ c!"_R*.json" := by
  unfold inputPath altStem
  rw [join_append _ (name ++ c!"_D" ++ natStr (d % 10)) _ (by simp)]

theorem altFile_matches {scriptDir name : Str} {d : Nat} (hstar : '*' ∉ altStem scriptDir name d) (r : Nat) :
    globMatch (altStem scriptDir name d ++ c!"_R*.json") (altFile scriptDir name d r) = true := by
  have : altStem scriptDir name d ++ c!"_R*.json" = (altStem scriptDir name d ++ c!"_R") ++ ('*' :: c!".json") := by
    simp
  rw [this, globMatch_literal_prefix _ _ _ (by simp [hstar])]
  refine ⟨natStr r ++ c!".json", by simp [altFile], ?_⟩
  rw [globMatch_star]
  exact ⟨natStr r, c!".json", rfl, notMem_natStr (by decide) r, (globMatch_literal _ _ (by decide)).mpr rfl⟩

theorem rhoOfFile_alt {scriptDir name : Str} {d : Nat} (h : ¬ c!"_R" <:+: altStem scriptDir name d) (r : Nat) :
    rhoOfFile (altFile scriptDir name d r) = .ok r := by
  have h1 : find c!"_R" (altFile scriptDir name d r) =
      some (altStem scriptDir name d, natStr r ++ c!".json") := by
    unfold altFile
    rw [List.append_assoc]
    exact find_of_not_infix '_' c!"R" _ _ (by decide) h
  have h2 : find c!"_R" (natStr r ++ c!".json") = none :=
    find_none_of_notMem _ _ _ (by simp [notMem_natStr (show digitVal '_' = none by decide) r])
  have h3 : find c!".json" (natStr r ++ c!".json") = some (natStr r, []) := by
    have := find_of_not_infix '.' c!"json" (natStr r) [] (by decide) (by
      rintro ⟨s, t, hst⟩
      exact notMem_natStr (show digitVal '.' = none by decide) r (by rw [← hst]; simp))
    simpa using this
  unfold rhoOfFile
  rw [split_of_find _ _ _ _ _ h1, split_of_find_none _ _ _ h2]
  simp only [List.getElem?_cons_succ, List.getElem?_cons_zero]
  rw [split_of_find _ _ _ _ _ h3]
  simp only [List.getElem?_cons_zero]
  exact pyInt_natStr r

theorem altFile_injective {scriptDir name : Str} {d r r' : Nat}
    (h : altFile scriptDir name d r = altFile scriptDir name d r') : r = r' := by
  unfold altFile at h
  rw [List.append_cancel_right_eq, List.append_cancel_left_eq] at h
  exact natStr_injective h

variable {root absRoot : Str} (hr : RootOk root absRoot)
include hr

theorem copyRhos_run (e : Env α) (name : Str) (d : Nat) (hR : ¬ c!"_R" <:+: altStem e.scriptDir name d)
    (L : List Str) (hL : ∀ f ∈ L, ∃ r, f = altFile e.scriptDir name d r ∧ (e.inputs f).isSome) (w : World α) :
    let res := copyRhos e (initFS root absRoot d 0) L w
    res.1 = .ok () ∧ res.2.mats = w.mats ∧
    (∀ r, altFile e.scriptDir name d r ∈ L →
      res.2.files (rhoFile absRoot d r) = e.inputs (altFile e.scriptDir name d r)) ∧
    ∀ q, (∀ r, altFile e.scriptDir name d r ∈ L → q ≠ rhoFile absRoot d r) → res.2.files q = w.files q := by
  induction L generalizing w with
  | nil => exact ⟨rfl, rfl, fun r h => absurd h (by simp), fun q _ => rfl⟩
  | cons f L ih =>
    obtain ⟨r, rfl, hin⟩ := hL f (by simp)
    obtain ⟨x, hx⟩ := Option.isSome_iff_exists.mp hin
    have hL' : ∀ f ∈ L, ∃ r, f = altFile e.scriptDir name d r ∧ (e.inputs f).isSome := fun f hf =>
      hL f (by simp [hf])
    have hstep : copyRhos e (initFS root absRoot d 0) (altFile e.scriptDir name d r :: L) w =
        copyRhos e (initFS root absRoot d 0) L ⟨w.files.write (rhoFile absRoot d r) x, w.mats⟩ := by
      rw [copyRhos]
      simp only [rhoOfFile_alt hR]
      exact andThen_ok (by simp only [copyInput, hx, atRho_path hr])
    obtain ⟨i1, i2, i3, i4⟩ := ih hL' ⟨w.files.write (rhoFile absRoot d r) x, w.mats⟩
    intro res
    have hres : res = _ := hstep
    rw [hres]
    refine ⟨i1, i2, fun r' hr' => ?_, fun q hq => ?_⟩
    · by_cases hm : altFile e.scriptDir name d r' ∈ L
      · exact i3 r' hm
      · rcases List.mem_cons.mp hr' with h | h
        · have := altFile_injective h
          subst this
          rw [i4 _ fun r2 h2 hc => ?_]
          · exact (write_same _ _ _).trans hx.symm
          · by_cases h3 : r' = r2
            · subst h3; exact hm h2
            · exact rhoFile_ne absRoot d h3 hc
        · exact absurd h hm
    · rw [i4 q fun r' h' => hq r' (List.mem_cons_of_mem _ h')]
      exact write_other _ _ (hq r (by simp))

variable [Field α] [DecidableEq α] [AllClose α]

/-- The part before the alternate sampling models. -/
theorem paper_basic (e : Env α) (name : Str) (d : Nat) (w : World α) {f : File α} {v : Verified α .coupled}
    (hf : e.inputs (inputPath e c!"input_json" (name ++ c!"_" ++ natStr (d % 10) ++ c!".json")) = some f)
    (hl : Reads f v) :
    copyInputPaper e (initFS root absRoot d 0) name w =
      (.ok (), ⟨((w.files.write (param absRoot d c!"coupled_model.json") f).write
        (param absRoot d c!"harmonic_model.json") (toFile (diagonal v.model).toDict)).write
        (rhoFile absRoot d 0) (toFile (diagonal v.model).toDict), w.mats⟩) := by
  obtain ⟨p1, p2, p3, p4, p5, p6, p7⟩ := init_paths hr d 0
  unfold copyInputPaper
  rw [andThen_ok (x := ⟨w.files.write (param absRoot d c!"coupled_model.json") f, w.mats⟩)
    (by simp only [copyInput, p7, hf, p1])]
  simp only [onFiles, createBasicDiagonal, removeCoupling, p1, p3, p6, hl.load (write_same _ _ _), save, verify_toDict,
    copyFile, write_same]
  rfl

/-- C127: preparing a data set of the paper makes `coupled_model.json` the input file, `harmonic_model.json` its
diagonal, the sampling model `r` the file `<system>_D<digit>_R<r>.json` for every `r` with such a file, and the
sampling model 0 the diagonal when there is no file for 0.  It changes nothing else.  The directory and the system
must not contain `_R` or `*`, and every file that the pattern finds must have a plain number `r`. -/
theorem C127_models_partial (e : Env α) (name : Str) (d : Nat) (hv : paper.assertId d = .ok ())
    (hd : e.isDir root = true) (w : World α) {f : File α} {v : Verified α .coupled}
    (hf : e.inputs (inputPath e c!"input_json" (name ++ c!"_" ++ natStr (d % 10) ++ c!".json")) = some f)
    (hl : Reads f v) (hR : ¬ c!"_R" <:+: altStem e.scriptDir name d) (hstar : '*' ∉ altStem e.scriptDir name d)
    (hlist : ∀ p ∈ e.listing, (e.inputs p).isSome)
    (hnum : ∀ p ∈ e.listing, globMatch (altStem e.scriptDir name d ++ c!"_R*.json") p = true →
      ∃ r, p = altFile e.scriptDir name d r) :
    let res := preparePaperModel e (some (root, absRoot)) name d w
    res.1 = .ok () ∧ res.2.mats = w.mats ∧
    res.2.files (param absRoot d c!"coupled_model.json") = some f ∧
    (∀ r, altFile e.scriptDir name d r ∈ e.listing →
      res.2.files (rhoFile absRoot d r) = e.inputs (altFile e.scriptDir name d r)) ∧
    (∃ d₀ : Dict α, WellFormed .diagonal d₀ ∧ d₀.A = some v.A ∧ d₀.N = some v.N ∧
      res.2.files (param absRoot d c!"harmonic_model.json") = some (toFile d₀) ∧
      (altFile e.scriptDir name d 0 ∉ e.listing → res.2.files (rhoFile absRoot d 0) = some (toFile d₀)) ∧
      (∀ idx, entry d₀ .w idx = entry v.model.toDict .w idx) ∧
      ∀ k idx a, k ≠ .w → idx.length = order k →
        entry d₀ k (idx ++ [a]) = entry v.model.toDict k (idx ++ [a, a])) ∧
    ∀ q, q ≠ param absRoot d c!"coupled_model.json" → q ≠ param absRoot d c!"harmonic_model.json" →
      q ≠ rhoFile absRoot d 0 → (∀ r, altFile e.scriptDir name d r ∈ e.listing → q ≠ rhoFile absRoot d r) →
      res.2.files q = w.files q := by
  intro res
  have hmem : ∀ r, altFile e.scriptDir name d r ∈ Postprocessing.glob e.listing
      (altStem e.scriptDir name d ++ c!"_R*.json") ↔ altFile e.scriptDir name d r ∈ e.listing := fun r => by
    simp [Postprocessing.glob, List.mem_filter, altFile_matches hstar r]
  obtain ⟨i1, i2, i3, i4⟩ := copyRhos_run hr e name d hR (Postprocessing.glob e.listing
      (altStem e.scriptDir name d ++ c!"_R*.json")) (fun p hp => by
        obtain ⟨h1, h2⟩ := List.mem_filter.mp hp
        obtain ⟨r, hr⟩ := hnum p h1 h2
        exact ⟨r, hr, hlist p h1⟩)
    ⟨((w.files.write (param absRoot d c!"coupled_model.json") f).write
        (param absRoot d c!"harmonic_model.json") (toFile (diagonal v.model).toDict)).write
        (rhoFile absRoot d 0) (toFile (diagonal v.model).toDict), w.mats⟩
  have hres : res = copyRhos e (initFS root absRoot d 0) (Postprocessing.glob e.listing
      (altStem e.scriptDir name d ++ c!"_R*.json")) ⟨((w.files.write (param absRoot d c!"coupled_model.json") f).write
        (param absRoot d c!"harmonic_model.json") (toFile (diagonal v.model).toDict)).write
        (rhoFile absRoot d 0) (toFile (diagonal v.model).toDict), w.mats⟩ := by
    simp only [res, preparePaperModel, open_given hv hd]
    rw [andThen_ok (paper_basic hr e name d w hf hl)]
    unfold copyAlternateRhos
    rw [(init_paths hr d 0).2.2.2.2.2.2, pattern_eq]
  rw [hres]
  have c0 : ∀ r, param absRoot d c!"coupled_model.json" ≠ rhoFile absRoot d r := fun r =>
    (rhoFile_ne_param _ _ _ _ _ 12 (by decide) (by decide) (by decide)).symm
  have c1 : ∀ r, param absRoot d c!"harmonic_model.json" ≠ rhoFile absRoot d r := fun r =>
    (rhoFile_ne_param _ _ _ _ _ 12 (by decide) (by decide) (by decide)).symm
  have d1 : param absRoot d c!"coupled_model.json" ≠ param absRoot d c!"harmonic_model.json" :=
    param_ne _ _ _ _ 12 (by decide) (by decide) (by decide)
  refine ⟨i1, i2, ?_, fun r h => i3 r ((hmem r).mpr h), ⟨(diagonal v.model).toDict, wellFormed_iff.mpr ⟨_, _, _, rfl⟩,
    rfl, rfl, ?_, fun h0 => ?_, fun idx => entry_mapSurf_w _ _ idx, fun k idx a hk hlen =>
      entry_mapSurf (kind := .coupled) (kind' := .diagonal) (diagonalOf (A := v.A)) [a]
      (fun x => x [a, a]) (fun x => at_diagonalOf a x) rfl v.model k hk idx hlen⟩, fun q h1 h2 h3 h4 => ?_⟩
  · rw [i4 _ fun r _ => c0 r]
    simp only
    rw [write_other _ _ (c0 0), write_other _ _ d1, write_same]
  · rw [i4 _ fun r _ => c1 r]
    simp only
    rw [write_other _ _ (c1 0), write_same]
  · rw [i4 _ fun r h hc => ?_]
    · exact write_same _ _ _
    · by_cases h5 : 0 = r
      · subst h5; exact h0 ((hmem _).mp h)
      · exact rhoFile_ne absRoot d h5 hc
  · rw [i4 q fun r h => h4 r ((hmem r).mp h)]
    simp only
    rw [write_other _ _ h3, write_other _ _ h2, write_other _ _ h1]

/-- C127 fails: when the path of the scripts contains `_R` the numbers of the alternate sampling models are looked for
there, and the preparation ends with ValueError before any of them is copied. -/
theorem C127_path_refuted (e : Env α) (hdir : e.scriptDir = c!"/data/my_Runs/paper")
    (hlisting : e.listing = [altFile e.scriptDir c!"displaced" 21 1]) (hd : e.isDir root = true) (w : World α)
    {f : File α} {v : Verified α .coupled}
    (hf : e.inputs (inputPath e c!"input_json" c!"displaced_1.json") = some f) (hl : Reads f v) :
    (preparePaperModel e (some (root, absRoot)) c!"displaced" 21 w).1 = .error .value ∧
    (preparePaperModel e (some (root, absRoot)) c!"displaced" 21 w).2.files (rhoFile absRoot 21 1) =
      w.files (rhoFile absRoot 21 1) := by
  have hv : paper.assertId 21 = .ok () := rfl
  have hname : (c!"displaced" ++ c!"_" ++ natStr (21 % 10) ++ c!".json" : Str) = c!"displaced_1.json" := by
    decide +kernel
  have hrun : preparePaperModel e (some (root, absRoot)) c!"displaced" 21 w =
      (.error .value, ⟨((w.files.write (param absRoot 21 c!"coupled_model.json") f).write
        (param absRoot 21 c!"harmonic_model.json") (toFile (diagonal v.model).toDict)).write
        (rhoFile absRoot 21 0) (toFile (diagonal v.model).toDict), w.mats⟩) := by
    simp only [preparePaperModel, open_given hv hd]
    rw [andThen_ok (paper_basic hr e c!"displaced" 21 w (by rw [hname]; exact hf) hl)]
    unfold copyAlternateRhos
    rw [(init_paths hr 21 0).2.2.2.2.2.2, pattern_eq, hlisting, hdir]
    have hg : Postprocessing.glob [altFile c!"/data/my_Runs/paper" c!"displaced" 21 1]
        (altStem c!"/data/my_Runs/paper" c!"displaced" 21 ++ c!"_R*.json") =
        [altFile c!"/data/my_Runs/paper" c!"displaced" 21 1] := by decide +kernel
    have hv : rhoOfFile (altFile c!"/data/my_Runs/paper" c!"displaced" 21 1) = .error .value := by
      have h1 : (split c!"_R" (altFile c!"/data/my_Runs/paper" c!"displaced" 21 1))[1]? =
          some c!"uns/paper/alternate_rhos/displaced_D1" := by decide +kernel
      have h2 : (split c!".json" c!"uns/paper/alternate_rhos/displaced_D1")[0]? =
          some c!"uns/paper/alternate_rhos/displaced_D1" := by decide +kernel
      unfold rhoOfFile
      rw [h1]
      simp only
      rw [h2]
      exact pyInt_error (c := '/') (by decide) (by decide)
    rw [hg, copyRhos, hv]
  rw [hrun]
  refine ⟨rfl, ?_⟩
  have c0 : rhoFile absRoot 21 1 ≠ param absRoot 21 c!"coupled_model.json" :=
    rhoFile_ne_param _ _ _ _ _ 12 (by decide) (by decide) (by decide)
  have c1 : rhoFile absRoot 21 1 ≠ param absRoot 21 c!"harmonic_model.json" :=
    rhoFile_ne_param _ _ _ _ _ 12 (by decide) (by decide) (by decide)
  simp only
  rw [write_other _ _ (rhoFile_ne absRoot 21 (by decide)), write_other _ _ c1, write_other _ _ c0]

/-! ### C128 -/

omit [Field α] [DecidableEq α] [AllClose α] in
/-- Whatever files there are, only sampling models are changed. -/
theorem copyRhos_only (e : Env α) (d : Nat) (L : List Str) (w : World α) :
    (copyRhos e (initFS root absRoot d 0) L w).2.mats = w.mats ∧
    ∀ q, (∀ r, q ≠ rhoFile absRoot d r) → (copyRhos e (initFS root absRoot d 0) L w).2.files q = w.files q := by
  induction L generalizing w with
  | nil => exact ⟨rfl, fun q _ => rfl⟩
  | cons f L ih =>
    rw [copyRhos]
    cases rhoOfFile f with
    | error x => exact ⟨rfl, fun q _ => rfl⟩
    | ok r =>
      simp only [andThen, copyInput]
      cases e.inputs f with
      | none => exact ⟨rfl, fun q _ => rfl⟩
      | some x =>
        simp only [atRho_path hr]
        refine ⟨(ih _).1, fun q hq => ?_⟩
        rw [(ih _).2 q hq]
        exact write_other _ _ (hq r)

/-- After the first part. -/
theorem paper_first (e : Env α) (name : Str) (d : Nat) (hv : paper.assertId d = .ok ()) (hd : e.isDir root = true)
    (w : World α) {f : File α} {v : Verified α .coupled}
    (hf : e.inputs (inputPath e c!"input_json" (name ++ c!"_" ++ natStr (d % 10) ++ c!".json")) = some f)
    (hl : Reads f v) :
    (preparePaperModel e (some (root, absRoot)) name d w).2.mats = w.mats ∧
    (preparePaperModel e (some (root, absRoot)) name d w).2.files (param absRoot d c!"coupled_model.json") = some f ∧
    ∀ q, q ≠ param absRoot d c!"coupled_model.json" → q ≠ param absRoot d c!"harmonic_model.json" →
      (∀ r, q ≠ rhoFile absRoot d r) →
      (preparePaperModel e (some (root, absRoot)) name d w).2.files q = w.files q := by
  have c0 : ∀ r, param absRoot d c!"coupled_model.json" ≠ rhoFile absRoot d r := fun r =>
    (rhoFile_ne_param _ _ _ _ _ 12 (by decide) (by decide) (by decide)).symm
  have d1 : param absRoot d c!"coupled_model.json" ≠ param absRoot d c!"harmonic_model.json" :=
    param_ne _ _ _ _ 12 (by decide) (by decide) (by decide)
  simp only [preparePaperModel, open_given hv hd]
  rw [andThen_ok (paper_basic hr e name d w hf hl)]
  unfold copyAlternateRhos
  obtain ⟨h1, h2⟩ := copyRhos_only hr e d (Postprocessing.glob e.listing (inputPath e c!"alternate_rhos"
    (name ++ c!"_D" ++ natStr ((initFS root absRoot d 0).idData % 10) ++ c!"_R*.json")))
    ⟨((w.files.write (param absRoot d c!"coupled_model.json") f).write
        (param absRoot d c!"harmonic_model.json") (toFile (diagonal v.model).toDict)).write
        (rhoFile absRoot d 0) (toFile (diagonal v.model).toDict), w.mats⟩
  refine ⟨h1, ?_, fun q q1 q2 q3 => ?_⟩
  · rw [h2 _ c0]
    simp only
    rw [write_other _ _ (c0 0), write_other _ _ d1, write_same]
  · rw [h2 _ q3]
    simp only
    rw [write_other _ _ (q3 0), write_other _ _ q2, write_other _ _ q1]

omit hr [Field α] [DecidableEq α] [AllClose α] in
theorem open_paper_server (e : Env α) (d : Nat) (hv : paper.assertId d = .ok ())
    (hh : e.host = c!"nlogn" ∨ e.host = c!"feynman") (hsd : e.isDir paper.serverRoot = true) :
    openData paper e none d = .ok (initFS paper.serverRoot (e.absolute paper.serverRoot) d 0) := by
  simp [openData, hv, Project.chooseRoot, hh, hsd, bind, Except.bind]

/-- C128 fails: a data set that is prepared under another root gets its iterative model under the root of the server,
and when the given root has none the preparation ends with FileNotFoundError, without a sampling model 11. -/
theorem C128_other_root_refuted (e : Env α) (name : Str) (d : Nat) (hv : paper.assertId d = .ok ())
    (hd : e.isDir root = true) (hdef : RootOk paper.serverRoot (e.absolute paper.serverRoot))
    (hh : e.host = c!"nlogn" ∨ e.host = c!"feynman") (hsd : e.isDir paper.serverRoot = true)
    (hne : absRoot ≠ e.absolute paper.serverRoot) (w : World α) {f : File α} {v : Verified α .coupled}
    (hf : e.inputs (inputPath e c!"input_json" (name ++ c!"_" ++ natStr (d % 10) ++ c!".json")) = some f)
    (hl : Reads f v) (hfirst : (preparePaperModel e (some (root, absRoot)) name d w).1 = .ok ())
    (g : File α) (hg : ∀ o, e.iterate o = .ok (some g))
    (hno : w.files (param absRoot d c!"iterative_model.json") = none) :
    let res := preparePaperPlus e (some (root, absRoot)) name d w
    res.1 = .error .os ∧
    res.2.files (param (e.absolute paper.serverRoot) d c!"iterative_model.json") = some g ∧
    res.2.files (rhoFile absRoot d 11) =
      (preparePaperModel e (some (root, absRoot)) name d w).2.files (rhoFile absRoot d 11) := by
  intro res
  obtain ⟨-, -, h3⟩ := paper_first hr e name d hv hd w hf hl
  have q4 := (init_paths hdef d 0).2.2.2.1
  obtain ⟨p1, p2, p3, p4, p5, p6, p7⟩ := init_paths hr d 0
  generalize hpre : preparePaperModel e (some (root, absRoot)) name d w = pre at *
  obtain ⟨o, x⟩ := pre
  simp only at hfirst h3
  subst hfirst
  have hown : param absRoot d c!"iterative_model.json" ≠
      param (e.absolute paper.serverRoot) d c!"iterative_model.json" := fun hc => hne (param_root hc)
  have hx : x.files.write (param (e.absolute paper.serverRoot) d c!"iterative_model.json") g
      (param absRoot d c!"iterative_model.json") = none := by
    rw [write_other _ _ hown, h3 _ (param_ne _ _ _ _ 12 (by decide) (by decide) (by decide))
      (param_ne _ _ _ _ 13 (by decide) (by decide) (by decide)) (fun r =>
        (rhoFile_ne_param _ _ _ _ _ 12 (by decide) (by decide) (by decide)).symm), hno]
  have hres : res = (.error .os,
      ⟨x.files.write (param (e.absolute paper.serverRoot) d c!"iterative_model.json") g, x.mats⟩) := by
    simp only [res, preparePaperPlus]
    rw [andThen_ok hpre, open_given hv hd]
    simp only [setupWeightCorrected]
    rw [andThen_ok (x := ⟨x.files.write (param (e.absolute paper.serverRoot) d c!"iterative_model.json") g, x.mats⟩)]
    · simp only [andThen, onFiles, recalculate, load, openFile, p4, hx, bind, Except.bind]
    · unfold iterativeWrapper
      rw [p7, open_paper_server e d hv hh hsd]
      simp only [hg, q4]
  rw [hres]
  refine ⟨rfl, write_same _ _ _, ?_⟩
  exact write_other _ _ (rhoFile_ne_param _ _ _ _ _ 12 (by decide) (by decide) (by decide))

end Pibronic.Props.SetupPaper

namespace Pibronic.Props.SetupPaper
open Py FileName Pibronic.FileStructure Pibronic.Setup Pibronic.Examples Spec.FileStructure Spec.ModelIO
open Pibronic.ModelIO hiding Disk
open Pibronic.Props.FileStructure Pibronic.Props.ModelGenerated Pibronic.Props.Setup
variable {β : Type} [Field β] [LinearOrder β] [IsStrictOrderedRing β]

/-- C128: when the preparation under the root of the server succeeds, the iterative model and the sampling model 11
are the same file: the model `g` that the iterative method made of the input, with other energies.  The oscillator of
each surface is lowest where it was in `g`, with the lowest eigenvalue of the potential energy matrix of the input
there as its height. -/
theorem C128_model_partial (e : Env β) (name : Str) (d : Nat) (hv : paper.assertId d = .ok ())
    (hdef : RootOk paper.serverRoot (e.absolute paper.serverRoot))
    (hh : e.host = c!"nlogn" ∨ e.host = c!"feynman") (hsd : e.isDir paper.serverRoot = true)
    (w : World β) {f : File β} {v : Verified β .coupled}
    (hf : e.inputs (inputPath e c!"input_json" (name ++ c!"_" ++ natStr (d % 10) ++ c!".json")) = some f)
    (hl : Reads f v) (g : File β) (hi : e.iterate (some f) = .ok (some g)) {i : Verified β .diagonal}
    (hgi : ReadsSampling g i) (hw : ∀ j : Fin i.N, 0 < entry i.model.toDict .w [j.1])
    (hok : (preparePaperPlus e none name d w).1 = .ok ()) :
    ∃ d', (preparePaperPlus e none name d w).2.files
        (param (e.absolute paper.serverRoot) d c!"iterative_model.json") = some (toFile d') ∧
      (preparePaperPlus e none name d w).2.files (rhoFile (e.absolute paper.serverRoot) d 11) = some (toFile d') ∧
      (preparePaperPlus e none name d w).2.files (param (e.absolute paper.serverRoot) d c!"coupled_model.json") =
        some f ∧
      WellFormed .diagonal d' ∧ d'.A = some i.A ∧ d'.N = some i.N ∧
      (∀ k idx, k ≠ .E → entry d' k idx = entry i.model.toDict k idx) ∧
      ∀ a : Fin i.A, ∃ q : Fin i.N → β,
        (∀ q', oscillator i.model.toDict i.N a q ≤ oscillator i.model.toDict i.N a q') ∧
        (∀ q', oscillator d' i.N a q ≤ oscillator d' i.N a q') ∧
        ∀ qv : Fin v.N → β, (∀ (j : Fin i.N) (l : Fin v.N), j.1 = l.1 → qv l = q j) →
          oscillator d' i.N a q = e.minEig v.A (fun b c => potentialMatrix v.model.toDict v.A v.N qv b c) := by
  obtain ⟨-, h2, -⟩ := paper_first hdef e name d hv hsd w hf hl
  obtain ⟨p1, p2, p3, p4, p5, p6, p7⟩ := init_paths hdef d 0
  have hopen : openData paper e none d = openData paper e (some (paper.serverRoot, e.absolute paper.serverRoot)) d := by
    rw [open_paper_server e d hv hh hsd, open_given hv hsd]
  have hsame : preparePaperModel e none name d w =
      preparePaperModel e (some (paper.serverRoot, e.absolute paper.serverRoot)) name d w := by
    unfold preparePaperModel
    rw [hopen]
  generalize hpre : preparePaperModel e (some (paper.serverRoot, e.absolute paper.serverRoot)) name d w = pre at *
  obtain ⟨o, x⟩ := pre
  generalize hplus : preparePaperPlus e none name d w = res at hok ⊢
  unfold preparePaperPlus at hplus
  cases ho : o with
  | error er =>
    rw [ho] at hsame
    simp only [andThen, hsame] at hplus
    rw [← hplus] at hok
    cases hok
  | ok u =>
    rw [ho] at hsame
    rw [andThen_ok hsame, open_paper_server e d hv hh hsd] at hplus
    simp only at h2
    have hopen2 := open_paper_server e d hv hh hsd
    generalize hs : initFS paper.serverRoot (e.absolute paper.serverRoot) d 0 = s at *
    have q11 : (atRho s iterativeRho).pathRhoModel = rhoFile (e.absolute paper.serverRoot) d 11 := by
      rw [← hs]; exact atRho_path hdef d 11
    generalize e.absolute paper.serverRoot = R at *
    have ci : param R d c!"coupled_model.json" ≠ param R d c!"iterative_model.json" :=
      param_ne _ _ _ _ 12 (by decide) (by decide) (by decide)
    have c0 : ∀ r, param R d c!"coupled_model.json" ≠ rhoFile R d r := fun r =>
      (rhoFile_ne_param _ _ _ _ _ 12 (by decide) (by decide) (by decide)).symm
    have c : ∀ r, param R d c!"iterative_model.json" ≠ rhoFile R d r := fun r =>
      (rhoFile_ne_param _ _ _ _ _ 12 (by decide) (by decide) (by decide)).symm
    simp only [setupWeightCorrected] at hplus
    rw [andThen_ok (x := ⟨x.files.write (param R d c!"iterative_model.json") g, x.mats⟩) (by
      unfold iterativeWrapper
      rw [p7, hopen2]
      simp only [p1, h2, hi, p4])] at hplus
    rw [p1, p4, q11] at hplus
    generalize hk : x.files.write (param R d c!"iterative_model.json") g = k at *
    have k1 : k (param R d c!"iterative_model.json") = some g := by rw [← hk, write_same]
    have k2 : k (param R d c!"coupled_model.json") = some f := by rw [← hk, write_other _ _ ci, h2]
    cases hrec : (recalculate e.minEig (param R d c!"coupled_model.json") (param R d c!"iterative_model.json") k).1 with
    | error er =>
      simp only [andThen, onFiles, hrec] at hplus
      rw [← hplus] at hok
      cases hok
    | ok u =>
      obtain ⟨-, -, -, d', f', wf, hA, hN, hoth, hent, hosc⟩ := C11_reweighted_energies e.minEig
        (param R d c!"coupled_model.json") (param R d c!"iterative_model.json") k i v
        ((load_congr k1).trans hgi) (hl.load k2) hw hrec
      simp only [andThen, onFiles, hrec, copyFile, f'] at hplus
      rw [← hplus]
      refine ⟨d', ?_, write_same _ _ _, ?_, wf, hA, hN, hent, hosc⟩
      · exact (write_other _ _ (c 11)).trans f'
      · exact (write_other _ _ (c0 11)).trans ((hoth _ ci).trans k2)

/-- C128: the preparation succeeds when its first part does, the iterative method makes a model `g` with as many modes
as the input, both have frequencies, and neither has quadratic terms above `1e-8`. -/
theorem C128_succeeds_partial (e : Env β) (name : Str) (d : Nat) (hv : paper.assertId d = .ok ())
    (hdef : RootOk paper.serverRoot (e.absolute paper.serverRoot))
    (hh : e.host = c!"nlogn" ∨ e.host = c!"feynman") (hsd : e.isDir paper.serverRoot = true)
    (w : World β) {f : File β} {v : Verified β .coupled}
    (hf : e.inputs (inputPath e c!"input_json" (name ++ c!"_" ++ natStr (d % 10) ++ c!".json")) = some f)
    (hl : Reads f v) (hfirst : (preparePaperModel e none name d w).1 = .ok ())
    (g : File β) (hi : e.iterate (some f) = .ok (some g)) {i : Verified β .diagonal}
    (hgi : ReadsSampling g i) (hN : i.N = v.N)
    (hw : ∃ j, entry i.model.toDict .w [j] ≠ 0) (hw' : ∃ j, entry v.model.toDict .w [j] ≠ 0)
    (hq : ∀ idx, |entry i.model.toDict .G2 idx| ≤ 1 / 10 ^ 8)
    (hq' : ∀ idx, |entry v.model.toDict .G2 idx| ≤ 1 / 10 ^ 8) :
    (preparePaperPlus e none name d w).1 = .ok () := by
  obtain ⟨-, h2, -⟩ := paper_first hdef e name d hv hsd w hf hl
  obtain ⟨p1, p2, p3, p4, p5, p6, p7⟩ := init_paths hdef d 0
  have hopen := open_paper_server e d hv hh hsd
  have hsame : preparePaperModel e (some (paper.serverRoot, e.absolute paper.serverRoot)) name d w =
      preparePaperModel e none name d w := by
    unfold preparePaperModel
    rw [hopen, open_given hv hsd]
  rw [hsame] at h2
  generalize hpre : preparePaperModel e none name d w = pre at *
  obtain ⟨o, x⟩ := pre
  simp only at hfirst h2
  subst hfirst
  unfold preparePaperPlus
  rw [andThen_ok hpre, hopen]
  simp only [setupWeightCorrected]
  have ci : param (e.absolute paper.serverRoot) d c!"coupled_model.json" ≠
      param (e.absolute paper.serverRoot) d c!"iterative_model.json" :=
    param_ne _ _ _ _ 12 (by decide) (by decide) (by decide)
  rw [andThen_ok (x := ⟨x.files.write (param (e.absolute paper.serverRoot) d c!"iterative_model.json") g, x.mats⟩) (by
    unfold iterativeWrapper
    rw [p7, hopen]
    simp only [p1, h2, hi, p4])]
  rw [p1, p4]
  have hrec := C11_succeeds e.minEig (param (e.absolute paper.serverRoot) d c!"coupled_model.json")
    (param (e.absolute paper.serverRoot) d c!"iterative_model.json")
    (x.files.write (param (e.absolute paper.serverRoot) d c!"iterative_model.json") g) i v
    ((load_congr (write_same _ _ _)).trans hgi) (hl.load ((write_other _ _ ci).trans h2)) hN hw hw' hq hq'
  have hfile : ∃ y, (recalculate e.minEig (param (e.absolute paper.serverRoot) d c!"coupled_model.json")
      (param (e.absolute paper.serverRoot) d c!"iterative_model.json")
      (x.files.write (param (e.absolute paper.serverRoot) d c!"iterative_model.json") g)).2
      (param (e.absolute paper.serverRoot) d c!"iterative_model.json") = some y := by
    unfold recalculate
    split
    · exact ⟨g, write_same _ _ _⟩
    · unfold save
      split
      · exact ⟨g, write_same _ _ _⟩
      · exact ⟨_, write_same _ _ _⟩
  obtain ⟨y, hy⟩ := hfile
  simp only [andThen, onFiles, hrec, copyFile, hy]

/-- C127 applies: a data set of the paper with two alternate sampling models. -/
example : ∃ (e : Env ℚ) (w : World ℚ), altFile e.scriptDir c!"displaced" 21 0 ∈ e.listing ∧
    altFile e.scriptDir c!"displaced" 21 11 ∈ e.listing ∧
    (preparePaperModel e (some (c!"/tmp/run/", c!"/tmp/run")) c!"displaced" 21 w).1 = .ok () ∧
    (preparePaperModel e (some (c!"/tmp/run/", c!"/tmp/run")) c!"displaced" 21 w).2.files (rhoFile c!"/tmp/run" 21 11) =
      e.inputs (altFile e.scriptDir c!"displaced" 21 11) := by
  obtain ⟨v, hl, -⟩ := input_reads
  let e := machine none c!"/code" [altFile c!"/code" c!"displaced" 21 0, altFile c!"/code" c!"displaced" 21 11,
    c!"/code/alternate_rhos/displaced_D2_R1.json"]
  have hroot : RootOk c!"/tmp/run/" c!"/tmp/run" := ⟨by decide, by decide, .inr (by decide)⟩
  have := C127_models_partial hroot e c!"displaced" 21 rfl rfl ⟨fun _ => none, fun _ => none⟩ rfl hl
    (show ¬ c!"_R" <:+: altStem c!"/code" c!"displaced" 21 by decide +kernel)
    (show '*' ∉ altStem c!"/code" c!"displaced" 21 by decide +kernel) (fun _ _ => rfl) (by
      intro p hp hg
      have hp' : p = altFile c!"/code" c!"displaced" 21 0 ∨ p = altFile c!"/code" c!"displaced" 21 11 ∨
          p = c!"/code/alternate_rhos/displaced_D2_R1.json" := by simpa [e, machine] using hp
      rcases hp' with h | h | h
      · exact ⟨0, h⟩
      · exact ⟨11, h⟩
      · rw [h] at hg
        have : globMatch (altStem c!"/code" c!"displaced" 21 ++ c!"_R*.json")
            c!"/code/alternate_rhos/displaced_D2_R1.json" = false := by decide +kernel
        exact absurd (hg.symm.trans this) (by decide))
  exact ⟨e, ⟨fun _ => none, fun _ => none⟩, List.mem_cons_self .., List.mem_cons_of_mem _ (List.mem_cons_self ..), this.1,
    this.2.2.2.1 11 (List.mem_cons_of_mem _ (List.mem_cons_self ..))⟩

/-- `C127_path_refuted` and `C128_other_root_refuted` apply. -/
example : ∃ (e e' : Env ℚ) (w : World ℚ),
    (preparePaperModel e (some (c!"/tmp/run/", c!"/tmp/run")) c!"displaced" 21 w).1 = .error .value ∧
    (preparePaperPlus e' (some (c!"/tmp/run/", c!"/tmp/run")) c!"displaced" 21 w).1 = .error .os := by
  obtain ⟨v, hl, -⟩ := input_reads
  have hroot : RootOk c!"/tmp/run/" c!"/tmp/run" := ⟨by decide, by decide, .inr (by decide)⟩
  let e := machine none c!"/data/my_Runs/paper" [altFile c!"/data/my_Runs/paper" c!"displaced" 21 1]
  let e' := machine (some (toFile sampling.toDict)) c!"/code" []
  have hfirst := (C127_models_partial hroot e' c!"displaced" 21 rfl rfl ⟨fun _ => none, fun _ => none⟩ rfl hl
    (show ¬ c!"_R" <:+: altStem c!"/code" c!"displaced" 21 by decide +kernel)
    (show '*' ∉ altStem c!"/code" c!"displaced" 21 by decide +kernel) (fun _ _ => rfl)
    (fun p hp => by cases hp)).1
  exact ⟨e, e', ⟨fun _ => none, fun _ => none⟩, (C127_path_refuted hroot e rfl rfl rfl _ rfl hl).1,
    (C128_other_root_refuted hroot e' c!"displaced" 21 rfl rfl (server_ok _ _ _).2 (.inl rfl) rfl (by
      change c!"/tmp/run" ≠ paper.serverRoot.dropLast; decide) _ rfl hl hfirst _ (fun _ => rfl) rfl).1⟩

/-- C128 applies: the preparation succeeds. -/
example : ∃ (e : Env ℚ) (w : World ℚ) (g : File ℚ) (i : Verified ℚ .diagonal), ReadsSampling g i ∧
    (∀ o, e.iterate o = .ok (some g)) ∧ (∀ j : Fin i.N, 0 < entry i.model.toDict .w [j.1]) ∧
    (preparePaperPlus e none c!"displaced" 21 w).1 = .ok () := by
  obtain ⟨v, hl, hA, hN, -, -, hent, -⟩ := input_reads
  obtain ⟨i, hgi, hiA, hiN, hi⟩ := sampling_reads
  let e := machine (some (toFile sampling.toDict)) c!"/code" []
  have hdef := (server_ok (some (toFile sampling.toDict)) c!"/code" []).2
  have hfirst := (C127_models_partial hdef e c!"displaced" 21 rfl rfl ⟨fun _ => none, fun _ => none⟩ rfl hl
    (show ¬ c!"_R" <:+: altStem c!"/code" c!"displaced" 21 by decide +kernel)
    (show '*' ∉ altStem c!"/code" c!"displaced" 21 by decide +kernel) (fun _ _ => rfl)
    (fun p hp => by cases hp)).1
  have hsame : preparePaperModel e (some (paper.serverRoot, e.absolute paper.serverRoot)) c!"displaced" 21
      ⟨fun _ => none, fun _ => none⟩ = preparePaperModel e none c!"displaced" 21 ⟨fun _ => none, fun _ => none⟩ := by
    unfold preparePaperModel
    rw [open_paper_server e 21 rfl (.inl rfl) rfl, open_given rfl rfl]
  rw [hsame] at hfirst
  have h0 : ∀ idx, entry sampling.toDict .G2 idx = 0 := fun idx => by rw [entry_toDict]; exact at_zeros _ _
  refine ⟨e, ⟨fun _ => none, fun _ => none⟩, _, i, hgi, fun _ => rfl, fun j => ?_, ?_⟩
  · obtain ⟨j, hj⟩ := j
    obtain rfl : j = 0 := by omega
    rw [hi]
    simp only [w_one sampling rfl]
    exact zero_lt_one
  · refine C128_succeeds_partial e c!"displaced" 21 rfl hdef (.inl rfl) rfl _ rfl hl hfirst _ rfl hgi (hiN.trans hN.symm)
      ⟨0, ?_⟩ ⟨0, ?_⟩ (fun idx => ?_) (fun idx => ?_)
    · rw [hi, w_one sampling rfl]; norm_num
    · rw [hent, w_one input rfl]; norm_num
    · rw [hi, h0]; norm_num
    · rw [hent, input_other (by decide)]; norm_num

/-! ### Preparations that are refused -/

section
variable {α : Type} [Field α] [DecidableEq α] [AllClose α]

theorem open_bad_id {p : Project} {e : Env α} {d : Nat} (h : p.assertId d = .error .assertion)
    (root : Option (Str × Str)) : openData p e root d = .error .assertion := by
  simp [openData, h, bind, Except.bind]

theorem open_bad_root {p : Project} {e : Env α} {d : Nat} (h : p.assertId d = .ok ()) {root absRoot : Str}
    (hd : e.isDir root = false) : openData p e (some (root, absRoot)) d = .error .assertion := by
  simp [openData, h, hd, bind, Except.bind]

theorem open_bad_host {p : Project} {e : Env α} {d : Nat} (h : p.assertId d = .ok ()) (h1 : e.host ≠ c!"nlogn")
    (h2 : e.host ≠ c!"feynman") : openData p e none d = .error .exception := by
  simp [openData, h, Project.chooseRoot, h1, h2, bind, Except.bind]

/-- C125 and C126, the exceptions: an unknown data set, a root that is not a directory, an unknown host without a
root, and a missing input file are refused and leave everything as it was. -/
theorem C125_refused (e : Env α) (name : Str) (d : Nat) (w : World α) :
    ((¬ ∃ k j, 1 ≤ k ∧ k ≤ 3 ∧ 1 ≤ j ∧ j ≤ 5 ∧ d = 10 * k + j) →
      ∀ root, prepareModel e root name d w = (.error .assertion, w)) ∧
    ∀ k j, 1 ≤ k → k ≤ 3 → 1 ≤ j → j ≤ 5 → d = 10 * k + j →
      (∀ root absRoot, e.isDir root = false →
        prepareModel e (some (root, absRoot)) name d w = (.error .assertion, w)) ∧
      (e.host ≠ c!"nlogn" → e.host ≠ c!"feynman" → prepareModel e none name d w = (.error .exception, w)) ∧
      (e.inputs (inputPath e c!"input_json" (c!"model_" ++ name ++ c!".json")) = none →
        ∀ root absRoot, e.isDir root = true →
          prepareModel e (some (root, absRoot)) name d w = (.error .os, w)) := by
  refine ⟨fun h root => ?_, fun k j h1 h2 h3 h4 h5 => ?_⟩
  · rw [prepareModel, open_bad_id ((Pibronic.Props.Examples.C121_artificial d).2 h).1]
  · have hid := ((Pibronic.Props.Examples.C121_artificial d).1 k j h1 h2 h3 h4 h5).1
    refine ⟨fun root absRoot hd => ?_, fun g1 g2 => ?_, fun hi root absRoot hd => ?_⟩
    · rw [prepareModel, open_bad_root hid hd]
    · rw [prepareModel, open_bad_host hid g1 g2]
    · rw [prepareModel, open_given hid hd]
      simp only [andThen, copyInputJson, copyInput, hi]

/-- C127 and C128, the exceptions, as for the artificial systems. -/
theorem C127_refused (e : Env α) (name : Str) (d : Nat) (w : World α) :
    ((¬ ∃ k j, 1 ≤ k ∧ k ≤ 4 ∧ 1 ≤ j ∧ j ≤ 6 ∧ d = 10 * k + j) →
      ∀ root, preparePaperModel e root name d w = (.error .assertion, w) ∧
        preparePaperPlus e root name d w = (.error .assertion, w)) ∧
    ∀ k j, 1 ≤ k → k ≤ 4 → 1 ≤ j → j ≤ 6 → d = 10 * k + j →
      (∀ root absRoot, e.isDir root = false →
        preparePaperModel e (some (root, absRoot)) name d w = (.error .assertion, w) ∧
        preparePaperPlus e (some (root, absRoot)) name d w = (.error .assertion, w)) ∧
      (e.host ≠ c!"nlogn" → e.host ≠ c!"feynman" →
        preparePaperModel e none name d w = (.error .exception, w) ∧
        preparePaperPlus e none name d w = (.error .exception, w)) ∧
      (e.inputs (inputPath e c!"input_json" (name ++ c!"_" ++ natStr (d % 10) ++ c!".json")) = none →
        ∀ root absRoot, e.isDir root = true →
          preparePaperModel e (some (root, absRoot)) name d w = (.error .os, w) ∧
          preparePaperPlus e (some (root, absRoot)) name d w = (.error .os, w)) := by
  have plus : ∀ root err, preparePaperModel e root name d w = (.error err, w) →
      preparePaperModel e root name d w = (.error err, w) ∧
      preparePaperPlus e root name d w = (.error err, w) := by
    intro root err h
    refine ⟨h, ?_⟩
    rw [preparePaperPlus, andThen, h]
  refine ⟨fun h root => plus _ _ ?_, fun k j h1 h2 h3 h4 h5 => ?_⟩
  · rw [preparePaperModel, open_bad_id ((Pibronic.Props.Examples.C121_paper d).2 h).1]
  · have hid := ((Pibronic.Props.Examples.C121_paper d).1 k j h1 h2 h3 h4 h5).1
    refine ⟨fun root absRoot hd => plus _ _ ?_, fun g1 g2 => plus _ _ ?_, fun hi root absRoot hd => plus _ _ ?_⟩
    · rw [preparePaperModel, open_bad_root hid hd]
    · rw [preparePaperModel, open_bad_host hid g1 g2]
    · have hi' : e.inputs (inputPath e c!"input_json"
          (name ++ c!"_" ++ natStr ((initFS root absRoot d 0).idData % 10) ++ c!".json")) = none := hi
      rw [preparePaperModel, open_given hid hd]
      simp only [andThen, copyInputPaper, copyInput, hi']

/-- A root without an input file. -/
example : ∃ (e : Env α) (w : World α),
    (preparePaperPlus e (some (c!"/tmp/run/", c!"/tmp/run")) c!"displaced" 21 w).1 = .error .os :=
  ⟨⟨c!"x", id, fun _ => true, c!"/code", fun _ => none, [], fun _ _ => .error .value, fun _ => .ok none, fun _ _ => 0⟩,
    ⟨fun _ => none, fun _ => none⟩, by
      rw [(((C127_refused _ c!"displaced" 21 _).2 2 1 (by decide) (by decide) (by decide) (by decide) rfl).2.2 rfl
        c!"/tmp/run/" c!"/tmp/run" rfl).2]⟩

end

end Pibronic.Props.SetupPaper
