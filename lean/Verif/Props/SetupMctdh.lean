import Verif.Model.SetupMctdh
import Verif.Props.OpFile
import Verif.Props.ModelDerived
import Verif.Props.SetupPaper

set_option autoImplicit false
set_option linter.unusedSectionVars false

/-!
C135: a data set that is filled from an operator file of MCTDH holds the model of that file.
-/
namespace Pibronic.Props.SetupMctdh
open Py Pibronic.FileName Pibronic.FileStructure Pibronic.SetupMctdh Pibronic.OpFile
open Pibronic.Spec.OpFile Pibronic.Spec.ModelIO Pibronic.Spec.FileStructure
open Pibronic.Props.Setup Pibronic.Props.FileStructure
open ModelIO hiding Disk

variable {K : Type} [Field K] [LinearOrder K] [IsStrictOrderedRing K]

/-! ### helpers -/

theorem write_twice (k : ModelIO.Disk K) (p : Str) (f : File K) : (k.write p f).write p f = k.write p f := by
  funext q
  simp only [ModelIO.Disk.write]
  split <;> rfl

theorem removeCoupling_twice {vib har : Str} (h : vib ≠ har) (k : ModelIO.Disk K) :
    removeCoupling vib har (removeCoupling vib har k).2 = removeCoupling vib har k := by
  have hload : load .coupled vib (removeCoupling vib har k).2 = load .coupled vib k := by
    have : (removeCoupling vib har k).2 vib = k vib := by
      unfold removeCoupling save
      split
      · rfl
      · split
        · rfl
        · simp [ModelIO.Disk.write, h]
    simp only [load, openFile, this]
  cases hl : load .coupled vib k with
  | error e =>
    have h1 : removeCoupling vib har k = (.error e, k) := by unfold removeCoupling; rw [hl]
    rw [h1]; exact h1
  | ok v =>
    have h1 : ∃ m : Dict K, ∀ k, load .coupled vib k = .ok v →
        removeCoupling vib har k = save .diagonal har m k :=
      ⟨_, fun k hk => by unfold removeCoupling; rw [hk]⟩
    obtain ⟨m, h1⟩ := h1
    rw [h1 _ (hload.trans hl), h1 k hl]
    unfold save
    split
    · rfl
    · simp only [write_twice]

/-- The second harmonic model is the first one. -/
theorem parsePaper_eq (num : Str → Option K) (scriptDir : Str) (s : FS) (hs : s.pathVibModel ≠ s.pathHarModel)
    (name : Str) (w : Store K) (t : Str)
    (h : w.texts (join (join scriptDir c!"input_mctdh") (name ++ c!"_" ++ natStr (s.idData % 10) ++ c!".op")) = some t) :
    let dst := join s.pathEs (name ++ c!"_" ++ natStr (s.idData % 10) ++ c!".op")
    let texts := fun p => if p = dst then some t else w.texts p
    parsePaper num scriptDir s name w =
      match createCoupling num (some t) s.pathVibModel w.files with
      | (.error e, k) => (.error e, ⟨texts, k⟩)
      | (.ok (), k) => ((createBasicDiagonal s.pathVibModel s.pathHarModel s.pathRhoModel k).1,
          ⟨texts, (createBasicDiagonal s.pathVibModel s.pathHarModel s.pathRhoModel k).2⟩) := by
  intro dst texts
  simp only [parsePaper, copyOp, h, if_true]
  cases hc : createCoupling num (some t) s.pathVibModel w.files with
  | mk r k =>
    cases r with
    | error e => rfl
    | ok u =>
      simp only
      have h2 := removeCoupling_twice hs k
      cases hr : removeCoupling s.pathVibModel s.pathHarModel k with
      | mk r k' =>
        rw [hr] at h2
        cases r with
        | error e => simp [createBasicDiagonal, hr, texts, dst]
        | ok u => simp [createBasicDiagonal, hr, h2, texts, dst]

variable {root absRoot : Str}

/-! ### C135 -/

/-- C135: the artificial systems.  When the operator file of the system lies with the program, and its couplings are
such that it is read faithfully (C12), the coupled model of the data set is the model of the file, and no other
model file changes; the directory of the electronic structure gets a copy of the file. -/
theorem C135_artificial_partial (num : Str → Option K) (f : Op) (hf : f.Ok num)
    (hc : ∀ k idx a b s, (k, idx, a, b, s) ∈ f.terms → k ≠ .G1 →
      a < b ∧ b + 1 < f.energies.length ∨ a = b ∧ b + 1 = f.energies.length)
    (hr : RootOk root absRoot) (d : Nat) (scriptDir name : Str) (w : Store K)
    (h : w.texts (join (join scriptDir c!"input_mctdh") (c!"model_" ++ name ++ c!".op")) = some f.text) :
    let out := parseArtificial num scriptDir (initFS root absRoot d 0) name w
    out.1 = .ok () ∧
    (∃ v, load .coupled (param absRoot d c!"coupled_model.json") out.2.files = .ok v ∧ f.Faithful num v.model.toDict) ∧
    (∀ p, p ≠ param absRoot d c!"coupled_model.json" → out.2.files p = w.files p) ∧
    ∀ p, out.2.texts p = if p = join (initFS root absRoot d 0).pathEs (c!"model_" ++ name ++ c!".op") then some f.text
      else w.texts p := by
  obtain ⟨m, hm, hfaith⟩ := OpFile.C12_faithful_partial num f hf hc
  obtain ⟨p1, -⟩ := init_paths hr d 0
  obtain ⟨h1, h2, h3⟩ := OpFile.C12_create num f (param absRoot d c!"coupled_model.json") w.files hm hfaith
  simp only [parseArtificial, copyOp, h, if_true, p1]
  exact ⟨h1, h2, h3, fun p => trivial⟩

/-- C135: the data sets of the paper: besides the coupled model, the harmonic model and the sampling model of `rho_0`
are the diagonal of the model of the file.  (Missing: files in which all energies are zero, C08, and files that are not
read faithfully, C12.) -/
theorem C135_paper_partial (num : Str → Option K) (f : Op) (hf : f.Ok num)
    (hc : ∀ k idx a b s, (k, idx, a, b, s) ∈ f.terms → k ≠ .G1 →
      a < b ∧ b + 1 < f.energies.length ∨ a = b ∧ b + 1 = f.energies.length)
    (hE : ∃ v ∈ f.energies, ∃ x, num v.text = some x ∧ x ≠ 0)
    (hr : RootOk root absRoot) (d : Nat) (scriptDir name : Str) (w : Store K)
    (h : w.texts (join (join scriptDir c!"input_mctdh") (name ++ c!"_" ++ natStr (d % 10) ++ c!".op")) = some f.text) :
    let out := parsePaper num scriptDir (initFS root absRoot d 0) name w
    out.1 = .ok () ∧
    (∃ v, load .coupled (param absRoot d c!"coupled_model.json") out.2.files = .ok v ∧ f.Faithful num v.model.toDict ∧
      ∀ p, p = param absRoot d c!"harmonic_model.json" ∨ p = rhoFile absRoot d 0 →
        ∃ v', load .diagonal p out.2.files = .ok v' ∧ v'.model.toDict.A = v.model.toDict.A ∧
          v'.model.toDict.N = v.model.toDict.N ∧
          ∀ k idx a, k ≠ .w → idx.length = order k →
            entry v'.model.toDict k (idx ++ [a]) = entry v.model.toDict k (idx ++ [a, a])) ∧
    ∀ p, p ≠ param absRoot d c!"coupled_model.json" → p ≠ param absRoot d c!"harmonic_model.json" →
      p ≠ rhoFile absRoot d 0 → out.2.files p = w.files p := by
  obtain ⟨m, hm, hfaith⟩ := OpFile.C12_faithful_partial num f hf hc
  obtain ⟨p1, -, p3, -, -, p6, p7⟩ := init_paths hr d 0
  obtain ⟨h1, ⟨v, h2, h2'⟩, h3⟩ := OpFile.C12_create num f (param absRoot d c!"coupled_model.json") w.files hm hfaith
  have n1 : param absRoot d c!"coupled_model.json" ≠ param absRoot d c!"harmonic_model.json" := by
    simp [param]
  have n2 : param absRoot d c!"coupled_model.json" ≠ rhoFile absRoot d 0 := by
    simp [param, rhoFile, rhoDir]
  have hs : createCoupling num (some f.text) (param absRoot d c!"coupled_model.json") w.files
      = save .coupled (param absRoot d c!"coupled_model.json") m w.files := by
    unfold createCoupling; rw [hm]
  have hE' : ∃ a, entry m .E [a, a] ≠ 0 := by
    obtain ⟨v, hv, x, hx, h0⟩ := hE
    obtain ⟨a, ha⟩ := List.getElem?_of_mem hv
    exact ⟨a, by rw [hfaith.energy a v x ha hx]; exact h0⟩
  have hok := h1
  rw [hs] at hok
  obtain ⟨d1, d2⟩ := ModelDerived.C08_derived_files_partial (param absRoot d c!"coupled_model.json")
    (param absRoot d c!"harmonic_model.json") (rhoFile absRoot d 0) m w.files hok hE'
  have other := fun p a b => Setup.createBasicDiagonal_other (param absRoot d c!"coupled_model.json")
    (param absRoot d c!"harmonic_model.json") (rhoFile absRoot d 0)
    (createCoupling num (some f.text) (param absRoot d c!"coupled_model.json") w.files).2 p a b
  have e := parsePaper_eq num scriptDir (initFS root absRoot d 0) (by rw [p1, p3]; exact n1) name w f.text
    (by rw [p7]; exact h)
  simp only [p1, p3, p6] at e
  rw [show createCoupling num (some f.text) (param absRoot d c!"coupled_model.json") w.files
    = (.ok (), (createCoupling num (some f.text) (param absRoot d c!"coupled_model.json") w.files).2)
    from Prod.ext h1 rfl] at e
  simp only at e
  intro out
  have ho : out = _ := e
  rw [ho]
  refine ⟨?_, ⟨v, ?_, h2', fun p hp => ?_⟩, fun p a b c => ?_⟩
  · simp only; rw [hs]; exact d1
  · simp only [load, openFile] at h2 ⊢
    rw [other _ n1 n2]
    exact h2
  · obtain ⟨v', q1, q2, q3, q4⟩ := d2 p hp
    obtain ⟨vv, r1, ⟨r2, r3, r4⟩, -⟩ := ModelFiles.C01_round_trip (param absRoot d c!"coupled_model.json") m w.files hok
    rw [hs, r1] at h2
    cases h2
    refine ⟨v', ?_, q2.trans r2.symm, q3.trans r3.symm, fun k idx a hk hl => ?_⟩
    · simp only; rw [hs]; exact q1
    · rw [q4 k idx a hk hl, r4]
  · simp only
    rw [other p b c, h3 p a]

/-- C135: without the operator file there is an `OSError`, and nothing is written. -/
theorem C135_missing (num : Str → Option K) (s : FS) (scriptDir name : Str) (w : Store K) :
    (w.texts (join (join scriptDir c!"input_mctdh") (c!"model_" ++ name ++ c!".op")) = none →
      parseArtificial num scriptDir s name w = (.error .os, w)) ∧
    (w.texts (join (join scriptDir c!"input_mctdh") (name ++ c!"_" ++ natStr (s.idData % 10) ++ c!".op")) = none →
      parsePaper num scriptDir s name w = (.error .os, w)) := by
  constructor <;> intro h <;> simp only [parseArtificial, parsePaper, copyOp, h]

/-- C135: a file that cannot be read leaves all model files as they are; its copy stays. -/
theorem C135_unreadable (num : Str → Option K) (s : FS) (hs : s.pathVibModel ≠ s.pathHarModel) (scriptDir name t : Str)
    (w : Store K) (e : Err) (he : readOp num (some t) = .error e)
    (h : w.texts (join (join scriptDir c!"input_mctdh") (name ++ c!"_" ++ natStr (s.idData % 10) ++ c!".op")) = some t) :
    (parsePaper num scriptDir s name w).1 = .error e ∧ (parsePaper num scriptDir s name w).2.files = w.files ∧
    (parsePaper num scriptDir s name w).2.texts
      (join s.pathEs (name ++ c!"_" ++ natStr (s.idData % 10) ++ c!".op")) = some t := by
  rw [parsePaper_eq num scriptDir s hs name w t h]
  simp [createCoupling, he]

/-- C135: either way works: when the model file that lies with the program is the one that is written from the
operator file, both ways end alike and leave the same model files. -/
theorem C135_either_way (num : Str → Option K) (e : Pibronic.Setup.Env K) (s : FS)
    (hs : s.pathVibModel ≠ s.pathHarModel) (name t : Str) (u : Pibronic.Setup.World K) (texts : Str → Option Str)
    (m : Dict K) (hm : readOp num (some t) = .ok m) (hw : WellFormed .coupled m)
    (hop : texts (join (join e.scriptDir c!"input_mctdh") (name ++ c!"_" ++ natStr (s.idData % 10) ++ c!".op")) = some t)
    (hjson : e.inputs (join (join e.scriptDir c!"input_json") (name ++ c!"_" ++ natStr (s.idData % 10) ++ c!".json"))
      = some (toFile m)) :
    (parsePaper num e.scriptDir s name ⟨texts, u.files⟩).1 = (Pibronic.Setup.copyInputPaper e s name u).1 ∧
    (parsePaper num e.scriptDir s name ⟨texts, u.files⟩).2.files
      = (Pibronic.Setup.copyInputPaper e s name u).2.files := by
  have hc : createCoupling num (some t) s.pathVibModel u.files
      = (.ok (), u.files.write s.pathVibModel (toFile m)) := by
    have := (ModelFiles.C03_accepted_iff_wellFormed .coupled s.pathVibModel m u.files).mpr hw
    unfold createCoupling
    rw [hm]
    simp only
    unfold save at this ⊢
    split at this
    · cases this
    · rfl
  rw [parsePaper_eq num e.scriptDir s hs name ⟨texts, u.files⟩ t hop]
  simp only [hc, Pibronic.Setup.copyInputPaper, Pibronic.Setup.andThen, Pibronic.Setup.copyInput,
    Pibronic.Setup.inputPath, hjson, Pibronic.Setup.onFiles, and_self]

/-! ### Concrete cases -/

/-- A file of three surfaces with a quadratic coupling, for the data set 21 of `superimposed`. -/
example : ∃ (num : Str → Option ℚ) (f : Op), f.offDiagonal ≠ [] ∧
    let w : Store ℚ := ⟨fun p => if p = c!"/ex/input_mctdh/superimposed_1.op" then some f.text else none, fun _ => none⟩
    (parsePaper num c!"/ex" (initFS c!"/tmp/run" c!"/tmp/run" 21 0) c!"superimposed" w).1 = .ok () := by
  obtain ⟨num, f, h1, h2, h3, h4⟩ := OpFile.faithful_file
  refine ⟨num, f, h4, ?_⟩
  intro w
  exact (C135_paper_partial num f h1 h2 h3 ⟨by decide, by decide, .inl rfl⟩ 21 c!"/ex" c!"superimposed" w
    (if_pos (by decide +kernel))).1

/-- the same file as that of the artificial system `3x2` -/
example : ∃ (num : Str → Option ℚ) (f : Op), f.offDiagonal ≠ [] ∧
    let w : Store ℚ := ⟨fun p => if p = c!"/ex/input_mctdh/model_3x2.op" then some f.text else none, fun _ => none⟩
    (parseArtificial num c!"/ex" (initFS c!"/tmp/run" c!"/tmp/run" 21 0) c!"3x2" w).1 = .ok () := by
  obtain ⟨num, f, h1, h2, h3, h4⟩ := OpFile.faithful_file
  refine ⟨num, f, h4, ?_⟩
  intro w
  have hp : join (join c!"/ex" c!"input_mctdh") (c!"model_" ++ c!"3x2" ++ c!".op")
      = c!"/ex/input_mctdh/model_3x2.op" := by decide +kernel
  exact (C135_artificial_partial num f h1 h2 ⟨by decide, by decide, .inl rfl⟩ 21 c!"/ex" c!"3x2" w
    (by simp only [w]; exact if_pos hp)).1

/-- an empty file is not read -/
example (num : Str → Option ℚ) : readOp num (some []) = .error .value := rfl

/-- the two models of a data set are different files -/
example : (initFS c!"/tmp/run" c!"/tmp/run" 21 0).pathVibModel ≠ (initFS c!"/tmp/run" c!"/tmp/run" 21 0).pathHarModel := by
  decide +kernel

end Pibronic.Props.SetupMctdh
