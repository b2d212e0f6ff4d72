import Verif.Model.ExamplesPrepare
import Verif.Props.Setup
import Verif.Props.SetupPaper

set_option autoImplicit false
set_option linter.unusedSectionVars false

/-!
C131: preparing all data sets of all systems.
-/
namespace Pibronic.Props.ExamplesPrepare
open Py FileName Pibronic.FileStructure Pibronic.Setup Pibronic.Examples Pibronic.ExamplesPrepare
open Spec.FileStructure Spec.ModelIO Pibronic.Props.Setup Pibronic.Props.SetupPaper
open Pibronic.ModelIO hiding Disk
open Pibronic.Props.FileStructure
variable {α : Type}

/-! ### What the statements are about -/

/-- The same model files and the same stored matrices at the paths in `R`. -/
def Same (R : Str → Prop) (w v : World α) : Prop := ∀ p, R p → w.files p = v.files p ∧ w.mats p = v.mats p

/-- What lies in the directory of a data set. -/
def Of (absRoot : Str) (d : Nat) : Str → Prop := Inside (dataDir absRoot d)

/-! ### A preparation reads and writes in the directory of its data set only -/

/-- A statement that reads and writes in `R` only. -/
structure Local (R : Str → Prop) (f : Step α) : Prop where
  outside : ∀ w, Same (fun p => ¬ R p) (f w).2 w
  inside : ∀ w v, Same R w v → (f w).1 = (f v).1 ∧ Same R (f w).2 (f v).2

variable {R : Str → Prop}

theorem Local.andThen {f g : Step α} (hf : Local R f) (hg : Local R g) : Local R (andThen f g) := by
  constructor
  · intro w p hp
    have h1 := hf.outside w p hp
    unfold Pibronic.Setup.andThen
    cases h : f w with
    | mk r x =>
      rw [h] at h1
      cases r with
      | error e => exact h1
      | ok u =>
        have h2 := hg.outside x p hp
        exact ⟨h2.1.trans h1.1, h2.2.trans h1.2⟩
  · intro w v hs
    have h1 := hf.inside w v hs
    unfold Pibronic.Setup.andThen
    cases h : f w with
    | mk r x =>
      cases h' : f v with
      | mk r' y =>
        rw [h, h'] at h1
        obtain ⟨e1, e2⟩ := h1
        simp only at e1 e2
        subst e1
        cases r with
        | error e => exact ⟨rfl, e2⟩
        | ok u => exact hg.inside x y e2

/-- The same for a function of model files. -/
structure LocalF (R : Str → Prop) (f : ModelIO.Disk α → Except Err Unit × ModelIO.Disk α) : Prop where
  outside : ∀ k p, ¬ R p → (f k).2 p = k p
  inside : ∀ k l : ModelIO.Disk α, (∀ p, R p → k p = l p) → (f k).1 = (f l).1 ∧ ∀ p, R p → (f k).2 p = (f l).2 p

theorem LocalF.onFiles {f : ModelIO.Disk α → Except Err Unit × ModelIO.Disk α} (h : LocalF R f) : Local R (onFiles f) :=
  ⟨fun w p hp => ⟨h.outside w.files p hp, rfl⟩, fun w v hs =>
    ⟨(h.inside w.files v.files fun p hp => (hs p hp).1).1, fun p hp =>
      ⟨(h.inside w.files v.files fun p hp => (hs p hp).1).2 p hp, (hs p hp).2⟩⟩⟩

theorem write_inside {k l : ModelIO.Disk α} (h : ∀ p, R p → k p = l p) (q : Str) (f : File α) :
    ∀ p, R p → k.write q f p = l.write q f p := by
  intro p hp
  unfold ModelIO.Disk.write
  split
  · rfl
  · exact h p hp

theorem copyInput_local (e : Env α) (src : Str) {dst : Str} (hd : R dst) : Local R (copyInput e src dst) := by
  constructor
  · intro w p hp
    unfold copyInput
    cases e.inputs src with
    | none => exact ⟨rfl, rfl⟩
    | some f => exact ⟨write_other _ _ (fun hc => hp (hc ▸ hd)), rfl⟩
  · intro w v hs
    unfold copyInput
    cases e.inputs src with
    | none => exact ⟨rfl, hs⟩
    | some f => exact ⟨rfl, fun p hp => ⟨write_inside (fun p hp => (hs p hp).1) _ _ p hp, (hs p hp).2⟩⟩

theorem copyFile_local {src dst : Str} (hs : R src) (hd : R dst) : LocalF R (copyFile (α := α) src dst) := by
  constructor
  · intro k p hp
    exact copyFile_other _ _ _ _ fun hc => hp (hc ▸ hd)
  · intro k l h
    unfold copyFile
    rw [h src hs]
    cases l src with
    | none => exact ⟨rfl, h⟩
    | some f => exact ⟨rfl, write_inside h _ _⟩

theorem iterativeWrapper_local (pr : Project) (e : Env α) (d : Nat)
    (h : ∀ t, openData pr e none d = .ok t → R t.pathVibModel ∧ R t.pathIterModel) :
    Local R (iterativeWrapper pr e none d) := by
  unfold iterativeWrapper
  cases ho : openData pr e none d with
  | error x => exact ⟨fun w p hp => ⟨rfl, rfl⟩, fun w v hs => ⟨rfl, hs⟩⟩
  | ok s =>
    obtain ⟨h1, h2⟩ := h s ho
    constructor
    · intro w p hp
      simp only
      split
      · exact ⟨rfl, rfl⟩
      · exact ⟨rfl, rfl⟩
      · exact ⟨write_other _ _ (fun hc => hp (hc ▸ h2)), rfl⟩
    · intro w v hs
      simp only [(hs _ h1).1]
      split
      · exact ⟨rfl, hs⟩
      · exact ⟨rfl, hs⟩
      · exact ⟨rfl, fun p hp => ⟨write_inside (fun p hp => (hs p hp).1) _ _ p hp, (hs p hp).2⟩⟩

section
variable [Field α] [DecidableEq α] [AllClose α]

theorem load_congr (kind : Kind) (path : Str) {k l : ModelIO.Disk α} (h : k path = l path) :
    load kind path k = load kind path l := by
  unfold load openFile
  rw [h]

theorem save_local (kind : Kind) {path : Str} (d : Dict α) (hp : R path) : LocalF R (save kind path d) := by
  constructor
  · intro k p hp'
    exact save_other _ _ _ _ _ fun hc => hp' (hc ▸ hp)
  · intro k l h
    unfold save
    cases verify kind d with
    | error x => exact ⟨rfl, h⟩
    | ok v => exact ⟨rfl, write_inside h _ _⟩

theorem removeCoupling_local {src dst : Str} (hs : R src) (hd : R dst) :
    LocalF R (removeCoupling (α := α) src dst) := by
  constructor
  · intro k p hp
    exact removeCoupling_other _ _ _ _ fun hc => hp (hc ▸ hd)
  · intro k l h
    unfold removeCoupling
    rw [load_congr .coupled src (h src hs)]
    cases load .coupled src l with
    | error x => exact ⟨rfl, h⟩
    | ok v => exact (save_local .diagonal _ hd).inside k l h

theorem createBasicDiagonal_local {vib har rho : Str} (hv : R vib) (hh : R har) (hr : R rho) :
    LocalF R (createBasicDiagonal (α := α) vib har rho) := by
  constructor
  · intro k p hp
    exact createBasicDiagonal_other _ _ _ _ _ (fun hc => hp (hc ▸ hh)) fun hc => hp (hc ▸ hr)
  · intro k l h
    have h1 := (removeCoupling_local (α := α) hv hh).inside k l h
    unfold createBasicDiagonal
    cases e1 : removeCoupling vib har k with
    | mk r x =>
      cases e2 : removeCoupling vib har l with
      | mk r' y =>
        rw [e1, e2] at h1
        obtain ⟨a, b⟩ := h1
        simp only at a b
        subst a
        cases r with
        | error e => exact ⟨rfl, b⟩
        | ok u => exact (copyFile_local hh hr).inside x y b

theorem copyRhos_local (e : Env α) (s : FS) (hs : ∀ r, R (atRho s r).pathRhoModel) (L : List Str) :
    Local R (copyRhos e s L) := by
  induction L with
  | nil => exact ⟨fun w p hp => ⟨rfl, rfl⟩, fun w v hs => ⟨rfl, hs⟩⟩
  | cons f L ih =>
    unfold copyRhos
    cases rhoOfFile f with
    | error x => exact ⟨fun w p hp => ⟨rfl, rfl⟩, fun w v hs => ⟨rfl, hs⟩⟩
    | ok r => exact (copyInput_local e f (hs r)).andThen ih

theorem recalculate_local (me : (A : Nat) → Tensor α [A, A] → α) {vib path : Str} (hv : R vib) (hp : R path) :
    LocalF R (recalculate me vib path) := by
  constructor
  · intro k p hp'
    exact recalculate_other _ _ _ _ _ fun hc => hp' (hc ▸ hp)
  · intro k l h
    unfold recalculate
    rw [load_congr .diagonal path (h _ hp), load_congr .coupled vib (h _ hv)]
    split
    · exact ⟨rfl, h⟩
    · exact (save_local .diagonal _ hp).inside k l h

theorem replaceEnergies_local (e : Env α) {vib iter rho : Str} (hv : R vib) (hi : R iter) (hr : R rho) :
    LocalF R (replaceEnergies e vib iter rho) := by
  constructor
  · intro k p hp'
    exact replaceEnergies_other _ _ _ _ _ _ fun hc => hp' (hc ▸ hr)
  · intro k l h
    unfold replaceEnergies
    rw [load_congr .diagonal iter (h _ hi), load_congr .coupled vib (h _ hv), load_congr .diagonal rho (h _ hr)]
    split
    · exact ⟨rfl, h⟩
    · exact (save_local .diagonal _ hr).inside k l h

theorem unitary_local (e : Env α) (s : FS) (b : Bool) (hv : R s.pathVibModel) (ho : R s.pathOrigModel)
    (hm : R s.pathOrthoMat) : Local R (unitaryTransformation e s b) := by
  constructor
  · intro w p hp
    refine ⟨unitary_only e s b w p fun hc => hp ?_, ?_⟩
    · rcases hc with rfl | rfl
      · exact hv
      · exact ho
    · unfold unitaryTransformation
      simp only
      split
      · rfl
      · exact if_neg fun hc : p = s.pathOrthoMat => hp (hc ▸ hm)
  · intro w v hs
    have hc : ∀ arg, createFake s.pathVibModel s.pathOrigModel (v.mats s.pathOrthoMat) arg w.files =
        createFake s.pathVibModel s.pathOrigModel (v.mats s.pathOrthoMat) arg v.files := by
      intro arg
      unfold createFake
      rw [load_congr .coupled s.pathVibModel (hs _ hv).1, (hs _ hv).1]
    unfold unitaryTransformation
    simp only [(hs _ hm).2, hc]
    split
    · exact ⟨rfl, hs⟩
    · next ops U h =>
      simp only [bind, Except.bind] at h
      split at h
      · cases h
      · obtain ⟨old, v', u, -, -, -, -, -, -, hops⟩ := createFake_ok h
        refine ⟨rfl, fun p hp => ⟨?_, ?_⟩⟩
        · simp only [hops, runOps_four]
          exact write_inside (write_inside (fun p hp => (hs p hp).1) _ _) _ _ p hp
        · simp only
          split
          · rfl
          · exact (hs p hp).2

end

theorem param_inside (absRoot : Str) (d : Nat) (name : Str) : Of absRoot d (param absRoot d name) :=
  ⟨c!"parameters" ++ (c!"/" ++ name), by simp [param, List.append_assoc]⟩

theorem rho_inside (absRoot : Str) (d r : Nat) : Of absRoot d (rhoFile absRoot d r) :=
  ⟨c!"rho_" ++ natStr r ++ c!"/" ++ c!"parameters/sampling_model.json", by simp [rhoFile, rhoDir, List.append_assoc]⟩

section
variable [Field α] [DecidableEq α] [AllClose α]

theorem prepareModel_local (e : Env α) (hr : RootOk artificial.serverRoot (e.absolute artificial.serverRoot))
    (name : Str) (d : Nat) : Local (Of (e.absolute artificial.serverRoot) d) (prepareModel e none name d) := by
  unfold prepareModel
  cases ho : openData artificial e none d with
  | error x => exact ⟨fun w p hp => ⟨rfl, rfl⟩, fun w v hs => ⟨rfl, hs⟩⟩
  | ok s =>
    have hs := (open_none ho).2.2.2
    obtain ⟨p1, p2, p3, p4, p5, p6, p7⟩ := init_paths hr d 0
    rw [← hs] at p1 p2 p3 p4 p5 p6 p7
    have q1 : Of (e.absolute artificial.serverRoot) d s.pathVibModel := by rw [p1]; exact param_inside _ _ _
    have q2 : Of (e.absolute artificial.serverRoot) d s.pathOrigModel := by rw [p2]; exact param_inside _ _ _
    have q3 : Of (e.absolute artificial.serverRoot) d s.pathHarModel := by rw [p3]; exact param_inside _ _ _
    have q4 : Of (e.absolute artificial.serverRoot) d s.pathIterModel := by rw [p4]; exact param_inside _ _ _
    have q5 : Of (e.absolute artificial.serverRoot) d s.pathOrthoMat := by rw [p5]; exact param_inside _ _ _
    have q6 : ∀ r, Of (e.absolute artificial.serverRoot) d (atRho s r).pathRhoModel := fun r => by
      rw [hs, atRho_path hr]; exact rho_inside _ _ _
    refine (copyInput_local e _ q1).andThen ((unitary_local e s false q1 q2 q5).andThen
      (((createBasicDiagonal_local q1 q3 (q6 0)).onFiles.andThen (removeCoupling_local q2 (q6 1)).onFiles).andThen
      ((iterativeWrapper_local artificial e _ fun t ht => ?_).andThen
      ((copyFile_local q4 (q6 2)).onFiles.andThen ((copyFile_local q4 (q6 3)).onFiles.andThen
      ((replaceEnergies_local e q1 q4 (q6 3)).onFiles.andThen ((copyFile_local q4 (q6 4)).onFiles.andThen
      (recalculate_local e.minEig q1 (q6 4)).onFiles)))))))
    rw [p7, ho] at ht
    cases ht
    exact ⟨q1, q4⟩

theorem preparePaper_local (e : Env α) (hr : RootOk paper.serverRoot (e.absolute paper.serverRoot))
    (name : Str) (d : Nat) : Local (Of (e.absolute paper.serverRoot) d) (preparePaperModel e none name d) := by
  unfold preparePaperModel
  cases ho : openData paper e none d with
  | error x => exact ⟨fun w p hp => ⟨rfl, rfl⟩, fun w v hs => ⟨rfl, hs⟩⟩
  | ok s =>
    have hs := (open_none ho).2.2.2
    obtain ⟨p1, p2, p3, p4, p5, p6, p7⟩ := init_paths hr d 0
    rw [← hs] at p1 p2 p3 p4 p5 p6 p7
    have q1 : Of (e.absolute paper.serverRoot) d s.pathVibModel := by rw [p1]; exact param_inside _ _ _
    have q3 : Of (e.absolute paper.serverRoot) d s.pathHarModel := by rw [p3]; exact param_inside _ _ _
    have q6 : Of (e.absolute paper.serverRoot) d s.pathRhoModel := by rw [p6]; exact rho_inside _ _ _
    exact ((copyInput_local e _ q1).andThen (createBasicDiagonal_local q1 q3 q6).onFiles).andThen
      (copyRhos_local e s (fun r => by rw [hs, atRho_path hr]; exact rho_inside _ _ _) _)

end

/-! ### C131 -/

/-- What a run of the preparations of the data sets in `l`, one after the other, must do: `alone name d` is what
preparing this data set does to the files that were there at the beginning.  The data sets before the first one that
fails (all of them, if none does) get what they would get alone, so does the one that fails, whose exception ends the
run, and those after it keep what they had; nothing outside of the directories of these data sets changes. -/
structure AsIfAlone (absRoot : Str) (alone : Str → Nat → Except Err Unit × World α) (l : List (Str × Nat)) (w : World α)
    (res : Except Err Unit × World α) : Prop where
  split : ∃ done rest, l = done ++ rest ∧
    (∀ t ∈ done, (alone t.1 t.2).1 = .ok () ∧ Same (Of absRoot t.2) res.2 (alone t.1 t.2).2) ∧
    ((rest = [] ∧ res.1 = .ok ()) ∨
      ∃ name d later x, rest = (name, d) :: later ∧ (alone name d).1 = .error x ∧ res.1 = .error x ∧
        Same (Of absRoot d) res.2 (alone name d).2 ∧ ∀ t ∈ later, Same (Of absRoot t.2) res.2 w)
  elsewhere : Same (fun p => ∀ t ∈ l, ¬ Of absRoot t.2 p) res.2 w

theorem Same.trans {a b c : World α} (h : Same R a b) (h' : Same R b c) : Same R a c := fun p hp =>
  ⟨(h p hp).1.trans (h' p hp).1, (h p hp).2.trans (h' p hp).2⟩

theorem Same.symm {a b : World α} (h : Same R a b) : Same R b a := fun p hp => ⟨(h p hp).1.symm, (h p hp).2.symm⟩

theorem Local.apart {absRoot : Str} {d d' : Nat} {f : Step α} (hf : Local (Of absRoot d) f) (h : d ≠ d') (w : World α) :
    Same (Of absRoot d') (f w).2 w := fun p hp =>
  hf.outside w p (C18_data_sets_disjoint absRoot d' d h.symm p hp)

theorem each_as_if_alone {absRoot : Str} (one : Str → Nat → Step α) (hl : ∀ name d, Local (Of absRoot d) (one name d))
    (l : List (Str × Nat)) (hn : (l.map (·.2)).Nodup) (w : World α) :
    AsIfAlone absRoot (fun name d => one name d w) l w (prepareEach one l w) := by
  induction l generalizing w with
  | nil => exact ⟨⟨[], [], rfl, by simp, .inl ⟨rfl, rfl⟩⟩, fun p _ => ⟨rfl, rfl⟩⟩
  | cons t l ih =>
    obtain ⟨name, d⟩ := t
    simp only [List.map_cons, List.nodup_cons] at hn
    have hne : ∀ t ∈ l, d ≠ t.2 := fun t ht hc => hn.1 (hc ▸ List.mem_map_of_mem ht)
    cases h : one name d w with
    | mk r x =>
      have h2 : (one name d w).2 = x := by rw [h]
      have hout : ∀ t ∈ l, Same (Of absRoot t.2) x w := fun t ht => h2 ▸ (hl name d).apart (hne t ht) w
      cases r with
      | error err =>
        have e : prepareEach one ((name, d) :: l) w = (.error err, x) := by simp [prepareEach, andThen, h]
        rw [e]
        refine ⟨⟨[], (name, d) :: l, rfl, by simp, .inr ⟨name, d, l, err, rfl, by rw [h], rfl, by
          rw [h]; exact fun p _ => ⟨rfl, rfl⟩, hout⟩⟩, fun p hp => ?_⟩
        exact h2 ▸ (hl name d).outside w p (hp (name, d) (by simp))
      | ok u =>
        have e : prepareEach one ((name, d) :: l) w = prepareEach one l x := by simp [prepareEach, andThen, h]
        rw [e]
        obtain ⟨⟨done, rest, hlist, hdone, hrest⟩, helse⟩ := ih hn.2 x
        have hin : ∀ t ∈ l, (one t.1 t.2 x).1 = (one t.1 t.2 w).1 ∧
            Same (Of absRoot t.2) (one t.1 t.2 x).2 (one t.1 t.2 w).2 := fun t ht =>
          (hl t.1 t.2).inside x w (hout t ht)
        have hd : Same (Of absRoot d) (prepareEach one l x).2 x := fun p hp =>
          helse p fun t ht hc => C18_data_sets_disjoint absRoot d t.2 (hne t ht) p hp hc
        refine ⟨⟨(name, d) :: done, rest, by rw [hlist]; rfl, ?_, ?_⟩, ?_⟩
        · intro t ht
          rcases List.mem_cons.mp ht with rfl | ht
          · exact ⟨by rw [h], by rw [h]; exact hd⟩
          · have hm : t ∈ l := by rw [hlist]; exact List.mem_append_left _ ht
            obtain ⟨a, b⟩ := hdone t ht
            exact ⟨(hin t hm).1 ▸ a, b.trans (hin t hm).2⟩
        · rcases hrest with hrest | ⟨n', d', later, err, h3, h4, h5, h6, h7⟩
          · exact .inl hrest
          · have hm : (n', d') ∈ l := by rw [hlist, h3]; simp
            refine .inr ⟨n', d', later, err, h3, (hin _ hm).1 ▸ h4, h5, h6.trans (hin _ hm).2, fun t ht => ?_⟩
            have hm' : t ∈ l := by rw [hlist, h3]; simp [ht]
            exact (h7 t ht).trans (hout t hm')
        · intro p hp
          have h3 := helse p fun t ht => hp t (List.mem_cons_of_mem _ ht)
          have h4 := h2 ▸ (hl name d).outside w p (hp (name, d) (by simp))
          exact ⟨h3.1.trans h4.1, h3.2.trans h4.2⟩

theorem targets_nodup (p : Project) (h : p = artificial ∨ p = paper) : ((targets p).map (·.2)).Nodup := by
  rcases h with rfl | rfl <;> decide

section
variable [Field α] [DecidableEq α] [AllClose α]

/-- C131: preparing all artificial systems gives every data set what preparing it alone gives it, whatever the random
matrices, the input files and the jobs of the iterative method are; the first failure ends it. -/
theorem C131_artificial (e : Nat → Env α) {absRoot : Str} (hr : RootOk artificial.serverRoot absRoot)
    (ha : ∀ d, (e d).absolute artificial.serverRoot = absRoot) (w : World α) :
    AsIfAlone absRoot (fun name d => prepareModel (e d) none name d w) (targets artificial) w
      (automateArtificial e w) :=
  each_as_if_alone _ (fun name d => by
    have := prepareModel_local (e d) (by rw [ha]; exact hr) name d
    rwa [ha] at this) _ (targets_nodup _ (.inl rfl)) w

/-- C131: the same for the systems of the paper. -/
theorem C131_paper (e : Nat → Env α) {absRoot : Str} (hr : RootOk paper.serverRoot absRoot)
    (ha : ∀ d, (e d).absolute paper.serverRoot = absRoot) (w : World α) :
    AsIfAlone absRoot (fun name d => preparePaperModel (e d) none name d w) (targets paper) w (automatePaper e w) :=
  each_as_if_alone _ (fun name d => by
    have := preparePaper_local (e d) (by rw [ha]; exact hr) name d
    rwa [ha] at this) _ (targets_nodup _ (.inr rfl)) w

end

theorem AsIfAlone.ok {absRoot : Str} {alone : Str → Nat → Except Err Unit × World α} {l : List (Str × Nat)} {w : World α}
    {res : Except Err Unit × World α} (h : AsIfAlone absRoot alone l w res) :
    res.1 = .ok () ↔ ∀ t ∈ l, (alone t.1 t.2).1 = .ok () := by
  obtain ⟨⟨done, rest, hl, hd, hr⟩, -⟩ := h
  rcases hr with ⟨rfl, hr⟩ | ⟨name, d, later, x, rfl, h1, h2, -, -⟩
  · refine ⟨fun _ t ht => (hd t ?_).1, fun _ => hr⟩
    rwa [hl, List.append_nil] at ht
  · refine ⟨fun hc => (by rw [hc] at h2; cases h2), fun hc => ?_⟩
    have := hc (name, d) (by rw [hl]; simp)
    rw [h1] at this
    cases this

theorem AsIfAlone.same {absRoot : Str} {alone : Str → Nat → Except Err Unit × World α} {l : List (Str × Nat)} {w : World α}
    {res : Except Err Unit × World α} (h : AsIfAlone absRoot alone l w res) (hok : res.1 = .ok ()) (t : Str × Nat)
    (ht : t ∈ l) : Same (Of absRoot t.2) res.2 (alone t.1 t.2).2 := by
  obtain ⟨⟨done, rest, hl, hd, hr⟩, -⟩ := h
  rcases hr with ⟨rfl, hr⟩ | ⟨name, d, later, x, rfl, h1, h2, -, -⟩
  · refine (hd t ?_).2
    rwa [hl, List.append_nil] at ht
  · rw [hok] at h2; cases h2

/-! ### Which models are there afterwards -/

/-- No file is removed. -/
def Keeps (f : Step α) : Prop := ∀ w p, w.files p ≠ none → (f w).2.files p ≠ none

/-- When it succeeds, the file is there. -/
def Makes (q : Str) (f : Step α) : Prop := ∀ w, (f w).1 = .ok () → (f w).2.files q ≠ none

theorem Keeps.andThen {f g : Step α} (hf : Keeps f) (hg : Keeps g) : Keeps (andThen f g) := by
  intro w p hp
  have h1 := hf w p hp
  unfold Pibronic.Setup.andThen
  cases h : f w with
  | mk r x =>
    rw [h] at h1
    cases r with
    | error e => exact h1
    | ok u => exact hg x p h1

theorem Makes.first {q : Str} {f g : Step α} (hf : Makes q f) (hg : Keeps g) : Makes q (andThen f g) := by
  intro w hok
  have h1 := hf w
  unfold Pibronic.Setup.andThen at hok ⊢
  cases h : f w with
  | mk r x =>
    rw [h] at h1 hok
    cases r with
    | error e => cases hok
    | ok u => exact hg x q (h1 rfl)

theorem Makes.second {q : Str} {f g : Step α} (hg : Makes q g) : Makes q (andThen f g) := by
  intro w hok
  unfold Pibronic.Setup.andThen at hok ⊢
  cases h : f w with
  | mk r x =>
    rw [h] at hok
    cases r with
    | error e => cases hok
    | ok u => exact hg x hok

theorem write_keeps (k : ModelIO.Disk α) (q : Str) (f : File α) {p : Str} (h : k p ≠ none) : k.write q f p ≠ none := by
  unfold ModelIO.Disk.write
  split
  · exact Option.some_ne_none _
  · exact h

theorem write_makes (k : ModelIO.Disk α) (q : Str) (f : File α) : k.write q f q ≠ none := by
  rw [write_same]; exact Option.some_ne_none _

theorem copyInput_keeps (e : Env α) (src dst : Str) : Keeps (copyInput e src dst) := by
  intro w p hp
  unfold copyInput
  cases e.inputs src with
  | none => exact hp
  | some f => exact write_keeps _ _ _ hp

theorem copyInput_makes (e : Env α) (src dst : Str) : Makes dst (copyInput e src dst) := by
  intro w hok
  unfold copyInput at hok ⊢
  cases h : e.inputs src with
  | none => rw [h] at hok; cases hok
  | some f => exact write_makes _ _ _

theorem copyFile_keeps (src dst : Str) : Keeps (α := α) (onFiles (copyFile src dst)) := by
  intro w p hp
  simp only [onFiles, copyFile]
  cases w.files src with
  | none => exact hp
  | some f => exact write_keeps _ _ _ hp

theorem copyFile_makes (src dst : Str) : Makes (α := α) dst (onFiles (copyFile src dst)) := by
  intro w hok
  simp only [onFiles, copyFile] at hok ⊢
  cases h : w.files src with
  | none => rw [h] at hok; cases hok
  | some f => exact write_makes _ _ _

theorem iterativeWrapper_keeps (pr : Project) (e : Env α) (d : Nat) : Keeps (iterativeWrapper pr e none d) := by
  intro w p hp
  unfold iterativeWrapper
  split
  · exact hp
  · split
    · exact hp
    · exact hp
    · exact write_keeps _ _ _ hp

theorem copyRhos_keeps (e : Env α) (s : FS) (L : List Str) : Keeps (copyRhos e s L) := by
  induction L with
  | nil => exact fun w p hp => hp
  | cons f L ih =>
    unfold copyRhos
    cases rhoOfFile f with
    | error x => exact fun w p hp => hp
    | ok r => exact (copyInput_keeps e _ _).andThen ih

theorem copyRhos_makes (e : Env α) (s : FS) (L : List Str) {f : Str} {r : Nat} (hf : f ∈ L) (hr : rhoOfFile f = .ok r) :
    Makes (atRho s r).pathRhoModel (copyRhos e s L) := by
  induction L with
  | nil => cases hf
  | cons g L ih =>
    unfold copyRhos
    cases hg : rhoOfFile g with
    | error x => intro w hok; simp at hok
    | ok r' =>
      rcases List.mem_cons.mp hf with rfl | hf
      · rw [hr] at hg
        cases hg
        exact (copyInput_makes e _ _).first (copyRhos_keeps e s L)
      · exact (ih hf).second

/-- A sampling model for which there is no file is left as it is. -/
theorem copyRhos_skips {root absRoot : Str} (hr : RootOk root absRoot) (e : Env α) (d : Nat) {r : Nat} (L : List Str)
    (h : ∀ f ∈ L, rhoOfFile f ≠ .ok r) (w : World α) :
    (copyRhos e (initFS root absRoot d 0) L w).2.files (rhoFile absRoot d r) = w.files (rhoFile absRoot d r) := by
  induction L generalizing w with
  | nil => rfl
  | cons f L ih =>
    unfold copyRhos
    cases hg : rhoOfFile f with
    | error x => rfl
    | ok r' =>
      have hne : r ≠ r' := by rintro rfl; exact h f (by simp) hg
      simp only [andThen, copyInput]
      cases e.inputs f with
      | none => rfl
      | some x =>
        simp only [atRho_path hr]
        rw [ih (fun f hf => h f (List.mem_cons_of_mem _ hf))]
        exact write_other _ _ (rhoFile_ne absRoot d hne)

section
variable [Field α] [DecidableEq α] [AllClose α]

theorem save_keeps (kind : Kind) (path : Str) (d : Dict α) (k : ModelIO.Disk α) {p : Str} (h : k p ≠ none) :
    (save kind path d k).2 p ≠ none := by
  unfold save
  split
  · exact h
  · exact write_keeps _ _ _ h

theorem save_makes (kind : Kind) (path : Str) (d : Dict α) (k : ModelIO.Disk α) (h : (save kind path d k).1 = .ok ()) :
    (save kind path d k).2 path ≠ none := by
  unfold save at h ⊢
  split
  · next h' => rw [h'] at h; cases h
  · exact write_makes _ _ _

theorem removeCoupling_keeps (src dst : Str) : Keeps (α := α) (onFiles (removeCoupling src dst)) := by
  intro w p hp
  simp only [onFiles, removeCoupling]
  split
  · exact hp
  · exact save_keeps _ _ _ _ hp

theorem removeCoupling_makes (src dst : Str) : Makes (α := α) dst (onFiles (removeCoupling src dst)) := by
  intro w hok
  simp only [onFiles, removeCoupling] at hok ⊢
  split at hok
  · cases hok
  · exact save_makes _ _ _ _ hok

/-- `create_basic_diagonal_model` as two statements. -/
theorem basic_two (vib har rho : Str) : onFiles (α := α) (createBasicDiagonal vib har rho) =
    andThen (onFiles (removeCoupling vib har)) (onFiles (copyFile har rho)) := by
  funext w
  simp only [onFiles, createBasicDiagonal, andThen]
  cases h : removeCoupling vib har w.files with
  | mk r k => cases r <;> rfl

theorem recalculate_keeps (me : (A : Nat) → Tensor α [A, A] → α) (vib path : Str) :
    Keeps (onFiles (recalculate me vib path)) := by
  intro w p hp
  simp only [onFiles, recalculate]
  split
  · exact hp
  · exact save_keeps _ _ _ _ hp

theorem replaceEnergies_keeps (e : Env α) (vib iter rho : Str) : Keeps (onFiles (replaceEnergies e vib iter rho)) := by
  intro w p hp
  simp only [onFiles, replaceEnergies]
  split
  · exact hp
  · exact save_keeps _ _ _ _ hp

theorem unitary_keeps (e : Env α) (s : FS) (b : Bool) : Keeps (unitaryTransformation e s b) := by
  intro w p hp
  unfold unitaryTransformation
  simp only
  split
  · exact hp
  · next ops U h =>
    simp only [bind, Except.bind] at h
    split at h
    · cases h
    · obtain ⟨old, v', u, -, -, -, -, -, -, hops⟩ := createFake_ok h
      simp only [hops, runOps_four]
      exact write_keeps _ _ _ (write_keeps _ _ _ hp)

/-- A successful preparation leaves the coupled model and the five sampling models. -/
theorem prepareModel_makes (e : Env α) (hr : RootOk artificial.serverRoot (e.absolute artificial.serverRoot))
    (name : Str) (d : Nat) (w : World α) (hok : (prepareModel e none name d w).1 = .ok ()) :
    (prepareModel e none name d w).2.files (param (e.absolute artificial.serverRoot) d c!"coupled_model.json") ≠ none ∧
    ∀ r < 5, (prepareModel e none name d w).2.files (rhoFile (e.absolute artificial.serverRoot) d r) ≠ none := by
  unfold prepareModel at hok ⊢
  cases ho : openData artificial e none d with
  | error x => rw [ho] at hok; cases hok
  | ok s =>
    rw [ho] at hok
    have hs := (open_none ho).2.2.2
    have p1 : s.pathVibModel = _ := hs ▸ (init_paths hr d 0).1
    have p6 : ∀ r, (atRho s r).pathRhoModel = rhoFile (e.absolute artificial.serverRoot) d r := fun r => by
      rw [hs, atRho_path hr]
    have k4 := (copyFile_keeps (α := α) s.pathIterModel (atRho s 4).pathRhoModel).andThen
      (recalculate_keeps e.minEig s.pathVibModel (atRho s 4).pathRhoModel)
    have k3 := (copyFile_keeps (α := α) s.pathIterModel (atRho s 3).pathRhoModel).andThen
      ((replaceEnergies_keeps e s.pathVibModel s.pathIterModel (atRho s 3).pathRhoModel).andThen k4)
    have k2 := (iterativeWrapper_keeps artificial e s.idData).andThen
      ((copyFile_keeps (α := α) s.pathIterModel (atRho s 2).pathRhoModel).andThen k3)
    have kb : Keeps (basicDistributions (α := α) s) := by
      unfold basicDistributions
      rw [basic_two]
      exact ((removeCoupling_keeps _ _).andThen (copyFile_keeps _ _)).andThen (removeCoupling_keeps _ _)
    simp only at hok ⊢
    refine ⟨?_, ?_⟩
    · rw [← p1]
      exact ((copyInput_makes e _ _).first ((unitary_keeps e s false).andThen (kb.andThen k2))) w hok
    · intro r hr5
      rw [← p6]
      refine Makes.second (Makes.second ?_) w hok
      have hcases : r = 0 ∨ r = 1 ∨ r = 2 ∨ r = 3 ∨ r = 4 := by omega
      rcases hcases with rfl | rfl | rfl | rfl | rfl
      · refine Makes.first ?_ k2
        unfold basicDistributions
        rw [basic_two]
        exact (copyFile_makes _ _).second.first (removeCoupling_keeps _ _)
      · exact (removeCoupling_makes _ _).second.first k2
      · exact ((copyFile_makes _ _).first k3).second.second
      · exact ((copyFile_makes _ _).first ((replaceEnergies_keeps _ _ _ _).andThen k4)).second.second.second
      · exact ((copyFile_makes _ _).first (recalculate_keeps _ _ _)).second.second.second.second.second

theorem artificial_visits (name : Str) (l : List (Nat × Nat)) (h : artificial.visits name = .ok l) (d r : Nat)
    (hm : (d, r) ∈ l) : (name, d) ∈ targets artificial ∧ r < 5 := by
  have hn : artificial.nameValid name = true := by
    unfold Project.visits Project.assertName at h
    by_contra hc
    simp [hc, bind, Except.bind] at h
  have hname : name = c!"2x2" ∨ name = c!"4x6" ∨ name = c!"7x12" := by
    simpa [Project.nameValid, artificial] using hn
  rcases hname with rfl | rfl | rfl
  · have h1 : artificial.visits c!"2x2" = .ok ((range 11 16).flatMap fun d => (range 0 5).map fun r => (d, r)) := rfl
    have h2 : ∀ t ∈ (range 11 16).flatMap fun d => (range 0 5).map fun r => (d, r),
      (c!"2x2", t.1) ∈ targets artificial ∧ t.2 < 5 := by decide +kernel
    rw [h1] at h; cases h
    exact h2 _ hm
  · have h1 : artificial.visits c!"4x6" = .ok ((range 21 26).flatMap fun d => (range 0 5).map fun r => (d, r)) := rfl
    have h2 : ∀ t ∈ (range 21 26).flatMap fun d => (range 0 5).map fun r => (d, r),
      (c!"4x6", t.1) ∈ targets artificial ∧ t.2 < 5 := by decide +kernel
    rw [h1] at h; cases h
    exact h2 _ hm
  · have h1 : artificial.visits c!"7x12" = .ok ((range 31 36).flatMap fun d => (range 0 5).map fun r => (d, r)) := rfl
    have h2 : ∀ t ∈ (range 31 36).flatMap fun d => (range 0 5).map fun r => (d, r),
      (c!"7x12", t.1) ∈ targets artificial ∧ t.2 < 5 := by decide +kernel
    rw [h1] at h; cases h
    exact h2 _ hm

/-- C131: once all artificial systems are prepared, every data set and sampling distribution for which the other
programs submit, analyse or plot has its coupled model and its sampling model. -/
theorem C131_models (e : Nat → Env α) {absRoot : Str} (hr : RootOk artificial.serverRoot absRoot)
    (ha : ∀ d, (e d).absolute artificial.serverRoot = absRoot) (w : World α) (hok : (automateArtificial e w).1 = .ok ())
    (name : Str) (l : List (Nat × Nat)) (hl : artificial.visits name = .ok l) (d r : Nat) (hm : (d, r) ∈ l) :
    (automateArtificial e w).2.files (param absRoot d c!"coupled_model.json") ≠ none ∧
    (automateArtificial e w).2.files (rhoFile absRoot d r) ≠ none := by
  obtain ⟨ht, h5⟩ := artificial_visits name l hl d r hm
  have h := C131_artificial e hr ha w
  have hs := h.same hok _ ht
  have := prepareModel_makes (e d) (by rw [ha]; exact hr) name d w (h.ok.mp hok _ ht)
  rw [ha] at this
  rw [(hs _ (param_inside _ _ _)).1, (hs _ (rho_inside _ _ _)).1]
  exact ⟨this.1, this.2 r h5⟩

/-- A successful preparation of a data set of the paper leaves the coupled model, the sampling model 0, and those with
a file. -/
theorem preparePaper_makes (e : Env α) (hr : RootOk paper.serverRoot (e.absolute paper.serverRoot)) (name : Str) (d : Nat)
    (w : World α) (hok : (preparePaperModel e none name d w).1 = .ok ()) :
    (preparePaperModel e none name d w).2.files (param (e.absolute paper.serverRoot) d c!"coupled_model.json") ≠ none ∧
    (preparePaperModel e none name d w).2.files (rhoFile (e.absolute paper.serverRoot) d 0) ≠ none ∧
    ∀ f ∈ Postprocessing.glob e.listing (altStem e.scriptDir name d ++ c!"_R*.json"), ∀ r, rhoOfFile f = .ok r →
      (preparePaperModel e none name d w).2.files (rhoFile (e.absolute paper.serverRoot) d r) ≠ none := by
  unfold preparePaperModel at hok ⊢
  cases ho : openData paper e none d with
  | error x => rw [ho] at hok; cases hok
  | ok s =>
    rw [ho] at hok
    have hs := (open_none ho).2.2.2
    have p1 : s.pathVibModel = _ := hs ▸ (init_paths hr d 0).1
    have p6 : s.pathRhoModel = _ := hs ▸ (init_paths hr d 0).2.2.2.2.2.1
    have p7 : s.idData = d := hs ▸ (init_paths hr d 0).2.2.2.2.2.2
    simp only at hok ⊢
    have kr := copyRhos_keeps e s (Postprocessing.glob e.listing
      (inputPath e c!"alternate_rhos" (name ++ c!"_D" ++ natStr (s.idData % 10) ++ c!"_R*.json")))
    have hb := basic_two (α := α) s.pathVibModel s.pathHarModel s.pathRhoModel
    refine ⟨?_, ?_, ?_⟩
    · rw [← p1]
      refine Makes.first ?_ kr w hok
      unfold copyInputPaper
      rw [hb]
      exact (copyInput_makes e _ _).first ((removeCoupling_keeps _ _).andThen (copyFile_keeps _ _))
    · rw [← p6]
      refine Makes.first ?_ kr w hok
      unfold copyInputPaper
      rw [hb]
      exact (copyFile_makes _ _).second.second
    · intro f hf r hfr
      have : (atRho s r).pathRhoModel = rhoFile (e.absolute paper.serverRoot) d r := by rw [hs, atRho_path hr]
      rw [← this]
      refine Makes.second (copyRhos_makes e s _ (f := f) ?_ hfr) w hok
      rw [p7, pattern_eq]
      exact hf

/-- C131: once all systems of the paper are prepared, every data set has its coupled model, its sampling model 0, and
the sampling models for which the directory has a file. -/
theorem C131_paper_models_partial (e : Nat → Env α) {absRoot : Str} (hr : RootOk paper.serverRoot absRoot)
    (ha : ∀ d, (e d).absolute paper.serverRoot = absRoot) (w : World α) (hok : (automatePaper e w).1 = .ok ())
    (name : Str) (d : Nat) (ht : (name, d) ∈ targets paper) :
    (automatePaper e w).2.files (param absRoot d c!"coupled_model.json") ≠ none ∧
    (automatePaper e w).2.files (rhoFile absRoot d 0) ≠ none ∧
    ∀ r, ¬ c!"_R" <:+: altStem (e d).scriptDir name d → '*' ∉ altStem (e d).scriptDir name d →
      altFile (e d).scriptDir name d r ∈ (e d).listing → (automatePaper e w).2.files (rhoFile absRoot d r) ≠ none := by
  have h := C131_paper e hr ha w
  have hs := h.same hok _ ht
  obtain ⟨h1, h2, h3⟩ := preparePaper_makes (e d) (by rw [ha]; exact hr) name d w (h.ok.mp hok _ ht)
  rw [ha] at h1 h2 h3
  rw [(hs _ (param_inside _ _ _)).1, (hs _ (rho_inside _ _ _)).1]
  refine ⟨h1, h2, fun r hR hstar hf => ?_⟩
  rw [(hs _ (rho_inside _ _ _)).1]
  refine h3 (altFile (e d).scriptDir name d r) ?_ r (rhoOfFile_alt hR r)
  simp [Postprocessing.glob, List.mem_filter, hf, altFile_matches hstar r]

theorem paper_visits (name : Str) (d : Nat) (ht : (name, d) ∈ targets paper) :
    ∃ l, paper.visits name = .ok l ∧ (d, 11) ∈ l := by
  have hall : ∀ t ∈ targets paper, ∃ l, paper.visits t.1 = .ok l ∧ (t.2, 11) ∈ l := by
    intro t ht
    have hname : (t.1 = c!"superimposed" ∧ t.2 ∈ range 11 17) ∨ (t.1 = c!"displaced" ∧ t.2 ∈ range 21 27) ∨
        (t.1 = c!"elevated" ∧ t.2 ∈ range 31 37) ∨ (t.1 = c!"jahnteller" ∧ t.2 ∈ range 41 47) := by
      revert t; decide +kernel
    obtain ⟨n, d⟩ := t
    simp only at hname
    rcases hname with ⟨rfl, h⟩ | ⟨rfl, h⟩ | ⟨rfl, h⟩ | ⟨rfl, h⟩
    · refine ⟨(range 11 17).flatMap fun d => [0, 1, 11].map fun r => (d, r), rfl, ?_⟩
      revert h; revert d; simp [range]
    · refine ⟨(range 21 27).flatMap fun d => [0, 1, 11].map fun r => (d, r), rfl, ?_⟩
      revert h; revert d; simp [range]
    · refine ⟨(range 31 37).flatMap fun d => [0, 1, 11].map fun r => (d, r), rfl, ?_⟩
      revert h; revert d; simp [range]
    · refine ⟨(range 41 47).flatMap fun d => [0, 1, 2, 11].map fun r => (d, r), rfl, ?_⟩
      revert h; revert d; simp [range]
  exact hall (name, d) ht

/-- C131 fails for the paper: the other programs visit the sampling distribution 11 of every data set, but preparing
all systems does not make its model when the directory has no file for it (it has none), since the function that runs
the iterative method is not called. -/
theorem C131_iterative_missing_refuted (e : Nat → Env α) {absRoot : Str} (hr : RootOk paper.serverRoot absRoot)
    (ha : ∀ d, (e d).absolute paper.serverRoot = absRoot) (w : World α)
    (name : Str) (d : Nat) (ht : (name, d) ∈ targets paper)
    (hno : ∀ f ∈ (e d).listing, globMatch (altStem (e d).scriptDir name d ++ c!"_R*.json") f = true →
      rhoOfFile f ≠ .ok 11) :
    (∃ l, paper.visits name = .ok l ∧ (d, 11) ∈ l) ∧
    (automatePaper e w).2.files (rhoFile absRoot d 11) = w.files (rhoFile absRoot d 11) := by
  refine ⟨paper_visits name d ht, ?_⟩
  have halone : (preparePaperModel (e d) none name d w).2.files (rhoFile absRoot d 11) =
      w.files (rhoFile absRoot d 11) := by
    unfold preparePaperModel
    cases ho : openData paper (e d) none d with
    | error x => rfl
    | ok s =>
      have hs := (open_none ho).2.2.2
      rw [ha] at hs
      obtain ⟨p1, p2, p3, p4, p5, p6, p7⟩ := init_paths hr d 0
      rw [← hs] at p1 p2 p3 p4 p5 p6 p7
      have c0 : rhoFile absRoot d 11 ≠ param absRoot d c!"coupled_model.json" :=
        rhoFile_ne_param _ _ _ _ _ 12 (by decide) (by decide) (by decide)
      have c1 : rhoFile absRoot d 11 ≠ param absRoot d c!"harmonic_model.json" :=
        rhoFile_ne_param _ _ _ _ _ 12 (by decide) (by decide) (by decide)
      have hfirst : (copyInputPaper (e d) s name w).2.files (rhoFile absRoot d 11) = w.files (rhoFile absRoot d 11) := by
        refine OnlyFiles.andThen (P := fun p => p ≠ rhoFile absRoot d 11) ?_ ?_ w _ (by simp)
        · intro w p hp
          refine copyInput_only _ _ _ w p fun hc => hp ?_
          rw [hc, p1]; exact c0.symm
        · intro w p hp
          refine createBasicDiagonal_other _ _ _ _ p (fun hc => hp ?_) (fun hc => hp ?_)
          · rw [hc, p3]; exact c1.symm
          · rw [hc, p6]; exact rhoFile_ne absRoot d (by decide)
      simp only [andThen]
      cases hc : copyInputPaper (e d) s name w with
      | mk r x =>
        rw [hc] at hfirst
        cases r with
        | error err => exact hfirst
        | ok u =>
          simp only [copyAlternateRhos, p7, pattern_eq]
          rw [hs]
          refine (copyRhos_skips hr (e d) d _ (fun f hf => ?_) x).trans hfirst
          obtain ⟨h1, h2⟩ := List.mem_filter.mp hf
          exact hno f h1 h2
  obtain ⟨⟨done, rest, hl, hd, hrest⟩, -⟩ := C131_paper e hr ha w
  have hin := rho_inside absRoot d 11
  rw [hl] at ht
  rcases List.mem_append.mp ht with h | h
  · exact ((hd _ h).2 _ hin).1.trans halone
  · rcases hrest with ⟨rfl, -⟩ | ⟨n', d', later, x, rfl, -, -, h6, h7⟩
    · cases h
    · rcases List.mem_cons.mp h with h | h
      · cases h
        exact (h6 _ hin).1.trans halone
      · exact (h7 _ h _ hin).1

end

/-! ### The hypotheses are met -/

/-- All artificial systems are prepared, and all systems of the paper, the latter without a sampling model 11. -/
example : ∃ (e : Nat → Env ℚ) (w : World ℚ) (absRoot absPaper : Str),
    RootOk artificial.serverRoot absRoot ∧ (∀ d, (e d).absolute artificial.serverRoot = absRoot) ∧
    RootOk paper.serverRoot absPaper ∧ (∀ d, (e d).absolute paper.serverRoot = absPaper) ∧
    (automateArtificial e w).1 = .ok () ∧ (automateArtificial e w).2.files (rhoFile absRoot 35 4) ≠ none ∧
    (automatePaper e w).1 = .ok () ∧ (automatePaper e w).2.files (rhoFile absPaper 46 0) ≠ none ∧
    (automatePaper e w).2.files (rhoFile absPaper 46 11) = none := by
  obtain ⟨v, hl, hA, hN, hs, hm, hent, M, hM, hG2⟩ := input_reads
  obtain ⟨i, hgi, hiA, hiN, hi⟩ := sampling_reads
  let g := some (toFile sampling.toDict)
  let e := machine g c!"/code" []
  have hdef := server_ok g c!"/code" []
  have h0 : ∀ idx, entry sampling.toDict .G2 idx = 0 := fun idx => by rw [entry_toDict]; exact at_zeros _ _
  let w : World ℚ := ⟨fun _ => none, fun _ => none⟩
  have hone : ∀ t ∈ targets artificial, (prepareModel e none t.1 t.2 w).1 = .ok () := by
    intro t ht
    have h1 : artificial.idValid t.2 = true ∧ t.2 % 10 ∈ [1, 2, 3, 4, 5] := by
      revert t; decide +kernel
    have hv : artificial.assertId t.2 = .ok () := by unfold Project.assertId; rw [if_pos h1.1]
    refine C126_succeeds_partial e t.1 t.2 hv hdef.1 (.inl rfl) rfl w rfl hl hs hm
      (hM g c!"/code" [] t.2 hv h1.2) _ rfl hgi (hiN.trans hN.symm) ⟨0, ?_⟩ ⟨0, ?_⟩ (fun idx => ?_) (fun idx => ?_)
    · rw [hi, w_one sampling rfl]; norm_num
    · rw [hent, w_one input rfl]; norm_num
    · rw [hi, h0]; norm_num
    · rw [hG2]; norm_num
  have honep : ∀ t ∈ targets paper, (preparePaperModel e none t.1 t.2 w).1 = .ok () := by
    intro t ht
    have h1 : paper.idValid t.2 = true ∧ ¬ c!"_R" <:+: altStem c!"/code" t.1 t.2 ∧
        '*' ∉ altStem c!"/code" t.1 t.2 := by
      revert t; decide +kernel
    have hv : paper.assertId t.2 = .ok () := by unfold Project.assertId; rw [if_pos h1.1]
    have hsame : preparePaperModel e (some (paper.serverRoot, e.absolute paper.serverRoot)) t.1 t.2 w =
        preparePaperModel e none t.1 t.2 w := by
      unfold preparePaperModel
      rw [open_paper_server e t.2 hv (.inl rfl) rfl, open_given hv rfl]
    rw [← hsame]
    exact (C127_models_partial hdef.2 e t.1 t.2 hv rfl w rfl hl h1.2.1 h1.2.2 (fun _ h => by cases h)
      (fun p hp => by cases hp)).1
  have hok := (C131_artificial (fun _ => e) hdef.1 (fun _ => rfl) w).ok.mpr hone
  have hokp := (C131_paper (fun _ => e) hdef.2 (fun _ => rfl) w).ok.mpr honep
  exact ⟨fun _ => e, w, _, _, hdef.1, fun _ => rfl, hdef.2, fun _ => rfl, hok,
    (C131_models (fun _ => e) hdef.1 (fun _ => rfl) w hok c!"7x12" _ rfl 35 4 (by decide)).2, hokp,
    (C131_paper_models_partial (fun _ => e) hdef.2 (fun _ => rfl) w hokp c!"jahnteller" 46 (by decide +kernel)).2.1,
    (C131_iterative_missing_refuted (fun _ => e) hdef.2 (fun _ => rfl) w c!"jahnteller" 46 (by decide +kernel)
      (fun f hf => by cases hf)).2⟩

end Pibronic.Props.ExamplesPrepare
