import Verif.Model.FileStructure
import Verif.Spec.FileStructure
import Verif.Lemmas.Str

set_option autoImplicit false

/-! Helper lemmas for the `FileStructure` theorems. -/
namespace Pibronic.FileStructure
open Py FileName Spec.FileStructure

theorem join_rel {root absRoot : Str} (h : RootOk root absRoot) (c : Char) (x : Str) (hc : c ≠ '/') :
    join root (c :: x) = absRoot ++ '/' :: c :: x := by
  obtain ⟨h0, h1, h2⟩ := h
  have hm : ∀ a : Str, join a (c :: x)
      = if a = [] ∨ a.getLast? = some '/' then a ++ c :: x else a ++ '/' :: c :: x := by
    intro a; unfold join; split
    · next heq => simp only [List.cons.injEq] at heq; exact absurd heq.1 hc
    · rfl
  rw [hm]
  rcases h2 with rfl | rfl
  · rw [if_neg]; simp [h0, h1]
  · rw [if_pos]
    · simp
    · right; simp

theorem rootOk_abs {root absRoot : Str} (h : RootOk root absRoot) : RootOk absRoot absRoot :=
  ⟨h.1, h.2.1, .inl rfl⟩

theorem join_slash (a : Str) (c : Char) (x : Str) (hc : c ≠ '/') :
    join (a ++ ['/']) (c :: x) = a ++ ['/'] ++ c :: x := by
  unfold join; split
  · next heq => simp only [List.cons.injEq] at heq; exact absurd heq.1 hc
  · rw [if_pos]; right; simp

theorem templateVib_cons (d : Nat) (x : Str) :
    templateVib d ++ x = 'd' :: (c!"ata_set_" ++ natStr d ++ c!"/" ++ x) := rfl

theorem templateRho_cons (d r : Nat) (x : Str) :
    templateRho d r ++ x
      = 'd' :: (c!"ata_set_" ++ natStr d ++ c!"/" ++ c!"rho_" ++ natStr r ++ c!"/" ++ x) := rfl

theorem join_vib {root absRoot : Str} (h : RootOk root absRoot) (d : Nat) (x : Str) :
    join root (templateVib d ++ x) = dataDir absRoot d ++ x := by
  rw [templateVib_cons, join_rel h _ _ (by decide)]
  simp [dataDir]

theorem join_rho {root absRoot : Str} (h : RootOk root absRoot) (d r : Nat) (x : Str) :
    join root (templateRho d r ++ x) = rhoDir absRoot d r ++ x := by
  rw [templateRho_cons, join_rel h _ _ (by decide)]
  simp [rhoDir, dataDir]

theorem join_vib0 {root absRoot : Str} (h : RootOk root absRoot) (d : Nat) :
    join root (templateVib d) = dataDir absRoot d := by
  simpa using join_vib h d []

theorem join_rho0 {root absRoot : Str} (h : RootOk root absRoot) (d r : Nat) :
    join root (templateRho d r) = rhoDir absRoot d r := by
  simpa using join_rho h d r []

theorem join_sub (a : Str) (sub : Str) (c : Char) (x : Str) (hc : c ≠ '/') :
    join (a ++ (sub ++ ['/'])) (c :: x) = a ++ (sub ++ ['/']) ++ c :: x := by
  have := join_slash (a ++ sub) c x hc
  simpa using this

/-- all fields of a fresh structure, in terms of the specification -/
theorem initFS_eq {root absRoot : Str} (h : RootOk root absRoot) (d r : Nat) :
    initFS root absRoot d r =
    { idRho := r, idData := d, pathRoot := absRoot
      pathData := dataDir absRoot d
      pathRho := rhoDir absRoot d r
      pathEs := dataDir absRoot d ++ c!"electronic_structure"
      pathVibParams := dataDir absRoot d ++ c!"parameters/"
      pathVibResults := dataDir absRoot d ++ c!"results/"
      pathVibOutput := dataDir absRoot d ++ c!"execution_output/"
      pathVibPlots := dataDir absRoot d ++ c!"plots/"
      pathRhoParams := rhoDir absRoot d r ++ c!"parameters/"
      pathRhoResults := rhoDir absRoot d r ++ c!"results/"
      pathRhoOutput := rhoDir absRoot d r ++ c!"execution_output/"
      pathRhoPlots := rhoDir absRoot d r ++ c!"plots/"
      templatePimc := rhoDir absRoot d r ++ c!"results/" ++ pimc fieldP fieldT c!"{J:s}"
      templateJackknife := rhoDir absRoot d r ++ c!"results/" ++ jackknife fieldP fieldT fieldX
      templateSosRho := rhoDir absRoot d r ++ c!"parameters/" ++ sos fieldB
      templateSosVib := dataDir absRoot d ++ c!"parameters/" ++ sos fieldB
      templateTrotterVib := dataDir absRoot d ++ c!"parameters/" ++ trotter fieldP fieldB
      pathVibModel := dataDir absRoot d ++ c!"parameters/" ++ c!"coupled_model.json"
      pathHarModel := dataDir absRoot d ++ c!"parameters/" ++ c!"harmonic_model.json"
      pathIterModel := dataDir absRoot d ++ c!"parameters/" ++ c!"iterative_model.json"
      pathIterMat := dataDir absRoot d ++ c!"parameters/" ++ c!"iterative_matrix.txt"
      pathRhoModel := rhoDir absRoot d r ++ c!"parameters/" ++ c!"sampling_model.json"
      pathAnalyticRho := rhoDir absRoot d r ++ c!"parameters/" ++ c!"analytic_results.json"
      pathAnalyticVib := dataDir absRoot d ++ c!"parameters/" ++ c!"analytic_results.json"
      pathAnalyticOrig := dataDir absRoot d ++ c!"parameters/" ++ c!"original_analytic_results.json"
      pathOrigModel := dataDir absRoot d ++ c!"parameters/" ++ c!"original_coupled_model.json"
      pathOrthoMat := dataDir absRoot d ++ c!"parameters/" ++ c!"orthogonal_matrix.npy"
      hashVib := none, hashRho := none } := by
  have hj : ∀ (a : Str) (c : Char) (x : Str), c ≠ '/' →
      join (a ++ c!"parameters/") (c :: x) = a ++ c!"parameters/" ++ c :: x := fun a c x hc =>
    join_sub a c!"parameters" c x hc
  have he : join (dataDir absRoot d) c!"electronic_structure"
      = dataDir absRoot d ++ c!"electronic_structure" :=
    join_slash (absRoot ++ c!"/data_set_" ++ natStr d) 'e' _ (by decide)
  simp only [initFS, join_vib h, join_rho h, join_vib0 (rootOk_abs h), join_rho0 (rootOk_abs h), he,
    coupledModel, harmonicModel, iterativeModel, iterativeMatrix, samplingModel, analyticResults,
    originalAnalyticResults, originalModel, orthogonalMatrix]
  simp only [hj _ _ _ (by decide : ('c' : Char) ≠ '/'), hj _ _ _ (by decide : ('h' : Char) ≠ '/'),
    hj _ _ _ (by decide : ('i' : Char) ≠ '/'), hj _ _ _ (by decide : ('s' : Char) ≠ '/'),
    hj _ _ _ (by decide : ('a' : Char) ≠ '/'), hj _ _ _ (by decide : ('o' : Char) ≠ '/')]

end Pibronic.FileStructure
