import Verif.Lemmas.PIMC
import Verif.Model.Stats

set_option autoImplicit false
set_option linter.unusedSectionVars false

/-!
Theorems about the integrands of one sample (C30, C34-C38).

`potential`, `oscillator`, `propagator`, `step`, `rhoExact`, `gExact` are defined in `Spec/PIMC.lean`;
`EighSpec` is the contract of `np.linalg.eigh`, and `eigh_exists` shows that it can be met.
-/
namespace Pibronic.Props.PIMC
open Py Constants Finset Spec.PIMC Pibronic.PIMC

/-! ### C30 -/

/-- C30: the potential energy matrix of the system is the diagonal of displaced oscillators plus the
coupling matrix that the code builds from its folded arrays; energies and displacements of the
oscillators are the ones that the code precomputes. -/
theorem C30_completing_the_square {A N P : ℕ} (m : Vib A N) (hw : ∀ i, m.omega i ≠ 0)
    (R : BeadPath N P) (p : Fin P) :
    potential m (fun i => R i p) = (Matrix.diagonal fun a =>
        (m.energy a a + m.delta a) + ∑ i, m.omega i / 2 * (R i p - m.shift a i) ^ 2)
      + coupling m.folded R p := by
  rw [coupling_folded m hw]
  have : (fun a => (m.energy a a + m.delta a) + ∑ i, m.omega i / 2 * (R i p - m.shift a i) ^ 2)
      = fun a => oscillator m a fun i => R i p := by
    funext a
    unfold oscillator bottom Vib.delta Vib.shift centre
    rw [sub_eq_add_neg, mul_sum, ← sum_neg_distrib]
    congr 2
    refine sum_congr rfl fun i _ => ?_
    have := hw i
    field_simp
    norm_num
    ring
  rw [this, remainder, add_sub_cancel]

/-- C30: the same for one surface of a sampling model. -/
theorem C30_sampling_model {A N : ℕ} (m : Rho A N) (hw : ∀ i, m.omega i ≠ 0) (x : Fin N → ℝ)
    (a : Fin A) :
    m.energy a + ∑ i, (m.omega i * x i ^ 2 / 2 + m.linear i a * x i)
      = (m.energy a + m.delta a) + ∑ i, m.omega i / 2 * (x i - m.shift a i) ^ 2 := by
  unfold Rho.delta Rho.shift
  rw [mul_sum, add_assoc, ← sum_add_distrib]
  congr 1
  refine sum_congr rfl fun i _ => ?_
  have := hw i
  field_simp
  ring

/-- C30: the folded arrays keep nothing on the diagonal and everything off it. -/
theorem C30_folded_diagonal {A N : ℕ} (m : Vib A N) :
    (∀ a, m.folded.energy a a = 0) ∧ (∀ i a, m.folded.linear i a a = 0) ∧
    (∀ a b, a ≠ b → m.folded.energy a b = m.energy a b ∧
      ∀ i, m.folded.linear i a b = m.linear i a b) ∧
    m.folded.quadratic = m.quadratic ∧ m.folded.omega = m.omega := by
  refine ⟨fun a => by simp [Vib.folded], fun i a => by simp [Vib.folded], fun a b h => ?_, rfl, rfl⟩
  simp [Vib.folded, h]

/-! ### C34 -/

section
variable {A N P : ℕ} [NeZero A] [NeZero P]

/-- The common scaling factor of a sample. -/
noncomputable def scale (t : ℝ) (vib : Vib A N) (rho : Rho A N) (R : BeadPath N P) : ℝ :=
  ∏ p, scaling (oRho A t rho R) (oVib t vib R) p

theorem scale_pos (t : ℝ) (ht : 0 < t) (vib : Vib A N) (rho : Rho A N) (hv : ∀ i, 0 < vib.omega i)
    (R : BeadPath N P) : 0 < scale t vib rho R :=
  prod_pos fun p _ => scaling_pos t ht vib hv _ R p

theorem compute_eq (eigh : Eigh) (he : EighSpec eigh) (t : ℝ) (ht : 0 < t) (vib : Vib A N)
    (rho : Rho A N) (hv : ∀ i, 0 < vib.omega i) (hr : ∀ i, 0 < rho.omega i)
    (hsym : ∀ x, (potential vib x).IsSymm) (R : BeadPath N P) :
    compute eigh t vib rho R = .ok ⟨rhoExact t rho R / scale t vib rho R,
      gExact t vib R / scale t vib rho R⟩ := by
  unfold compute
  rw [buildO_rho t ht rho hr R le_rfl, buildO_vib t ht vib hv R, diagonalize_eq eigh vib hv hsym R]
  simp only [bind, Except.bind]
  rw [numerator_scaleO, denominator_scaleO, numerator_oVib eigh he t t vib hsym R,
    denominator_oRho_same]
  rfl

theorem rhoExact_pos (t : ℝ) (ht : 0 < t) (rho : Rho A N) (hr : ∀ i, 0 < rho.omega i)
    (R : BeadPath N P) : 0 < rhoExact t rho R :=
  sum_pos (fun _ _ => prod_pos fun _ _ => step_pos _ _ _ _ ht hr _ _) univ_nonempty

/-- C34: for every path the calculation succeeds, the stored values are the exact integrands divided
by one common positive factor, the denominator is positive and the stored ratio is the exact one. -/
theorem C34_scaling_cancels (eigh : Eigh) (he : EighSpec eigh) (t : ℝ) (ht : 0 < t) (vib : Vib A N)
    (rho : Rho A N) (hv : ∀ i, 0 < vib.omega i) (hr : ∀ i, 0 < rho.omega i)
    (hsym : ∀ x, (potential vib x).IsSymm) (R : BeadPath N P) :
    ∃ s S, compute eigh t vib rho R = .ok s ∧ 0 < S ∧ s.rho = rhoExact t rho R / S ∧
      s.g = gExact t vib R / S ∧ 0 < s.rho ∧ s.g / s.rho = gExact t vib R / rhoExact t rho R := by
  have hS := scale_pos t ht vib rho hv R
  have hR := rhoExact_pos t ht rho hr R
  refine ⟨_, scale t vib rho R, compute_eq eigh he t ht vib rho hv hr hsym R, hS, rfl, rfl,
    div_pos hR hS, ?_⟩
  simp only
  field_simp

/-- C34: scaling keeps the stored denominator between 0 and the number of surfaces, so it can not
overflow. -/
theorem C34_scaled_denominator_bounded (eigh : Eigh) (he : EighSpec eigh) (t : ℝ) (ht : 0 < t)
    (vib : Vib A N) (rho : Rho A N) (hv : ∀ i, 0 < vib.omega i) (hr : ∀ i, 0 < rho.omega i)
    (hsym : ∀ x, (potential vib x).IsSymm) (R : BeadPath N P) (s : Sample)
    (h : compute eigh t vib rho R = .ok s) : 0 < s.rho ∧ s.rho ≤ A := by
  rw [compute_eq eigh he t ht vib rho hv hr hsym R] at h
  cases h
  refine ⟨div_pos (rhoExact_pos t ht rho hr R) (scale_pos t ht vib rho hv R), ?_⟩
  simp only [rhoExact, scale, sum_div, ← prod_div_distrib]
  calc _ ≤ ∑ _a : Fin A, (1 : ℝ) := by
        refine sum_le_sum fun a _ => prod_le_one (fun p _ => ?_) fun p _ => ?_
        · exact div_nonneg (step_pos _ _ _ _ ht hr _ _).le (scaling_pos t ht vib hv _ R p).le
        · rw [div_le_one (scaling_pos t ht vib hv _ R p)]
          refine le_trans ?_ (le_max_left _ _)
          have := le_amax (oRho A t rho R p) a a
          rwa [oRho, Matrix.diagonal_apply_eq, if_pos a.2] at this
    _ = A := by simp

/-- C34: the scaling of the matrices of both models can be undone. -/
theorem C34_scaling_undone (t : ℝ) (ht : 0 < t) (vib : Vib A N) (rho : Rho A N)
    (hv : ∀ i, 0 < vib.omega i) (R : BeadPath N P) :
    let s := scaling (oRho A t rho R) (oVib t vib R)
    unscaleO s (scaleO s (oRho A t rho R)) = oRho A t rho R ∧
      unscaleO s (scaleO s (oVib t vib R)) = oVib t vib R := by
  intro s
  have hs : ∀ p, s p ≠ 0 := fun p => (scaling_pos t ht vib hv _ R p).ne'
  constructor <;> funext p a b <;> exact div_mul_cancel₀ _ (hs p)

/-- C34: exactly the systems whose potential is not symmetric, to numpy's precision, at some bead of the
path are refused. -/
theorem C34_asymmetric_refused (eigh : Eigh) (t : ℝ) (ht : 0 < t) (vib : Vib A N) (rho : Rho A N)
    (hv : ∀ i, 0 < vib.omega i) (hr : ∀ i, 0 < rho.omega i) (R : BeadPath N P) :
    compute eigh t vib rho R = .error .assertion ↔
      ∃ p a b, 1 / 10 ^ 8 + 1 / 10 ^ 5 * |potential vib (fun i => R i p) a b|
        < |potential vib (fun i => R i p) b a - potential vib (fun i => R i p) a b| := by
  have off : ∀ p a b, a ≠ b → coupling vib.folded R p a b = potential vib (fun i => R i p) a b := by
    intro p a b hab
    rw [coupling_folded vib (fun i => (hv i).ne'), remainder, Matrix.sub_apply,
      Matrix.diagonal_apply_ne _ hab, sub_zero]
  have key : (∀ p a b, Py.Close ((coupling vib.folded R p).transpose a b) (coupling vib.folded R p a b)) ↔
      ∀ p a b, |potential vib (fun i => R i p) b a - potential vib (fun i => R i p) a b|
        ≤ 1 / 10 ^ 8 + 1 / 10 ^ 5 * |potential vib (fun i => R i p) a b| := by
    refine forall_congr' fun p => forall_congr' fun a => forall_congr' fun b => ?_
    by_cases hab : a = b
    · subst hab
      rw [Matrix.transpose_apply, sub_self, abs_zero]
      exact ⟨fun _ => by positivity, fun _ => Py.AllClose.refl _⟩
    · rw [Matrix.transpose_apply, Py.close_iff, off p a b hab, off p b a (Ne.symm hab)]
  unfold compute
  rw [buildO_rho t ht rho hr R le_rfl, buildO_vib t ht vib hv R]
  simp only [bind, Except.bind]
  unfold diagonalize
  by_cases h : ∀ p a b, Py.Close ((coupling vib.folded R p).transpose a b) (coupling vib.folded R p a b)
  · rw [if_pos h]
    rw [key] at h
    refine ⟨fun h' => by simp at h', fun ⟨p, a, b, hab⟩ => absurd (h p a b) (not_le.mpr hab)⟩
  · rw [if_neg h]
    rw [key] at h
    push Not at h
    exact ⟨fun _ => h, fun _ => rfl⟩

/-! ### C35 -/

theorem prod_diagonal {n : ℕ} (f : Fin n → Fin A → ℝ) :
    (List.ofFn fun p => Matrix.diagonal (f p)).prod = Matrix.diagonal fun a => ∏ p, f p a := by
  induction n with
  | zero => simp
  | succ n ih =>
    rw [List.ofFn_succ, List.prod_cons, ih fun p => f p.succ, Matrix.diagonal_mul_diagonal]
    simp only [Fin.prod_univ_succ]

/-- The diagonal of a system model as a sampling model (what `create_harmonic_model` stores). -/
def diagonalRho (m : Vib A N) : Rho A N :=
  ⟨fun a => m.energy a a, m.omega, fun i a => m.linear i a a⟩

/-- C35: if the system has no coupling and the sampling model is its diagonal, `g = rho` for every
path. -/
theorem C35_exact_model_ratio_one (eigh : Eigh) (he : EighSpec eigh) (t : ℝ) (ht : 0 < t)
    (vib : Vib A N) (hv : ∀ i, 0 < vib.omega i) (hE : ∀ a b, a ≠ b → vib.energy a b = 0)
    (hl : ∀ i a b, a ≠ b → vib.linear i a b = 0) (hq : ∀ i j a b, vib.quadratic i j a b = 0)
    (R : BeadPath N P) :
    ∃ s, compute eigh t vib (diagonalRho vib) R = .ok s ∧ 0 < s.rho ∧ s.g = s.rho := by
  have hrem : ∀ p, remainder vib R p = 0 := by
    intro p
    rw [← coupling_folded vib (fun i => (hv i).ne')]
    ext a b
    by_cases hab : a = b
    · simp [coupling, Vib.folded, hab, hq]
    · simp [coupling, Vib.folded, hab, hq, hE a b hab, hl _ a b hab]
  have hsym : ∀ x, (potential vib x).IsSymm := by
    intro x
    ext a b
    by_cases hab : a = b
    · subst hab; rfl
    · have hba : b ≠ a := fun h => hab h.symm
      simp [potential, Matrix.sum_apply, hE a b hab, hE b a hba, hl _ a b hab, hl _ b a hba, hq, hab, hba]
  obtain ⟨s, S, h, hS, h1, h2, h3, -⟩ :=
    C34_scaling_cancels eigh he t ht vib (diagonalRho vib) hv hv hsym R
  refine ⟨s, h, h3, ?_⟩
  rw [h1, h2]
  congr 1
  unfold gExact gSplit rhoExact
  simp only [hrem, smul_zero, NormedSpace.exp_zero, Matrix.one_mul]
  rw [prod_diagonal, Matrix.trace_diagonal]
  rfl

/-- C35: the consequence for the estimates.  Whatever paths were drawn and whatever the plus and minus
values are, the analyses report Z = 1 with error 0. -/
theorem C35_partition_function_exact {X : ℕ} (hX : 2 ≤ X) (eigh : Eigh) (he : EighSpec eigh) (t : ℝ)
    (ht : 0 < t) (vib : Vib A N) (hv : ∀ i, 0 < vib.omega i)
    (hE : ∀ a b, a ≠ b → vib.energy a b = 0) (hl : ∀ i a b, a ≠ b → vib.linear i a b = 0)
    (hq : ∀ i j a b, vib.quadratic i j a b = 0) (R : Fin X → BeadPath N P) (d : Stats.Samples X)
    (hd : ∀ x, compute eigh t vib (diagonalRho vib) (R x) = .ok ⟨d.rho x, d.g x⟩) (T : ℝ)
    (an : Stats.Analytic) :
    (Stats.basicStatisticalAnalysis T d an).Z = 1 ∧ (Stats.basicStatisticalAnalysis T d an).Zerr = 0 ∧
    (Stats.alphaStatisticalAnalysis T d an).Z = 1 ∧ (Stats.alphaStatisticalAnalysis T d an).Zerr = 0 := by
  have hr : (fun x => d.g x / d.rho x) = fun _ : Fin X => (1 : ℝ) := by
    funext x
    obtain ⟨s, h, h1, h2⟩ := C35_exact_model_ratio_one eigh he t ht vib hv hE hl hq (R x)
    rw [hd x] at h
    cases h
    simp only at h1 h2
    rw [h2, div_self h1.ne']
  have hX0 : (X : ℝ) ≠ 0 := by
    have : (2 : ℝ) ≤ X := by exact_mod_cast hX
    intro h; linarith
  have hm : Stats.npMean (fun _ : Fin X => (1 : ℝ)) = 1 := by simp [Stats.npMean, Stats.npSum, hX0]
  have hs : Stats.npStd 0 (fun _ : Fin X => (1 : ℝ)) = 0 := by simp [Stats.npStd, hm]
  simp [Stats.basicStatisticalAnalysis, Stats.alphaStatisticalAnalysis, Stats.addHarmonic,
    Stats.estimateBasicProperties, Stats.basicEstimateZ, Stats.calculateBasicPropertyTerms,
    Stats.calculateAlphaTerms, hr, hm, hs]

/-! ### C36 -/

theorem trace_rotate {n : ℕ} [NeZero n] (f : Fin n → Matrix (Fin A) (Fin A) ℝ) :
    Matrix.trace (List.ofFn fun p => f (p + 1)).prod = Matrix.trace (List.ofFn f).prod := by
  obtain ⟨m, rfl⟩ := Nat.exists_eq_succ_of_ne_zero (NeZero.ne n)
  rw [List.ofFn_succ' (f := fun p => f (p + 1)), List.ofFn_succ (f := f), List.concat_eq_append,
    List.prod_append, List.prod_cons, List.prod_nil, List.prod_cons, mul_one, Matrix.trace_mul_comm]
  have h1 : (Fin.last m + 1 : Fin (m + 1)) = 0 := by simp
  have h2 : ∀ i : Fin m, (i.castSucc + 1 : Fin (m + 1)) = i.succ := fun i => by simp
  simp only [Nat.succ_eq_add_one, h1, h2]

theorem rotate_one (t : ℝ) (vib : Vib A N) (rho : Rho A N) (R : BeadPath N P) :
    rhoExact t rho (fun i p => R i (p + 1)) = rhoExact t rho R ∧
    (∀ s, gSplit s t vib (fun i p => R i (p + 1)) = gSplit s t vib R) ∧
    scale t vib rho (fun i p => R i (p + 1)) = scale t vib rho R := by
  have hstep : ∀ e (l w : Fin N → ℝ) p, step t e l w (fun i p => R i (p + 1)) p = step t e l w R (p + 1) :=
    fun _ _ _ _ => rfl
  refine ⟨?_, fun s => ?_, ?_⟩
  · unfold rhoExact
    simp only [hstep]
    refine sum_congr rfl fun a _ => ?_
    exact Fintype.prod_equiv (Equiv.addRight 1) _ _ fun _ => rfl
  · exact trace_rotate (fun p => NormedSpace.exp (-s • remainder vib R p) *
      Matrix.diagonal fun a => step t (vib.energy a a) (fun i => vib.linear i a a) vib.omega R p)
  · exact Fintype.prod_equiv (Equiv.addRight (1 : Fin P)) _
      (fun p => scaling (oRho A t rho R) (oVib t vib R) p) fun _ => rfl

/-- C36: rotating the beads of a path by any number of positions does not change what is stored for
the sample. -/
theorem C36_bead_rotation (eigh : Eigh) (he : EighSpec eigh) (t : ℝ) (ht : 0 < t) (vib : Vib A N)
    (rho : Rho A N) (hv : ∀ i, 0 < vib.omega i) (hr : ∀ i, 0 < rho.omega i)
    (hsym : ∀ x, (potential vib x).IsSymm) (R : BeadPath N P) (k : Fin P) :
    compute eigh t vib rho (fun i p => R i (p + k)) = compute eigh t vib rho R := by
  have key : ∀ n : ℕ, compute eigh t vib rho (fun i p => R i (p + Fin.ofNat P n))
      = compute eigh t vib rho R := by
    intro n
    induction n with
    | zero =>
      have : Fin.ofNat P 0 = 0 := rfl
      simp only [this, add_zero]
    | succ n ih =>
      rw [← ih, compute_eq eigh he t ht vib rho hv hr hsym, compute_eq eigh he t ht vib rho hv hr hsym]
      obtain ⟨h1, h2, h3⟩ := rotate_one t vib rho fun i p => R i (p + Fin.ofNat P n)
      have h : (fun i p => R i (p + Fin.ofNat P (n + 1)))
          = fun i p => (fun i p => R i (p + Fin.ofNat P n)) i (p + 1) := by
        funext i p
        have : Fin.ofNat P (n + 1) = 1 + Fin.ofNat P n := by
          apply Fin.ext
          simp [Fin.val_add, add_comm]
        simp only [this, add_assoc]
      unfold gExact
      rw [h, h1, h2, h3]
  have := key k.1
  have hk : Fin.ofNat P k.1 = k := Fin.ext (Nat.mod_eq_of_lt k.2)
  rwa [hk] at this

/-! ### C37 -/

/-- Relabelled system model. -/
def permVib (σ : Equiv.Perm (Fin A)) (m : Vib A N) : Vib A N :=
  ⟨m.energy.submatrix σ σ, m.omega, fun i => (m.linear i).submatrix σ σ,
    fun i j => (m.quadratic i j).submatrix σ σ⟩

/-- Relabelled sampling model. -/
def permRho (σ : Equiv.Perm (Fin A)) (m : Rho A N) : Rho A N :=
  ⟨fun a => m.energy (σ a), m.omega, fun i a => m.linear i (σ a)⟩

theorem exp_submatrix (σ : Equiv.Perm (Fin A)) (M : Matrix (Fin A) (Fin A) ℝ) :
    NormedSpace.exp (M.submatrix σ σ) = (NormedSpace.exp M).submatrix σ σ := by
  let U : Matrix (Fin A) (Fin A) ℝ := (1 : Matrix (Fin A) (Fin A) ℝ).submatrix σ id
  have hUt : U.transpose = (1 : Matrix (Fin A) (Fin A) ℝ).submatrix id σ := by
    rw [Matrix.transpose_submatrix, Matrix.transpose_one]
  have key : ∀ X : Matrix (Fin A) (Fin A) ℝ, X.submatrix σ σ = U * X * U.transpose := by
    intro X
    rw [hUt]
    ext a b
    simp [U, Matrix.mul_apply, Matrix.one_apply]
  have h1 : U * U.transpose = 1 := by
    have := key 1
    rw [Matrix.mul_one] at this
    rw [← this]
    simp
  have hinv : U⁻¹ = U.transpose := Matrix.inv_eq_right_inv h1
  have hu : IsUnit U := ⟨⟨U, U.transpose, h1, mul_eq_one_comm.mp h1⟩, rfl⟩
  rw [key, key, ← hinv, Matrix.exp_conj U M hu]

theorem prod_submatrix (σ : Equiv.Perm (Fin A)) {n : ℕ} (f : Fin n → Matrix (Fin A) (Fin A) ℝ) :
    (List.ofFn fun p => (f p).submatrix σ σ).prod = ((List.ofFn f).prod).submatrix σ σ := by
  induction n with
  | zero => simp
  | succ n ih =>
    rw [List.ofFn_succ, List.prod_cons, ih fun p => f p.succ, List.ofFn_succ, List.prod_cons,
      Matrix.submatrix_mul_equiv]

theorem amax_submatrix (σ : Equiv.Perm (Fin A)) (M : Matrix (Fin A) (Fin A) ℝ) :
    amax (M.submatrix σ σ) = amax M := by
  apply le_antisymm
  · exact sup'_le _ _ fun ab _ => le_amax M (σ ab.1) (σ ab.2)
  · refine sup'_le _ _ fun ab _ => ?_
    have := le_amax (M.submatrix σ σ) (σ.symm ab.1) (σ.symm ab.2)
    simpa using this

theorem potential_perm (σ : Equiv.Perm (Fin A)) (m : Vib A N) (x : Fin N → ℝ) :
    potential (permVib σ m) x = (potential m x).submatrix σ σ := by
  ext a b
  simp [potential, permVib, Matrix.sum_apply, Matrix.one_apply]

/-- C37: relabelling the surfaces of the system (by `σ`) and of the sampling model (by `σ'`) does not
change what is stored for any sample. -/
theorem C37_surface_relabelling (eigh : Eigh) (he : EighSpec eigh) (t : ℝ) (ht : 0 < t)
    (vib : Vib A N) (rho : Rho A N) (hv : ∀ i, 0 < vib.omega i) (hr : ∀ i, 0 < rho.omega i)
    (hsym : ∀ x, (potential vib x).IsSymm) (σ σ' : Equiv.Perm (Fin A)) (R : BeadPath N P) :
    compute eigh t (permVib σ vib) (permRho σ' rho) R = compute eigh t vib rho R := by
  rw [compute_eq eigh he t ht vib rho hv hr hsym,
    compute_eq eigh he t ht (permVib σ vib) (permRho σ' rho) hv hr
      (fun x => by rw [potential_perm]; exact (hsym x).submatrix σ)]
  have h1 : rhoExact t (permRho σ' rho) R = rhoExact t rho R :=
    Fintype.sum_equiv σ' _ _ fun _ => rfl
  have hrem : ∀ p, remainder (permVib σ vib) R p = (remainder vib R p).submatrix σ σ := by
    intro p
    unfold remainder
    rw [potential_perm]
    ext a b
    simp [Matrix.diagonal_apply, oscillator, permVib]
  have h2 : gExact t (permVib σ vib) R = gExact t vib R := by
    unfold gExact gSplit
    have : (fun p => NormedSpace.exp (-t • remainder (permVib σ vib) R p) * Matrix.diagonal fun a =>
        step t ((permVib σ vib).energy a a) (fun i => (permVib σ vib).linear i a a)
          (permVib σ vib).omega R p)
        = fun p => (NormedSpace.exp (-t • remainder vib R p) * Matrix.diagonal fun a =>
          step t (vib.energy a a) (fun i => vib.linear i a a) vib.omega R p).submatrix σ σ := by
      funext p
      rw [← Matrix.submatrix_mul_equiv _ _ σ σ σ, ← exp_submatrix, hrem, Matrix.submatrix_smul]
      congr 1
      ext a b
      simp [Matrix.diagonal_apply, permVib]
    rw [this, prod_submatrix]
    simp only [Matrix.trace, Matrix.diag, Matrix.submatrix_apply]
    exact Fintype.sum_equiv σ _ _ fun _ => rfl
  have h3 : scale t (permVib σ vib) (permRho σ' rho) R = scale t vib rho R := by
    unfold scale scaling
    refine prod_congr rfl fun p _ => ?_
    have e1 : oRho A t (permRho σ' rho) R p = (oRho A t rho R p).submatrix σ' σ' := by
      ext a b
      simp [oRho, Matrix.diagonal_apply, permRho]
    have e2 : oVib t (permVib σ vib) R p = (oVib t vib R p).submatrix σ σ := by
      ext a b
      simp [oVib, Matrix.diagonal_apply, permVib]
    rw [e1, e2, amax_submatrix, amax_submatrix]
  rw [h1, h2, h3]

/-! ### C38 -/

/-- C38: what the plus/minus calculation stores.  The propagators of `g+` and `g-` belong to the
inverse temperatures `beta ± deltaBeta`, the exponential of the coupling to `beta`. -/
theorem C38_computed_quantities (eigh : Eigh) (he : EighSpec eigh) (beta db : ℝ) (hdb : 0 ≤ db)
    (hb : db < beta) (vib : Vib A N) (rho : Rho A N) (hv : ∀ i, 0 < vib.omega i)
    (hr : ∀ i, 0 < rho.omega i) (hsym : ∀ x, (potential vib x).IsSymm) (R : BeadPath N P) :
    ∃ s S, computePM eigh beta db vib rho R = .ok s ∧ 0 < S ∧
      s.rho = rhoExact (beta / P) rho R / S ∧ s.g = gExact (beta / P) vib R / S ∧
      s.gPlus = gSplit (beta / P) ((beta + db) / P) vib R / S ∧
      s.gMinus = gSplit (beta / P) ((beta - db) / P) vib R / S := by
  have hP : (0 : ℝ) < P := by exact_mod_cast Nat.pos_of_ne_zero (NeZero.ne P)
  have ht : 0 < beta / P := div_pos (by linarith) hP
  have htp : 0 < (beta + db) / P := div_pos (by linarith) hP
  have htm : 0 < (beta - db) / P := div_pos (by linarith) hP
  refine ⟨⟨_, _, _, _⟩, scale (beta / P) vib rho R, ?_, scale_pos _ ht vib rho hv R, rfl, rfl, rfl, rfl⟩
  unfold computePM
  simp only
  rw [buildO_rho _ ht rho hr R le_rfl, buildO_vib _ ht vib hv R, diagonalize_eq eigh vib hv hsym R,
    buildO_vib _ htp vib hv R, buildO_vib _ htm vib hv R]
  simp only [bind, Except.bind]
  rw [numerator_scaleO, denominator_scaleO, numerator_scaleO, numerator_scaleO,
    numerator_oVib eigh he _ _ vib hsym R, numerator_oVib eigh he _ _ vib hsym R,
    numerator_oVib eigh he _ _ vib hsym R, denominator_oRho_same]
  rfl

/-- C38 (partial): without coupling the plus and minus values are the integrand at
`beta ± deltaBeta`, with the same factor as `g` and `rho`. -/
theorem C38_uncoupled_partial (eigh : Eigh) (he : EighSpec eigh) (beta db : ℝ) (hdb : 0 ≤ db)
    (hb : db < beta) (vib : Vib A N) (rho : Rho A N) (hv : ∀ i, 0 < vib.omega i)
    (hr : ∀ i, 0 < rho.omega i) (hE : ∀ a b, a ≠ b → vib.energy a b = 0)
    (hl : ∀ i a b, a ≠ b → vib.linear i a b = 0) (hq : ∀ i j a b, vib.quadratic i j a b = 0)
    (R : BeadPath N P) :
    ∃ s S, computePM eigh beta db vib rho R = .ok s ∧ 0 < S ∧
      s.rho = rhoExact (beta / P) rho R / S ∧ s.g = gExact (beta / P) vib R / S ∧
      s.gPlus = gExact ((beta + db) / P) vib R / S ∧
      s.gMinus = gExact ((beta - db) / P) vib R / S := by
  have hrem : ∀ p, remainder vib R p = 0 := by
    intro p
    rw [← coupling_folded vib (fun i => (hv i).ne')]
    ext a b
    by_cases hab : a = b
    · simp [coupling, Vib.folded, hab, hq]
    · simp [coupling, Vib.folded, hab, hq, hE a b hab, hl _ a b hab]
  have hsym : ∀ x, (potential vib x).IsSymm := by
    intro x
    ext a b
    by_cases hab : a = b
    · subst hab; rfl
    · have hba : b ≠ a := fun h => hab h.symm
      simp [potential, Matrix.sum_apply, hE a b hab, hE b a hba, hl _ a b hab, hl _ b a hba, hq, hab, hba]
  have hg : ∀ s s' t, gSplit s t vib R = gSplit s' t vib R := by
    intro s s' t
    unfold gSplit
    simp only [hrem, smul_zero]
  obtain ⟨s, S, h, hS, h1, h2, h3, h4⟩ :=
    C38_computed_quantities eigh he beta db hdb hb vib rho hv hr hsym R
  exact ⟨s, S, h, hS, h1, h2, by rw [h3, gExact, hg], by rw [h4, gExact, hg]⟩

end

/-- C38 is false in general: with one surface, one mode and a quadratic term, the stored `g+` is not
the integrand at `beta + deltaBeta` in units of the stored factor; it is too large. -/
theorem C38_finite_difference_refuted : ∃ (vib : Vib 1 1) (rho : Rho 1 1) (R : BeadPath 1 3)
    (beta db : ℝ), 0 < db ∧ db < beta ∧ (∀ i, 0 < vib.omega i) ∧ (∀ i, 0 < rho.omega i) ∧
    ∀ eigh, EighSpec eigh → ∃ s, computePM eigh beta db vib rho R = .ok s ∧
      s.g / s.rho = gExact (beta / 3) vib R / rhoExact (beta / 3) rho R ∧
      gExact ((beta + db) / 3) vib R / rhoExact (beta / 3) rho R < s.gPlus / s.rho := by
  let vib : Vib 1 1 := ⟨0, fun _ => 1, fun _ => 0, fun _ _ => Matrix.of fun _ _ => 2⟩
  let rho : Rho 1 1 := ⟨fun _ => 0, fun _ => 1, fun _ _ => 0⟩
  let R : BeadPath 1 3 := fun _ _ => 1
  have hv : ∀ i, 0 < vib.omega i := fun _ => one_pos
  have hr : ∀ i, 0 < rho.omega i := fun _ => one_pos
  have hsym : ∀ x, (potential vib x).IsSymm := by
    intro x; ext a b
    rw [Subsingleton.elim a b]; rfl
  refine ⟨vib, rho, R, 2, 1, one_pos, by norm_num, hv, hr, fun eigh he => ?_⟩
  obtain ⟨s, S, h, hS, h1, h2, h3, -⟩ :=
    C38_computed_quantities eigh he 2 1 zero_le_one (by norm_num) vib rho hv hr hsym R
  simp only [Nat.cast_ofNat] at h1 h2 h3
  have hR := rhoExact_pos (2 / 3) (by norm_num) rho hr R
  refine ⟨s, h, by rw [h1, h2]; field_simp, ?_⟩
  have hrem : ∀ p, remainder vib R p = Matrix.diagonal fun _ => 1 := by
    intro p
    rw [← coupling_folded vib (fun i => (hv i).ne')]
    ext a b
    rw [Subsingleton.elim a 0, Subsingleton.elim b 0]
    simp [coupling, Vib.folded, vib, R]
    norm_num
  have hexp : ∀ c p, NormedSpace.exp (-c • remainder vib R p) = Matrix.diagonal fun _ : Fin 1 => Real.exp (-c) := by
    intro c p
    rw [hrem, ← Matrix.diagonal_smul, Matrix.exp_diagonal]
    congr 1
    funext i
    rw [Pi.coe_exp, Real.exp_eq_exp_ℝ]
    simp
  have hg : ∀ c t, gSplit c t vib R = ∏ p : Fin 3, (Real.exp (-c) *
      step t (vib.energy 0 0) (fun i => vib.linear i 0 0) vib.omega R p) := by
    intro c t
    unfold gSplit
    simp only [hexp, Matrix.diagonal_mul_diagonal]
    rw [prod_diagonal, Matrix.trace_diagonal, Fin.sum_univ_one]
  rw [h1, h3, div_div_div_cancel_right₀ hS.ne']
  refine (div_lt_div_iff_of_pos_right hR).mpr ?_
  unfold gExact
  rw [hg, hg]
  refine prod_lt_prod_of_nonempty (fun p _ => ?_) (fun p _ => ?_) univ_nonempty
  · exact mul_pos (Real.exp_pos _) (step_pos _ _ _ _ (by norm_num) hv _ _)
  · refine mul_lt_mul_of_pos_right (Real.exp_lt_exp.mpr (by norm_num)) (step_pos _ _ _ _ (by norm_num) hv _ _)

/-! ### the hypotheses can be met -/

/-- two coupled surfaces, two modes, all four kinds of terms present: symmetric potential and
positive frequencies -/
noncomputable def demoVib : Vib 2 2 where
  energy := !![1, 0.5; 0.5, 2]
  omega := ![0.1, 0.2]
  linear := fun i => if i = 0 then !![0.3, 0.1; 0.1, -0.3] else !![0, 0.2; 0.2, 0]
  quadratic := fun _ _ => !![0.01, 0.02; 0.02, 0.03]

theorem demoVib_omega : ∀ i, 0 < demoVib.omega i := by
  intro i; fin_cases i <;> norm_num [demoVib]

theorem demoVib_symm : ∀ x, (potential demoVib x).IsSymm := by
  intro x
  ext a b
  fin_cases a <;> fin_cases b <;>
    simp [potential, demoVib, Fin.sum_univ_two, Matrix.transpose_apply]

/-- C34, C36, C37, C38: a coupled system, its diagonal as the sampling model, a path of four beads. -/
example (eigh : Eigh) (he : EighSpec eigh) (R : BeadPath 2 4) : ∃ s,
    compute eigh 1 demoVib (diagonalRho demoVib) R = .ok s ∧ 0 < s.rho := by
  obtain ⟨s, _, h, _, _, _, h2, _⟩ := C34_scaling_cancels eigh he 1 one_pos demoVib (diagonalRho demoVib)
    demoVib_omega demoVib_omega demoVib_symm R
  exact ⟨s, h, h2⟩

example (R : BeadPath 2 4) : ∃ eigh : Eigh, EighSpec eigh ∧
    compute eigh 1 demoVib (diagonalRho demoVib) (fun i p => R i (p + 2))
      = compute eigh 1 demoVib (diagonalRho demoVib) R := by
  obtain ⟨eigh, he⟩ := eigh_exists
  exact ⟨eigh, he, C36_bead_rotation eigh he 1 one_pos demoVib (diagonalRho demoVib) demoVib_omega
    demoVib_omega demoVib_symm R 2⟩

/-- C37: swapping the two surfaces really changes the model -/
example : permVib (Equiv.swap 0 1) demoVib ≠ demoVib := by
  intro h
  have := congrArg (fun m => m.energy 0 0) h
  simp [permVib, demoVib] at this

/-- C34: a potential that is not symmetric at a bead -/
example : ∃ (m : Vib 2 1) (R : BeadPath 1 3), (∀ i, 0 < m.omega i) ∧
    ∀ eigh, compute eigh 1 m (diagonalRho m) R = .error .assertion := by
  refine ⟨⟨!![0, 1; 0, 0], fun _ => 1, fun _ => 0, fun _ _ => 0⟩, fun _ _ => 0, fun _ => one_pos, fun eigh => ?_⟩
  refine (C34_asymmetric_refused eigh 1 one_pos _ _ (fun _ => one_pos) (fun _ => one_pos) _).mpr ⟨0, 0, 1, ?_⟩
  simp [potential]
  norm_num

/-- C34: a potential that is not symmetric but is not refused: the energies differ by less than numpy's
tolerance -/
example : ∃ (m : Vib 2 1) (R : BeadPath 1 3), ¬ m.energy.IsSymm ∧
    ∀ eigh, compute eigh 1 m (diagonalRho m) R ≠ .error .assertion := by
  refine ⟨⟨!![0, 1 / 10 ^ 9; 0, 0], fun _ => 1, fun _ => 0, fun _ _ => 0⟩, fun _ _ => 0, fun h => ?_, fun eigh he => ?_⟩
  · have := congrFun (congrFun h 0) 1
    norm_num [Matrix.transpose_apply] at this
  · obtain ⟨p, a, b, h⟩ := (C34_asymmetric_refused eigh 1 one_pos _ _ (fun _ => one_pos) (fun _ => one_pos) _).mp he
    fin_cases a <;> fin_cases b <;> norm_num [potential] at h

/-- C35, C38 (partial): an uncoupled system with two surfaces and different displacements -/
example : ∃ m : Vib 2 1, (∀ i, 0 < m.omega i) ∧ (∀ a b, a ≠ b → m.energy a b = 0) ∧
    (∀ i a b, a ≠ b → m.linear i a b = 0) ∧ (∀ i j a b, m.quadratic i j a b = 0) ∧
    m.energy 0 0 ≠ m.energy 1 1 ∧ m.linear 0 0 0 ≠ m.linear 0 1 1 := by
  refine ⟨⟨!![0, 0; 0, 1], fun _ => 1, fun _ => !![1, 0; 0, -1], fun _ _ => 0⟩, fun _ => one_pos, ?_, ?_, ?_, ?_, ?_⟩
  · intro a b h; fin_cases a <;> fin_cases b <;> simp_all
  · intro _ a b h; fin_cases a <;> fin_cases b <;> simp_all
  · intro _ _ _ _; rfl
  · simp
  · norm_num

end Pibronic.Props.PIMC
