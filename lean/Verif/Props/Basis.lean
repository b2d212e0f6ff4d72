import Verif.Lemmas.Refined
import Verif.Props.Trotter

set_option autoImplicit false
set_option linter.unusedSectionVars false

/-!
C111: the electronic basis in which a system is written does not change the answer of many beads.
C112: the answer converges with the number of beads.
C106 for systems whose surfaces are coupled by terms that depend on the coordinates, when some electronic basis removes
these terms.
-/
namespace Pibronic.Props.Basis
open Py Finset Filter Topology Spec.PIMC Pibronic.PIMC Pibronic.Props.PIMC Pibronic.Props.Sampling Pibronic.Props.Trotter
  MeasureTheory ProbabilityTheory

variable {A N : ℕ} [NeZero A]

/-! ### helpers -/

theorem potential_symm (m : Vib A N) (hm : Symmetric m) (x : Fin N → ℝ) : (potential m x).IsSymm := by
  unfold potential Matrix.IsSymm
  simp only [Matrix.transpose_add, Matrix.transpose_sum, Matrix.transpose_smul, hm.1.eq, Matrix.transpose_one,
    (hm.2.1 _).eq, (hm.2.2 _ _).eq]

theorem small_eventually (K ε : ℝ) (hε : 0 < ε) : ∀ᶠ P : ℕ in atTop, K / Real.sqrt P < ε := by
  have h : Tendsto (fun P : ℕ => K / Real.sqrt P) atTop (𝓝 0) :=
    Tendsto.const_div_atTop (Real.tendsto_sqrt_atTop.comp tendsto_natCast_atTop_atTop) K
  exact (tendsto_order.1 h).2 ε hε

private theorem hessian_pos (m : Vib A N) (hv : ∀ i, 0 < m.omega i) (a : Fin A) (f : Fin N → ℝ) (hf : NormalModes m a f)
    (x : Fin N → ℝ) (hx : x ≠ 0) : 0 < quad (hessian m a) x := by
  obtain ⟨hf0, V, hV, hF⟩ := hf
  set y : Fin N → ℝ := fun i => x i / Real.sqrt (m.omega i) with hy
  have hsq : ∀ i, 0 < Real.sqrt (m.omega i) := fun i => Real.sqrt_pos.mpr (hv i)
  have e : quad (hessian m a) x = quad (V * Matrix.diagonal (fun k => f k ^ 2) * V.transpose) y := by
    unfold quad
    refine sum_congr rfl fun i _ => sum_congr rfl fun j _ => ?_
    have h1 : (V * Matrix.diagonal (fun k => f k ^ 2) * V.transpose) i j
        = Real.sqrt (m.omega i) * hessian m a i j * Real.sqrt (m.omega j) := by
      rw [hF, Matrix.mul_apply]
      refine sum_congr rfl fun k _ => ?_
      rw [Matrix.mul_diagonal, Matrix.transpose_apply]
      ring
    rw [h1]
    simp only [hy]
    have := (hsq i).ne'
    have := (hsq j).ne'
    field_simp
  rw [e, quad_diag]
  by_contra hneg
  have h0 : ∀ k, (∑ i, V i k * y i) ^ 2 = 0 := by
    have hs : ∑ k, f k ^ 2 * (∑ i, V i k * y i) ^ 2 = 0 :=
      le_antisymm (not_lt.mp hneg) (sum_nonneg fun k _ => by positivity)
    intro k
    have := (sum_eq_zero_iff_of_nonneg fun k _ => by positivity).mp hs k (mem_univ k)
    exact (mul_eq_zero.mp this).resolve_left (pow_ne_zero _ (hf0 k).ne')
  have h1 := ortho_form V hV y
  simp only [h0, sum_const_zero] at h1
  refine hx (funext fun i => ?_)
  have h2 := (sum_eq_zero_iff_of_nonneg fun i _ => sq_nonneg (y i)).mp h1.symm i (mem_univ i)
  have h3 : x i / Real.sqrt (m.omega i) = 0 := pow_eq_zero_iff (two_ne_zero) |>.mp h2
  exact (div_eq_zero_iff.mp h3).resolve_right (hsq i).ne'

theorem constant_confined (m : Vib A N) (hv : ∀ i, 0 < m.omega i) (hm : ConstantCoupling m) (f : Fin A → Fin N → ℝ)
    (hf : ∀ a, NormalModes m a (f a)) : Confined m := by
  intro x hx v hvv
  have e : curvature m x v = ∑ a, v a ^ 2 * quad (hessian m a) x := by
    have h1 : ∀ i j, ∑ a, ∑ b, v a * m.quadratic i j a b * v b = ∑ a, v a ^ 2 * m.quadratic i j a a := by
      intro i j
      refine sum_congr rfl fun a _ => ?_
      rw [sum_eq_single a]
      · ring
      · intro b _ hb
        rw [(hm a b (Ne.symm hb)).2.1 i j]; ring
      · exact fun h => absurd (mem_univ a) h
    have h2 : ∀ a, quad (hessian m a) x = ∑ i, m.omega i * x i ^ 2 + ∑ i, ∑ j, x i * x j * m.quadratic i j a a := by
      intro a
      unfold quad hessian
      simp only [Matrix.of_apply, mul_add, add_mul, sum_add_distrib, mul_ite, ite_mul, mul_zero, zero_mul, sum_ite_eq,
        mem_univ, if_true]
      congr 1
      · exact sum_congr rfl fun i _ => by ring
      · exact sum_congr rfl fun i _ => sum_congr rfl fun j _ => by ring
    unfold curvature
    simp only [h1, h2, mul_add, sum_add_distrib]
    congr 1
    · rw [← sum_mul, mul_comm]
    · simp only [mul_sum]
      refine (sum_congr rfl fun i _ => sum_comm).trans (sum_comm.trans ?_)
      exact sum_congr rfl fun a _ => sum_congr rfl fun i _ => sum_congr rfl fun j _ => by ring
  rw [e]
  obtain ⟨a, ha⟩ := Function.ne_iff.mp hvv
  have h0 : ∀ a, 0 < quad (hessian m a) x := fun a => hessian_pos m hv a (f a) (hf a) x hx
  refine sum_pos' (fun b _ => mul_nonneg (sq_nonneg _) (h0 b).le) ⟨a, mem_univ a, mul_pos ?_ (h0 a)⟩
  exact pow_pos (abs_pos.mpr ha) 2 |>.trans_eq (sq_abs _)

theorem constant_symmetric (m : Vib A N) (hm : ConstantCoupling m) (hs : m.energy.IsSymm) : Symmetric m := by
  have hd : ∀ M : Matrix (Fin A) (Fin A) ℝ, (∀ a b, a ≠ b → M a b = 0) → M.IsSymm := by
    intro M h
    ext a b
    rw [Matrix.transpose_apply]
    by_cases e : a = b
    · rw [e]
    · rw [h a b e, h b a (Ne.symm e)]
  exact ⟨hs, fun i => hd _ fun a b h => (hm a b h).1 i, fun i j => hd _ fun a b h => (hm a b h).2.1 i j⟩

/-! ### C111 -/

/-- C111: with enough beads the expectation of the stored ratio times the analytic partition function of the sampling
model is the same, as closely as one likes, for a system and for the same system written in another electronic basis,
whatever sampling models are used for the two. -/
theorem C111_basis (eigh : Eigh) (he : EighSpec eigh) (beta : ℝ) (hb : 0 < beta) (vib : Vib A N) (rho rho' : Rho A N)
    (hv : ∀ i, 0 < vib.omega i) (hr : ∀ i, 0 < rho.omega i) (hr' : ∀ i, 0 < rho'.omega i) (hsym : Symmetric vib)
    (hconf : Confined vib) (U : Matrix (Fin A) (Fin A) ℝ) (hU : U.transpose * U = 1) (ε : ℝ) (hε : 0 < ε) :
    ∃ P₀, ∀ (P : ℕ) [NeZero P], P₀ ≤ P →
      Integrable (fun R : BeadPath N P => storedRatio eigh (beta / P) vib rho R) (sampleLaw P eigh beta rho) ∧
      Integrable (fun R : BeadPath N P => storedRatio eigh (beta / P) (rotate U vib) rho' R) (sampleLaw P eigh beta rho') ∧
      |(∫ R : BeadPath N P, storedRatio eigh (beta / P) vib rho R ∂(sampleLaw P eigh beta rho)) * harmonicZ beta rho
        - (∫ R : BeadPath N P, storedRatio eigh (beta / P) (rotate U vib) rho' R ∂(sampleLaw P eigh beta rho'))
          * harmonicZ beta rho'| < ε := by
  have hsym' := rotate_symm U vib hsym
  obtain ⟨K, -, h1⟩ := plain_limit beta hb vib hv hsym hconf
  obtain ⟨K', -, h2⟩ := plain_limit beta hb (rotate U vib) hv hsym' (rotate_confined U hU vib hconf)
  obtain ⟨n, hn⟩ := eventually_atTop.mp (((h1.and h2).and ((small_eventually K (ε / 2) (half_pos hε)).and
    (small_eventually K' (ε / 2) (half_pos hε)))))
  refine ⟨max 3 n, fun P _ hP => ?_⟩
  obtain ⟨⟨g1, g2⟩, k1, k2⟩ := hn P ((le_max_right _ _).trans hP)
  have hP3 : 3 ≤ P := (le_max_left _ _).trans hP
  obtain ⟨i1, -, d1⟩ := @g1 _
  obtain ⟨i2, -, d2⟩ := @g2 _
  have hpi : (0 : ℝ) < Real.sqrt (2 * Real.pi) ^ (N * P) := pow_pos (Real.sqrt_pos.mpr (by positivity)) _
  refine ⟨(C59_unbiased hP3 eigh he beta hb vib rho hv hr (potential_symm vib hsym)).1.mpr i1,
    (C59_unbiased hP3 eigh he beta hb (rotate U vib) rho' hv hr' (potential_symm _ hsym')).1.mpr i2, ?_⟩
  rw [C61_ratio_times_analytic hP3 eigh he beta hb vib rho hv hr (potential_symm vib hsym),
    C61_ratio_times_analytic hP3 eigh he beta hb (rotate U vib) rho' hv hr' (potential_symm _ hsym'), ← sub_div, abs_div,
    abs_of_pos hpi, div_lt_iff₀ hpi]
  simp only [gPlain_rotate U hU] at d2
  have k1' := mul_lt_mul_of_pos_right k1 hpi
  have k2' := mul_lt_mul_of_pos_right k2 hpi
  have t1 := abs_sub_le (∫ R : BeadPath N P, gExact (beta / P) vib R) (∫ R : BeadPath N P, gPlain (beta / P) vib R)
    (∫ R : BeadPath N P, gExact (beta / P) (rotate U vib) R)
  rw [abs_sub_comm] at d2
  linarith

/-! ### C112 -/

/-- C112: there is a number, for each system and temperature, that the expectation of the stored ratio times the analytic
partition function of the sampling model approaches when the number of beads grows.  The sampling model does not change
this number, and the distance is at most a constant over the square root of the number of beads, with one constant for
all sampling models. -/
theorem C112_converges (eigh : Eigh) (he : EighSpec eigh) (beta : ℝ) (hb : 0 < beta) (vib : Vib A N)
    (hv : ∀ i, 0 < vib.omega i) (hsym : Symmetric vib) (hconf : Confined vib) :
    ∃ Z K : ℝ, ∃ P₀, ∀ (P : ℕ) [NeZero P], P₀ ≤ P → ∀ rho : Rho A N, (∀ i, 0 < rho.omega i) →
      Integrable (fun R : BeadPath N P => storedRatio eigh (beta / P) vib rho R) (sampleLaw P eigh beta rho) ∧
      |(∫ R : BeadPath N P, storedRatio eigh (beta / P) vib rho R ∂(sampleLaw P eigh beta rho)) * harmonicZ beta rho - Z|
        ≤ K / Real.sqrt P := by
  obtain ⟨Z, K, -, h⟩ := exact_converges beta hb vib hv hsym hconf
  obtain ⟨n, hn⟩ := eventually_atTop.mp h
  refine ⟨Z, K, max 3 n, fun P _ hP rho hr => ?_⟩
  have hP3 : 3 ≤ P := (le_max_left _ _).trans hP
  have hPn := hn P ((le_max_right _ _).trans hP)
  obtain ⟨i1, d⟩ := hPn
  refine ⟨(C59_unbiased hP3 eigh he beta hb vib rho hv hr (potential_symm vib hsym)).1.mpr i1, ?_⟩
  rw [C61_ratio_times_analytic hP3 eigh he beta hb vib rho hv hr (potential_symm vib hsym)]
  exact d

/-- C112: two numbers of beads that are both large enough give the same answer within any tolerance, whatever sampling
models are used with them. -/
theorem C112_more_beads (eigh : Eigh) (he : EighSpec eigh) (beta : ℝ) (hb : 0 < beta) (vib : Vib A N)
    (hv : ∀ i, 0 < vib.omega i) (hsym : Symmetric vib) (hconf : Confined vib) (ε : ℝ) (hε : 0 < ε) :
    ∃ P₀, ∀ (P P' : ℕ) [NeZero P] [NeZero P'], P₀ ≤ P → P₀ ≤ P' → ∀ rho rho' : Rho A N, (∀ i, 0 < rho.omega i) →
      (∀ i, 0 < rho'.omega i) →
      |(∫ R : BeadPath N P, storedRatio eigh (beta / P) vib rho R ∂(sampleLaw P eigh beta rho)) * harmonicZ beta rho
        - (∫ R : BeadPath N P', storedRatio eigh (beta / P') vib rho' R ∂(sampleLaw P' eigh beta rho')) * harmonicZ beta rho'|
        < ε := by
  obtain ⟨Z, K, n, h⟩ := C112_converges eigh he beta hb vib hv hsym hconf
  obtain ⟨n', hn'⟩ := eventually_atTop.mp (small_eventually K (ε / 2) (half_pos hε))
  refine ⟨max n n', fun P P' _ _ hP hP' rho rho' hr hr' => ?_⟩
  have h1 := (h P ((le_max_left _ _).trans hP) rho hr).2
  have h2 := (h P' ((le_max_left _ _).trans hP') rho' hr').2
  have k1 := hn' P ((le_max_right _ _).trans hP)
  have k2 := hn' P' ((le_max_right _ _).trans hP')
  rw [abs_sub_comm] at h2
  have := abs_sub_le ((∫ R : BeadPath N P, storedRatio eigh (beta / P) vib rho R ∂(sampleLaw P eigh beta rho)) * harmonicZ beta rho)
    Z ((∫ R : BeadPath N P', storedRatio eigh (beta / P') vib rho' R ∂(sampleLaw P' eigh beta rho')) * harmonicZ beta rho')
  linarith

/-! ### C106 -/

/-- C106 for systems that some electronic basis turns into surfaces coupled by constants only: with enough beads the
expectation of the stored ratio times the analytic partition function of the sampling model is as close as one likes to
the partition function of the system.  The couplings may depend on the coordinates to second order.  `C106_exact` has
all systems whose potential rises in every direction; here the partition function is known in closed form. -/
theorem C106_rotated (eigh : Eigh) (he : EighSpec eigh) (beta : ℝ) (hb : 0 < beta) (d : Vib A N) (rho : Rho A N)
    (hv : ∀ i, 0 < d.omega i) (hr : ∀ i, 0 < rho.omega i) (hsym : d.energy.IsSymm) (hcc : ConstantCoupling d)
    (f : Fin A → Fin N → ℝ) (hf : ∀ a, NormalModes d a (f a)) (U : Matrix (Fin A) (Fin A) ℝ) (hU : U.transpose * U = 1)
    (ε : ℝ) (hε : 0 < ε) :
    ∃ P₀, ∀ (P : ℕ) [NeZero P], P₀ ≤ P →
      Integrable (fun R : BeadPath N P => storedRatio eigh (beta / P) (rotate U d) rho R) (sampleLaw P eigh beta rho) ∧
      |(∫ R : BeadPath N P, storedRatio eigh (beta / P) (rotate U d) rho R ∂(sampleLaw P eigh beta rho)) * harmonicZ beta rho
        - constantCouplingZ beta d f| < ε := by
  obtain ⟨n₁, h₁⟩ := C106_constant_coupling eigh he beta hb d (diagonalRho d) hv hv hsym hcc f hf (ε / 2) (half_pos hε)
  obtain ⟨n₂, h₂⟩ := C111_basis eigh he beta hb d (diagonalRho d) rho hv hv hr (constant_symmetric d hcc hsym)
    (constant_confined d hv hcc f hf) U hU (ε / 2) (half_pos hε)
  refine ⟨max n₁ n₂, fun P _ hP => ?_⟩
  obtain ⟨-, g1⟩ := h₁ P ((le_max_left _ _).trans hP)
  obtain ⟨-, i2, g2⟩ := h₂ P ((le_max_right _ _).trans hP)
  refine ⟨i2, ?_⟩
  rw [abs_sub_comm] at g2
  have := abs_sub_le ((∫ R : BeadPath N P, storedRatio eigh (beta / P) (rotate U d) rho R ∂(sampleLaw P eigh beta rho))
    * harmonicZ beta rho) ((∫ R : BeadPath N P, storedRatio eigh (beta / P) d (diagonalRho d) R
      ∂(sampleLaw P eigh beta (diagonalRho d))) * harmonicZ beta (diagonalRho d)) (constantCouplingZ beta d f)
  linarith

/-! ### the hypotheses can be met -/

/-- the Jahn-Teller model: two surfaces, two modes of the same frequency, couplings linear in the coordinates that no
basis removes, and a quadratic coupling -/
noncomputable def jahnTeller : Vib 2 2 where
  energy := !![1, 0; 0, 1]
  omega := fun _ => 1
  linear := fun i => if i = 0 then !![1/2, 0; 0, -1/2] else !![0, 1/2; 1/2, 0]
  quadratic := fun i j => if i = j then !![0, 1/4; 1/4, 0] else 0

/-- a rotation by an angle with sine 3/5 -/
noncomputable def turn : Matrix (Fin 2) (Fin 2) ℝ := !![4/5, -3/5; 3/5, 4/5]

theorem turn_ortho : turn.transpose * turn = 1 := by
  ext a b
  fin_cases a <;> fin_cases b <;> simp [turn, Matrix.mul_apply, Fin.sum_univ_two] <;> norm_num

private theorem sq_pos_of_ne {n : ℕ} (x : Fin n → ℝ) (hx : x ≠ 0) : 0 < ∑ i, x i ^ 2 := by
  obtain ⟨i, hi⟩ := Function.ne_iff.mp hx
  exact sum_pos' (fun _ _ => sq_nonneg _) ⟨i, mem_univ i, pow_pos (abs_pos.mpr hi) 2 |>.trans_eq (sq_abs _)⟩

theorem jahnTeller_symmetric : Symmetric jahnTeller := by
  refine ⟨?_, ?_, ?_⟩
  · ext a b; fin_cases a <;> fin_cases b <;> simp [jahnTeller]
  · intro i; ext a b; fin_cases i <;> fin_cases a <;> fin_cases b <;> simp [jahnTeller]
  · intro i j; ext a b; fin_cases i <;> fin_cases j <;> fin_cases a <;> fin_cases b <;> simp [jahnTeller]

theorem jahnTeller_confined : Confined jahnTeller := by
  intro x hx v hv
  have h1 := mul_pos (sq_pos_of_ne x hx) (sq_pos_of_ne v hv)
  simp only [Fin.sum_univ_two] at h1
  simp [curvature, jahnTeller, Fin.sum_univ_two]
  nlinarith [mul_nonneg (add_nonneg (sq_nonneg (x 0)) (sq_nonneg (x 1))) (sq_nonneg (v 0 + v 1)),
    mul_nonneg (add_nonneg (sq_nonneg (x 0)) (sq_nonneg (x 1))) (sq_nonneg (v 0 - v 1))]

/-- C111: the Jahn-Teller model, in its basis and turned. -/
example (eigh : Eigh) (he : EighSpec eigh) : ∃ P₀, ∀ (P : ℕ) [NeZero P], P₀ ≤ P →
    Integrable (fun R : BeadPath 2 P => storedRatio eigh (3 / P) jahnTeller (diagonalRho jahnTeller) R)
      (sampleLaw P eigh 3 (diagonalRho jahnTeller)) ∧
    Integrable (fun R : BeadPath 2 P => storedRatio eigh (3 / P) (rotate turn jahnTeller) (diagonalRho (rotate turn jahnTeller)) R)
      (sampleLaw P eigh 3 (diagonalRho (rotate turn jahnTeller))) ∧
    |(∫ R : BeadPath 2 P, storedRatio eigh (3 / P) jahnTeller (diagonalRho jahnTeller) R
        ∂(sampleLaw P eigh 3 (diagonalRho jahnTeller))) * harmonicZ 3 (diagonalRho jahnTeller)
      - (∫ R : BeadPath 2 P, storedRatio eigh (3 / P) (rotate turn jahnTeller) (diagonalRho (rotate turn jahnTeller)) R
        ∂(sampleLaw P eigh 3 (diagonalRho (rotate turn jahnTeller)))) * harmonicZ 3 (diagonalRho (rotate turn jahnTeller))|
      < 1 / 100 := by
  exact C111_basis eigh he 3 (by norm_num) jahnTeller _ _ (fun i => by simp [jahnTeller])
    (fun i => by simp [jahnTeller, diagonalRho]) (fun i => by simp [jahnTeller, diagonalRho, rotate]) jahnTeller_symmetric
    jahnTeller_confined turn turn_ortho _ (by norm_num)

/-- C112: the Jahn-Teller model. -/
example (eigh : Eigh) (he : EighSpec eigh) : ∃ P₀, ∀ (P P' : ℕ) [NeZero P] [NeZero P'], P₀ ≤ P → P₀ ≤ P' →
    |(∫ R : BeadPath 2 P, storedRatio eigh (3 / P) jahnTeller (diagonalRho jahnTeller) R
        ∂(sampleLaw P eigh 3 (diagonalRho jahnTeller))) * harmonicZ 3 (diagonalRho jahnTeller)
      - (∫ R : BeadPath 2 P', storedRatio eigh (3 / P') jahnTeller (diagonalRho jahnTeller) R
        ∂(sampleLaw P' eigh 3 (diagonalRho jahnTeller))) * harmonicZ 3 (diagonalRho jahnTeller)| < 1 / 100 := by
  obtain ⟨n, h⟩ := C112_more_beads eigh he 3 (by norm_num) jahnTeller (fun i => by simp [jahnTeller]) jahnTeller_symmetric
    jahnTeller_confined (1 / 100) (by norm_num)
  exact ⟨n, fun P P' _ _ hP hP' => h P P' hP hP' _ _ (fun i => by simp [jahnTeller, diagonalRho])
    (fun i => by simp [jahnTeller, diagonalRho])⟩

/-- the turned system has couplings that depend on the coordinates: the first mode couples the two surfaces -/
noncomputable def split : Vib 2 1 where
  energy := !![1, 0; 0, 2]
  omega := fun _ => 1
  linear := fun _ => !![1, 0; 0, -1]
  quadratic := fun _ _ => !![1, 0; 0, -1/2]

example : (rotate turn split).linear 0 0 1 = 24 / 25 ∧ (rotate turn split).quadratic 0 0 0 1 = 18 / 25 := by
  constructor <;> simp only [rotate, Matrix.mul_apply, Fin.sum_univ_two, Matrix.transpose_apply] <;>
    simp [split, turn] <;> norm_num

/-- C106: the turned system, sampled with its own diagonal. -/
example (eigh : Eigh) (he : EighSpec eigh) : ∃ f, ∃ P₀, ∀ (P : ℕ) [NeZero P], P₀ ≤ P →
    Integrable (fun R : BeadPath 1 P => storedRatio eigh (2 / P) (rotate turn split) (diagonalRho (rotate turn split)) R)
      (sampleLaw P eigh 2 (diagonalRho (rotate turn split))) ∧
    |(∫ R : BeadPath 1 P, storedRatio eigh (2 / P) (rotate turn split) (diagonalRho (rotate turn split)) R
        ∂(sampleLaw P eigh 2 (diagonalRho (rotate turn split)))) * harmonicZ 2 (diagonalRho (rotate turn split))
      - constantCouplingZ 2 split f| < 1 / 100 := by
  have hw : ∀ i, 0 < split.omega i := fun i => by simp [split]
  have hpd : ∀ a, (hessian split a).PosDef := by
    intro a
    refine Matrix.posDef_iff_dotProduct_mulVec.mpr ⟨?_, fun {x} hx => ?_⟩
    · ext i j
      fin_cases a <;> fin_cases i <;> fin_cases j <;> simp [hessian, split]
    · have hs := sq_pos_of_ne x hx
      simp only [Fin.sum_univ_one] at hs
      fin_cases a <;> simp [hessian, split, dotProduct, Matrix.mulVec] <;> nlinarith
  choose f hf using fun a => C106_normal_modes split hw a (hpd a)
  refine ⟨f, C106_rotated eigh he 2 two_pos split (diagonalRho (rotate turn split)) hw hw ?_ ?_ f hf turn turn_ortho _
    (by norm_num)⟩
  · ext a b; fin_cases a <;> fin_cases b <;> simp [split]
  · intro a b h
    refine ⟨fun i => ?_, fun i j => ?_, fun h0 => ?_⟩ <;> fin_cases a <;> fin_cases b <;> simp [split] at *

end Pibronic.Props.Basis
