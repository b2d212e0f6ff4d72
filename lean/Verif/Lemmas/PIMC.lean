import Verif.Spec.PIMC
import Mathlib.Analysis.Matrix.Spectrum
import Mathlib.Tactic.FieldSimp
import Mathlib.Tactic.Ring
import Mathlib.Tactic.Linarith
import Mathlib.Tactic.Positivity

set_option autoImplicit false
set_option linter.unusedSectionVars false

/-! Helper lemmas connecting the code's formulas to the specification of the integrands. -/
namespace Pibronic.PIMC
open Py Constants Finset Spec.PIMC

theorem sum_square {N : ℕ} (l w x : Fin N → ℝ) (hw : ∀ i, w i ≠ 0) :
    (∑ i, w i / 2 * (x i - centre (l i) (w i)) ^ 2) - ∑ i, l i ^ 2 / (2 * w i)
      = (∑ i, w i * x i ^ 2 / 2) + ∑ i, x i * l i := by
  rw [← sum_sub_distrib, ← sum_add_distrib]
  refine sum_congr rfl fun i _ => ?_
  have := hw i
  unfold centre
  field_simp
  ring

theorem coupling_folded {A N P : ℕ} (m : Vib A N) (hw : ∀ i, m.omega i ≠ 0) (R : BeadPath N P)
    (p : Fin P) : coupling m.folded R p = remainder m R p := by
  ext b c
  have hq : (∑ d, ∑ e, R e p * (0.5 * m.quadratic d e b c) * R d p)
      = ∑ i, ∑ j, (R i p * R j p / 2) * m.quadratic i j b c := by
    refine sum_congr rfl fun d _ => sum_congr rfl fun e _ => ?_
    ring
  simp only [coupling, Vib.folded, remainder, potential, Matrix.sub_apply, Matrix.add_apply,
    Matrix.smul_apply, Matrix.sum_apply, smul_eq_mul]
  rw [hq]
  by_cases h : b = c
  · subst h
    have := sum_square (fun i => m.linear i b b) m.omega (fun i => R i p) hw
    simp only [if_true, zero_mul, sum_const_zero, Matrix.one_apply_eq, Matrix.diagonal_apply_eq,
      oscillator, bottom]
    linarith
  · simp only [h, if_false, Matrix.one_apply_ne h, Matrix.diagonal_apply_ne _ h]
    have : ∑ x, m.linear x b c * R x p = ∑ x, R x p * m.linear x b c :=
      sum_congr rfl fun _ _ => mul_comm _ _
    rw [this]
    ring

theorem half_rpow {N : ℕ} (f : Fin N → ℝ) (hf : ∀ i, 0 < f i) :
    (∏ i, (f i)⁻¹) ^ (0.5 : ℝ) = ∏ i, (Real.sqrt (f i))⁻¹ := by
  rw [← Real.finsetProd_rpow _ _ (fun i _ => (inv_pos.mpr (hf i)).le)]
  refine prod_congr rfl fun i _ => ?_
  rw [show (0.5 : ℝ) = 1 / 2 by norm_num, ← Real.sqrt_eq_rpow, Real.sqrt_inv]

/-- One O matrix entry is the propagator of the displaced oscillators. -/
theorem oElement_eq {A N P : ℕ} [NeZero P] (t : ℝ) (ht : 0 < t) (w : Fin N → ℝ) (hw : ∀ i, 0 < w i)
    (e d : Fin A → ℝ) (l : Fin N → Fin A → ℝ) (sh : Fin A → Fin N → ℝ)
    (hd : ∀ a, d a = -0.5 * ∑ i, l i a ^ 2 / w i) (hs : ∀ a i, sh a i = -l i a / w i)
    (R : BeadPath N P) (p : Fin P) (a : Fin A) :
    oRaw (consts t w e d) sh R p a * (consts t w e d).prefactor a
      = step t (e a) (fun i => l i a) w R p := by
  have hsinh : ∀ i, 0 < Real.sinh (t * w i) := fun i => Real.sinh_pos_iff.mpr (mul_pos ht (hw i))
  simp only [oRaw, consts, step, hbar]
  simp only [show (1.0 : ℝ) = 1 by norm_num, one_mul]
  rw [half_rpow _ hsinh, hd a]
  have hb : e a + -0.5 * ∑ i, l i a ^ 2 / w i = bottom (e a) (fun i => l i a) w := by
    unfold bottom
    rw [sub_eq_add_neg, mul_sum, ← sum_neg_distrib]
    congr 1
    refine sum_congr rfl fun i _ => ?_
    have := (hw i).ne'
    field_simp
    norm_num
    ring
  rw [hb]
  have hp : ∀ i, propagator t (w i) (R i p - centre (l i a) (w i)) (R i (p + 1) - centre (l i a) (w i))
      = Real.exp (-0.5 * ((Real.tanh (t * w i))⁻¹ * ((R i p - sh a i) ^ 2 + (R i (p + 1) - sh a i) ^ 2)
        - 2 * (Real.sinh (t * w i))⁻¹ * (R i p - sh a i) * (R i (p + 1) - sh a i)))
        * (Real.sqrt (Real.sinh (t * w i)))⁻¹ := by
    intro i
    rw [hs a i]
    unfold propagator centre
    rw [div_eq_mul_inv]
    congr 2
    rw [Real.tanh_eq_sinh_div_cosh, inv_div]
    have h1 := (hsinh i).ne'
    generalize R i p - -l i a / w i = x
    generalize R i (p + 1) - -l i a / w i = y
    field_simp
    ring
  simp only [hp]
  rw [prod_mul_distrib, ← Real.exp_sum, ← mul_sum]
  ring

theorem Rho.oElement_eq {A N P : ℕ} [NeZero P] (t : ℝ) (ht : 0 < t) (m : Rho A N)
    (hw : ∀ i, 0 < m.omega i) (R : BeadPath N P) (p : Fin P) (a : Fin A) :
    oRaw (m.consts t) m.shift R p a * (m.consts t).prefactor a
      = step t (m.energy a) (fun i => m.linear i a) m.omega R p :=
  PIMC.oElement_eq t ht m.omega hw m.energy m.delta m.linear m.shift (fun _ => rfl) (fun _ _ => rfl) R p a

theorem Vib.oElement_eq {A N P : ℕ} [NeZero P] (t : ℝ) (ht : 0 < t) (m : Vib A N)
    (hw : ∀ i, 0 < m.omega i) (R : BeadPath N P) (p : Fin P) (a : Fin A) :
    oRaw (m.consts t) m.shift R p a * (m.consts t).prefactor a
      = step t (m.energy a a) (fun i => m.linear i a a) m.omega R p :=
  PIMC.oElement_eq t ht m.omega hw (fun a => m.energy a a) m.delta (fun i a => m.linear i a a) m.shift
    (fun _ => rfl) (fun _ _ => rfl) R p a

theorem propagator_pos (t w x y : ℝ) (h : 0 < t * w) : 0 < propagator t w x y := by
  have := Real.sinh_pos_iff.mpr h
  unfold propagator
  positivity

theorem step_pos {N P : ℕ} [NeZero P] (t e : ℝ) (l w : Fin N → ℝ) (ht : 0 < t) (hw : ∀ i, 0 < w i)
    (R : BeadPath N P) (p : Fin P) : 0 < step t e l w R p := by
  unfold step
  exact mul_pos (Real.exp_pos _) (prod_pos fun i _ => propagator_pos _ _ _ _ (mul_pos ht (hw i)))

/-! ### the M matrix -/

theorem mMatrix_eq {A : ℕ} (t : ℝ) (C V : Matrix (Fin A) (Fin A) ℝ) (v : Fin A → ℝ)
    (hV : V.transpose * V = 1) (hC : C = V * Matrix.diagonal v * V.transpose) :
    mMatrix t (v, V) = NormedSpace.exp (-t • C) := by
  have hV' : V * V.transpose = 1 := mul_eq_one_comm.mp hV
  have hinv : V⁻¹ = V.transpose := Matrix.inv_eq_left_inv hV
  have hu : IsUnit V := ⟨⟨V, V.transpose, hV', hV⟩, rfl⟩
  have h1 : -t • C = V * Matrix.diagonal (fun i => -t * v i) * V⁻¹ := by
    rw [hC, hinv, ← Matrix.smul_mul, ← Matrix.mul_smul, ← Matrix.diagonal_smul]
    rfl
  rw [h1, Matrix.exp_conj V _ hu, Matrix.exp_diagonal, hinv]
  have h2 : NormedSpace.exp (fun i => -t * v i) = fun i => Real.exp (-t * v i) := by
    funext i
    rw [Pi.coe_exp, Real.exp_eq_exp_ℝ]
  rw [h2]
  ext c e
  rw [mMatrix, Matrix.mul_apply]
  refine sum_congr rfl fun d _ => ?_
  rw [Matrix.mul_diagonal, Matrix.transpose_apply]

/-- `eigh` exists (so its contract is not contradictory). -/
theorem eigh_exists : ∃ eigh : Eigh, EighSpec eigh := by
  classical
  refine ⟨fun n C => if h : C.IsSymm then
    ((show C.IsHermitian by simpa [Matrix.IsHermitian] using h.eq).eigenvalues,
      ((show C.IsHermitian by simpa [Matrix.IsHermitian] using h.eq).eigenvectorUnitary :
        Matrix (Fin n) (Fin n) ℝ)) else (0, 1), fun n C h => ?_⟩
  have hH : C.IsHermitian := by simpa [Matrix.IsHermitian] using h.eq
  simp only [h, dite_true]
  constructor
  · have := Matrix.mem_unitaryGroup_iff'.mp hH.eigenvectorUnitary.2
    simpa [Matrix.star_eq_conjTranspose] using this
  · have := hH.spectral_theorem
    rw [Unitary.conjStarAlgAut_apply] at this
    simpa [Matrix.star_eq_conjTranspose] using this

/-! ### products -/

theorem numerator_eq {A P : ℕ} (m o : Fin P → Matrix (Fin A) (Fin A) ℝ) :
    numerator m o = Matrix.trace (List.ofFn fun p => m p * o p).prod := by
  have key : ∀ (l : List (Fin P)) (acc : Matrix (Fin A) (Fin A) ℝ),
      l.foldl (fun acc p => acc * m p * o p) acc = acc * (l.map fun p => m p * o p).prod := by
    intro l
    induction l with
    | nil => simp
    | cons p l ih =>
      intro acc
      rw [List.foldl_cons, ih, List.map_cons, List.prod_cons]
      simp only [Matrix.mul_assoc]
  rw [numerator, key, Matrix.one_mul, List.ofFn_eq_map]

theorem prod_smul_ofFn {A P : ℕ} (c : Fin P → ℝ) (m : Fin P → Matrix (Fin A) (Fin A) ℝ) :
    (List.ofFn fun p => c p • m p).prod = (∏ p, c p) • (List.ofFn m).prod := by
  induction P with
  | zero => simp
  | succ P ih =>
    rw [List.ofFn_succ, List.prod_cons, ih (fun p => c p.succ) (fun p => m p.succ), List.ofFn_succ,
      List.prod_cons, Fin.prod_univ_succ, Matrix.smul_mul, Matrix.mul_smul, smul_smul]

theorem numerator_scaleO {A P : ℕ} (s : Fin P → ℝ) (m o : Fin P → Matrix (Fin A) (Fin A) ℝ) :
    numerator m (scaleO s o) = numerator m o / ∏ p, s p := by
  rw [numerator_eq, numerator_eq]
  have h : (fun p => m p * scaleO s o p) = fun p => (s p)⁻¹ • (m p * o p) := by
    funext p
    rw [← Matrix.mul_smul]
    congr 1
    ext a b
    simp [scaleO, div_eq_inv_mul]
  rw [h, prod_smul_ofFn, Matrix.trace_smul, prod_inv_distrib, smul_eq_mul, div_eq_inv_mul]

theorem denominator_scaleO {A P : ℕ} (s : Fin P → ℝ) (o : Fin P → Matrix (Fin A) (Fin A) ℝ) :
    denominator (scaleO s o) = denominator o / ∏ p, s p := by
  simp only [denominator, Matrix.trace, Matrix.diag, scaleO, prod_div_distrib]
  rw [sum_div]

theorem amax_pos {A : ℕ} [NeZero A] (o : Matrix (Fin A) (Fin A) ℝ) (a : Fin A) (h : 0 < o a a) :
    0 < amax o :=
  lt_of_lt_of_le h (le_sup' (fun ab : Fin A × Fin A => o ab.1 ab.2) (mem_univ (a, a)))

theorem le_amax {A : ℕ} [NeZero A] (o : Matrix (Fin A) (Fin A) ℝ) (a b : Fin A) : o a b ≤ amax o :=
  le_sup' (fun ab : Fin A × Fin A => o ab.1 ab.2) (mem_univ (a, b))

/-! ### one sample -/

section
variable {A N P : ℕ} [NeZero A] [NeZero P]

/-- The O matrices of the sampling model. -/
noncomputable def oRho {B : ℕ} (A : ℕ) (t : ℝ) (m : Rho B N) (R : BeadPath N P) (p : Fin P) :
    Matrix (Fin B) (Fin B) ℝ :=
  Matrix.diagonal fun a => if a.1 < A then
    step t (m.energy a) (fun i => m.linear i a) m.omega R p else 0

/-- The O matrices of the system. -/
noncomputable def oVib (t : ℝ) (m : Vib A N) (R : BeadPath N P) (p : Fin P) :
    Matrix (Fin A) (Fin A) ℝ :=
  Matrix.diagonal fun a => step t (m.energy a a) (fun i => m.linear i a a) m.omega R p

theorem buildO_rho {B : ℕ} (t : ℝ) (ht : 0 < t) (m : Rho B N) (hw : ∀ i, 0 < m.omega i)
    (R : BeadPath N P) (hB : A ≤ B) : buildO A (m.consts t) m.shift R = .ok (oRho A t m R) := by
  unfold buildO
  rw [if_neg (not_lt.mpr hB)]
  congr 1
  funext p
  unfold oRho
  congr 1
  funext a
  rw [Rho.oElement_eq t ht m hw]

theorem buildO_vib (t : ℝ) (ht : 0 < t) (m : Vib A N) (hw : ∀ i, 0 < m.omega i)
    (R : BeadPath N P) : buildO A (m.consts t) m.shift R = .ok (oVib t m R) := by
  unfold buildO
  rw [if_neg (lt_irrefl A)]
  congr 1
  funext p
  unfold oVib
  congr 1
  funext a
  rw [if_pos a.2, Vib.oElement_eq t ht m hw]

theorem denominator_oRho {B : ℕ} (t : ℝ) (m : Rho B N) (R : BeadPath N P) :
    denominator (oRho A t m R) = ∑ a : Fin B, if a.1 < A then
      ∏ p, step t (m.energy a) (fun i => m.linear i a) m.omega R p else 0 := by
  simp only [denominator, Matrix.trace, Matrix.diag, oRho, Matrix.diagonal_apply_eq]
  refine sum_congr rfl fun a _ => ?_
  split
  · rfl
  · exact prod_eq_zero (mem_univ (0 : Fin P)) rfl

theorem denominator_oRho_same (t : ℝ) (m : Rho A N) (R : BeadPath N P) :
    denominator (oRho A t m R) = rhoExact t m R := by
  rw [denominator_oRho]
  exact sum_congr rfl fun a _ => if_pos a.2

theorem remainder_symm {m : Vib A N} (h : ∀ x, (potential m x).IsSymm) (R : BeadPath N P) (p : Fin P) :
    (remainder m R p).IsSymm := by
  unfold remainder
  exact (h _).sub (Matrix.isSymm_diagonal _)

theorem diagonalize_eq (eigh : Eigh) (m : Vib A N) (hw : ∀ i, 0 < m.omega i)
    (hsym : ∀ x, (potential m x).IsSymm) (R : BeadPath N P) :
    diagonalize eigh m.folded R = .ok fun p => eigh A (remainder m R p) := by
  have hc : ∀ p, coupling m.folded R p = remainder m R p := coupling_folded m (fun i => (hw i).ne') R
  unfold diagonalize
  rw [if_pos fun p a b => by rw [hc, (remainder_symm hsym R p).eq]; exact Py.AllClose.refl _]
  simp only [hc]

theorem numerator_oVib (eigh : Eigh) (he : EighSpec eigh) (s t : ℝ) (m : Vib A N)
    (hsym : ∀ x, (potential m x).IsSymm) (R : BeadPath N P) :
    numerator (fun p => mMatrix s (eigh A (remainder m R p))) (oVib t m R) = gSplit s t m R := by
  rw [numerator_eq, gSplit]
  congr 2
  congr 1
  funext p
  obtain ⟨h1, h2⟩ := he A _ (remainder_symm hsym R p)
  rw [mMatrix_eq s (remainder m R p) _ _ h1 h2]
  rfl

theorem scaling_pos {B : ℕ} [NeZero B] (t : ℝ) (ht : 0 < t) (vib : Vib A N)
    (hv : ∀ i, 0 < vib.omega i) (o : Fin P → Matrix (Fin B) (Fin B) ℝ)
    (R : BeadPath N P) (p : Fin P) : 0 < scaling o (oVib t vib R) p := by
  unfold scaling
  refine lt_max_of_lt_right (amax_pos _ 0 ?_)
  rw [oVib, Matrix.diagonal_apply_eq]
  exact step_pos _ _ _ _ ht hv _ _

end
end Pibronic.PIMC
