import Verif.Lemmas.Sampling
import Mathlib.MeasureTheory.Integral.Pi
import Mathlib.Analysis.SpecialFunctions.Gaussian.GaussianIntegral
import Mathlib.Analysis.Matrix.Normed

set_option autoImplicit false
set_option linter.unusedSectionVars false

/-! The integrand of a system whose quadratic terms are small is integrable. -/
namespace Pibronic.PIMC
open Finset Spec.PIMC MeasureTheory

attribute [local instance] Matrix.linftyOpNormedRing Matrix.linftyOpNormedAlgebra
  Matrix.linfty_opNormOneClass

theorem gauss_bound (c α γ σ r : ℝ) (hα : 0 < α) (hγ : 0 < γ) :
    c * |r| - α * (r - σ) ^ 2 ≤ (c + 2 * α * |σ|) ^ 2 / (4 * γ) - (α - γ) * r ^ 2 := by
  have h1 : r * σ ≤ |r| * |σ| := by rw [← abs_mul]; exact le_abs_self _
  have h2 : r ^ 2 = |r| ^ 2 := (sq_abs r).symm
  have h3 : (c + 2 * α * |σ|) * |r| ≤ (c + 2 * α * |σ|) ^ 2 / (4 * γ) + γ * |r| ^ 2 := by
    rw [div_add' _ _ _ (by positivity), le_div_iff₀ (by positivity)]
    nlinarith [sq_nonneg (c + 2 * α * |σ| - 2 * γ * |r|)]
  nlinarith [mul_le_mul_of_nonneg_left h1 hα.le, mul_nonneg hα.le (sq_nonneg σ)]

theorem propagator_le (t w x y : ℝ) (h : 0 < t * w) :
    propagator t w x y ≤ Real.exp (-((Real.cosh (t * w) - 1) / (2 * Real.sinh (t * w))) * x ^ 2
      + -((Real.cosh (t * w) - 1) / (2 * Real.sinh (t * w))) * y ^ 2)
      / Real.sqrt (Real.sinh (t * w)) := by
  have hs := Real.sinh_pos_iff.mpr h
  unfold propagator
  refine div_le_div_of_nonneg_right (Real.exp_le_exp.mpr ?_) (Real.sqrt_nonneg _)
  rw [← mul_add, ← neg_div, div_mul_eq_mul_div]
  refine div_le_div_of_nonneg_right ?_ (by positivity)
  nlinarith [sq_nonneg (x - y)]

theorem tanh_pos {x : ℝ} (h : 0 < x) : 0 < Real.tanh x := by
  rw [Real.tanh_eq_sinh_div_cosh]
  exact div_pos (Real.sinh_pos_iff.mpr h) (Real.cosh_pos x)

theorem tanh_le {x y : ℝ} (h : x ≤ y) : Real.tanh x ≤ Real.tanh y := by
  have := Real.sinh_nonneg_iff.mpr (sub_nonneg.mpr h)
  rw [Real.sinh_sub] at this
  rw [Real.tanh_eq_sinh_div_cosh, Real.tanh_eq_sinh_div_cosh, div_le_div_iff₀ (Real.cosh_pos x) (Real.cosh_pos y)]
  linarith

theorem tanh_half (u : ℝ) (h : 0 < u) : Real.tanh (u / 2) = 2 * ((Real.cosh u - 1) / (2 * Real.sinh u)) := by
  have hs : 0 < Real.sinh (u / 2) := Real.sinh_pos_iff.mpr (half_pos h)
  have hc := Real.cosh_pos (u / 2)
  have e1 : Real.sinh u = 2 * Real.sinh (u / 2) * Real.cosh (u / 2) := by
    rw [← Real.sinh_two_mul]; congr 1; ring
  have e2 : Real.cosh u = Real.cosh (u / 2) ^ 2 + Real.sinh (u / 2) ^ 2 := by
    rw [← Real.cosh_two_mul]; congr 1; ring
  have e3 := Real.cosh_sq (u / 2)
  rw [Real.tanh_eq_sinh_div_cosh, e1, e2]
  field_simp
  linarith

section
variable {A N P : ℕ} [NeZero A] [NeZero P]

theorem norm_trace_le (M : Matrix (Fin A) (Fin A) ℝ) : |M.trace| ≤ A * ‖M‖ := by
  have h : ∀ a, |M a a| ≤ ‖M‖ := by
    intro a
    rw [Matrix.linfty_opNorm_def]
    have h1 : ‖M a a‖₊ ≤ ∑ j, ‖M a j‖₊ := single_le_sum (f := fun j => ‖M a j‖₊) (fun _ _ => zero_le) (mem_univ a)
    have h2 := le_sup (f := fun i => ∑ j, ‖M i j‖₊) (mem_univ a)
    have h3 := h1.trans h2
    rw [← Real.norm_eq_abs]
    exact_mod_cast h3
  calc |M.trace| ≤ ∑ a, |M a a| := abs_sum_le_sum_abs _ _
    _ ≤ ∑ _a : Fin A, ‖M‖ := sum_le_sum fun a _ => h a
    _ = A * ‖M‖ := by simp

theorem norm_exp_le (x : Matrix (Fin A) (Fin A) ℝ) : ‖NormedSpace.exp x‖ ≤ Real.exp ‖x‖ := by
  rw [Real.exp_eq_exp_ℝ, NormedSpace.exp_eq_tsum ℝ, NormedSpace.exp_eq_tsum ℝ]
  refine tsum_of_norm_bounded (NormedSpace.expSeries_summable' ‖x‖).hasSum fun n => ?_
  rw [norm_smul, smul_eq_mul, norm_inv, Real.norm_natCast]
  exact mul_le_mul_of_nonneg_left (norm_pow_le x n) (by positivity)

theorem norm_prod_ofFn_le {n : ℕ} (f : Fin n → Matrix (Fin A) (Fin A) ℝ) (b : Fin n → ℝ)
    (h : ∀ p, ‖f p‖ ≤ b p) : ‖(List.ofFn f).prod‖ ≤ ∏ p, b p := by
  induction n with
  | zero => simp
  | succ n ih =>
    rw [List.ofFn_succ, List.prod_cons, Fin.prod_univ_succ]
    exact (norm_mul_le _ _).trans (mul_le_mul (h 0) (ih (fun p => f p.succ) _ fun p => h p.succ)
      (norm_nonneg _) ((norm_nonneg _).trans (h 0)))

theorem continuous_prod_ofFn {X : Type*} [TopologicalSpace X] {n : ℕ}
    (f : X → Fin n → Matrix (Fin A) (Fin A) ℝ) (h : ∀ p, Continuous fun x => f x p) :
    Continuous fun x => (List.ofFn (f x)).prod := by
  induction n with
  | zero => simpa using continuous_const
  | succ n ih =>
    simp only [List.ofFn_succ, List.prod_cons]
    exact (h 0).mul (ih (fun x p => f x p.succ) fun p => h p.succ)

theorem gSplit_continuous (s t : ℝ) (vib : Vib A N) :
    Continuous fun R : BeadPath N P => gSplit s t vib R := by
  unfold gSplit
  refine Continuous.matrix_trace (continuous_prod_ofFn _ fun p => ?_)
  refine Continuous.mul ?_ ?_
  · refine (NormedSpace.exp_continuous (𝔸 := Matrix (Fin A) (Fin A) ℝ)).comp ?_
    have h1 : Continuous fun R : BeadPath N P => potential vib fun i => R i p := by
      unfold potential
      fun_prop
    have h2 : Continuous fun R : BeadPath N P =>
        Matrix.diagonal fun a => oscillator vib a fun i => R i p := by
      unfold oscillator
      exact Continuous.matrix_diagonal (by fun_prop)
    exact (h1.sub h2).const_smul (-s)
  · refine Continuous.matrix_diagonal ?_
    unfold step propagator
    fun_prop

theorem linfty_le {M : Matrix (Fin A) (Fin A) ℝ} {q : ℝ} (h : ∀ a, ∑ b, |M a b| ≤ q) : ‖M‖ ≤ q := by
  have hq : 0 ≤ q := (sum_nonneg fun b _ => abs_nonneg _).trans (h 0)
  rw [Matrix.linfty_opNorm_def]
  rw [← Real.coe_toNNReal q hq, NNReal.coe_le_coe]
  refine Finset.sup_le fun a _ => ?_
  rw [← NNReal.coe_le_coe, Real.coe_toNNReal q hq]
  push_cast
  simpa only [Real.norm_eq_abs] using h a

/-- A bound on the part of the potential that is exponentiated. -/
theorem remainder_norm_le (s : ℝ) (hs : 0 ≤ s) (vib : Vib A N) (hv : ∀ i, 0 < vib.omega i) (m : Fin N → Fin N → ℝ)
    (hm : ∀ i j a, ∑ b, |vib.quadratic i j a b| ≤ m i j) (R : BeadPath N P) (p : Fin P) :
    ‖-s • remainder vib R p‖ ≤ s * ‖vib.folded.energy‖ + ∑ i, s * ‖vib.folded.linear i‖ * |R i p|
      + ∑ i, s * (∑ j, (m i j + m j i) / 4) * R i p ^ 2 := by
  have hsplit : remainder vib R p = (vib.folded.energy + ∑ i, R i p • vib.folded.linear i)
      + ∑ i, ∑ j, (R i p * R j p / 2) • vib.quadratic i j := by
    rw [← coupling_folded vib fun i => (hv i).ne']
    ext a b
    have : vib.folded.quadratic = vib.quadratic := rfl
    simp only [coupling, this, Matrix.add_apply, Matrix.sum_apply, Matrix.smul_apply, smul_eq_mul]
    have h1 : ∑ d, ∑ e, R e p * (0.5 * vib.quadratic d e a b) * R d p
        = ∑ i, ∑ j, R i p * R j p / 2 * vib.quadratic i j a b :=
      sum_congr rfl fun i _ => sum_congr rfl fun j _ => by ring
    have h2 : ∑ d, vib.folded.linear d a b * R d p = ∑ i, R i p * vib.folded.linear i a b :=
      sum_congr rfl fun i _ => mul_comm _ _
    rw [h1, h2]
    ring
  have hquad : ‖∑ i, ∑ j, (R i p * R j p / 2) • vib.quadratic i j‖ ≤ ∑ i, (∑ j, (m i j + m j i) / 4) * R i p ^ 2 := by
    calc ‖∑ i, ∑ j, (R i p * R j p / 2) • vib.quadratic i j‖
        ≤ ∑ i, ∑ j, ‖(R i p * R j p / 2) • vib.quadratic i j‖ :=
          (norm_sum_le _ _).trans (sum_le_sum fun i _ => norm_sum_le _ _)
      _ ≤ ∑ i, ∑ j, (m i j / 4 * R i p ^ 2 + m i j / 4 * R j p ^ 2) := by
          refine sum_le_sum fun i _ => sum_le_sum fun j _ => ?_
          rw [norm_smul, Real.norm_eq_abs]
          have hn := linfty_le (hm i j)
          have hn0 : 0 ≤ m i j := (norm_nonneg _).trans hn
          have hab : |R i p * R j p / 2| ≤ (R i p ^ 2 + R j p ^ 2) / 4 := by
            rw [abs_le]
            constructor <;> nlinarith [sq_nonneg (R i p + R j p), sq_nonneg (R i p - R j p)]
          calc _ ≤ (R i p ^ 2 + R j p ^ 2) / 4 * m i j :=
                mul_le_mul hab hn (norm_nonneg _) (by positivity)
            _ = _ := by ring
      _ = ∑ i, ∑ j, m i j / 4 * R i p ^ 2 + ∑ i, ∑ j, m j i / 4 * R i p ^ 2 := by
          simp only [sum_add_distrib]
          rw [sum_comm (f := fun i j => m i j / 4 * R j p ^ 2)]
      _ = _ := by
          rw [← sum_add_distrib]
          refine sum_congr rfl fun i _ => ?_
          rw [sum_mul, ← sum_add_distrib]
          exact sum_congr rfl fun j _ => by ring
  rw [norm_smul, norm_neg, Real.norm_eq_abs, abs_of_nonneg hs, hsplit]
  calc s * ‖(vib.folded.energy + ∑ i, R i p • vib.folded.linear i)
        + ∑ i, ∑ j, (R i p * R j p / 2) • vib.quadratic i j‖
      ≤ s * (‖vib.folded.energy‖ + ∑ i, ‖R i p • vib.folded.linear i‖ + ∑ i, (∑ j, (m i j + m j i) / 4) * R i p ^ 2) := by
        refine mul_le_mul_of_nonneg_left ((norm_add_le _ _).trans (add_le_add ((norm_add_le _ _).trans ?_) hquad)) hs
        exact add_le_add le_rfl (norm_sum_le _ _)
    _ = _ := by
        rw [mul_add, mul_add, mul_sum, mul_sum]
        congr 1
        · congr 1
          refine sum_congr rfl fun i _ => ?_
          rw [norm_smul, Real.norm_eq_abs]
          ring
        · refine sum_congr rfl fun i _ => ?_
          ring

/-- C59: integrability of the integrand for a system with small quadratic terms. -/
theorem gSplit_integrable' (s t : ℝ) (hs : 0 ≤ s) (ht : 0 < t) (vib : Vib A N) (hv : ∀ i, 0 < vib.omega i)
    (hq : SmallQuadratic s t vib) : Integrable fun R : BeadPath N P => gSplit s t vib R := by
  obtain ⟨m, hm, hsmall⟩ := hq
  have hu : ∀ i, 0 < t * vib.omega i := fun i => mul_pos ht (hv i)
  let α : Fin N → ℝ := fun i => (Real.cosh (t * vib.omega i) - 1) / (2 * Real.sinh (t * vib.omega i))
  have hα : ∀ i, 0 < α i := fun i => div_pos (sub_pos.mpr (Real.one_lt_cosh.mpr (hu i).ne'))
    (mul_pos two_pos (Real.sinh_pos_iff.mpr (hu i)))
  let κ : Fin N → ℝ := fun i => s * ∑ j, (m i j + m j i) / 4
  have hκ : ∀ i, κ i < 2 * α i := fun i => (hsmall i).trans_eq (tanh_half _ (hu i))
  let γ : Fin N → ℝ := fun i => (2 * α i - κ i) / 4
  have hγ : ∀ i, 0 < γ i := fun i => div_pos (sub_pos.mpr (hκ i)) four_pos
  let c : Fin N → ℝ := fun i => s * ‖vib.folded.linear i‖
  have hc : ∀ i, 0 ≤ c i := fun i => mul_nonneg hs (norm_nonneg _)
  let σ : Fin A → Fin N → ℝ := fun a i => centre (vib.linear i a a) (vib.omega i)
  let k : Fin A → Fin N → ℝ := fun a i => (c i + 2 * α i * |σ a i|) ^ 2 / (4 * γ i)
  let e : Fin A → ℝ := fun a => Real.exp (-t * bottom (vib.energy a a) (fun i => vib.linear i a a) vib.omega)
  let q : Fin A → ℝ := fun a => e a * ∏ i, (Real.exp (2 * k a i) / Real.sqrt (Real.sinh (t * vib.omega i)))
  let K : ℝ := Real.exp (s * ‖vib.folded.energy‖) * ∑ a, q a
  let w : Fin N → ℝ → ℝ → ℝ := fun i x y => Real.exp (-(α i - γ i) * x ^ 2 + -(α i - γ i) * y ^ 2)
  have hw : ∀ i x y, 0 < w i x y := fun _ _ _ => Real.exp_pos _
  have hq0 : ∀ a, 0 ≤ q a := fun a => mul_nonneg (Real.exp_pos _).le
    (prod_nonneg fun i _ => div_nonneg (Real.exp_pos _).le (Real.sqrt_nonneg _))
  have hrem : ∀ (R : BeadPath N P) p, ‖-s • remainder vib R p‖
      ≤ s * ‖vib.folded.energy‖ + ∑ i, c i * |R i p| + ∑ i, κ i * R i p ^ 2 := fun R p =>
    remainder_norm_le s hs vib hv m hm R p
  have hstep : ∀ (R : BeadPath N P) p a, Real.exp (∑ i, c i * |R i p|) *
      step t (vib.energy a a) (fun i => vib.linear i a a) vib.omega R p
      ≤ q a * ∏ i, w i (R i p) (R i (p + 1)) := by
    intro R p a
    unfold step
    rw [Real.exp_sum, mul_left_comm, ← prod_mul_distrib]
    simp only [q, mul_assoc]
    rw [← prod_mul_distrib]
    refine mul_le_mul_of_nonneg_left (prod_le_prod (fun i _ => ?_) fun i _ => ?_) (Real.exp_pos _).le
    · exact mul_nonneg (Real.exp_pos _).le (propagator_pos _ _ _ _ (hu i)).le
    · refine (mul_le_mul_of_nonneg_left (propagator_le _ _ _ _ (hu i)) (Real.exp_pos _).le).trans ?_
      simp only [w]
      rw [← mul_div_assoc, div_mul_eq_mul_div, ← Real.exp_add, ← Real.exp_add]
      refine div_le_div_of_nonneg_right (Real.exp_le_exp.mpr ?_) (Real.sqrt_nonneg _)
      have g1 := gauss_bound (c i) (α i) (γ i) (σ a i) (R i p) (hα i) (hγ i)
      have g2 := gauss_bound (c i) (α i) (γ i) (σ a i) (R i (p + 1)) (hα i) (hγ i)
      have g3 := mul_nonneg (hc i) (abs_nonneg (R i (p + 1)))
      have e1 : (Real.cosh (t * vib.omega i) - 1) / (2 * Real.sinh (t * vib.omega i)) = α i := rfl
      have e2 : (c i + 2 * α i * |σ a i|) ^ 2 / (4 * γ i) = k a i := rfl
      rw [e2] at g1 g2
      rw [e1]
      simp only [σ] at g1 g2
      linarith
  have hfac : ∀ (R : BeadPath N P) p, ‖NormedSpace.exp (-s • remainder vib R p) *
      Matrix.diagonal fun a => step t (vib.energy a a) (fun i => vib.linear i a a) vib.omega R p‖
      ≤ K * ∏ i, (Real.exp (κ i * R i p ^ 2) * w i (R i p) (R i (p + 1))) := by
    intro R p
    refine (norm_mul_le _ _).trans ?_
    have h1 : ‖NormedSpace.exp (-s • remainder vib R p)‖
        ≤ Real.exp (s * ‖vib.folded.energy‖) * (∏ i, Real.exp (κ i * R i p ^ 2)) * Real.exp (∑ i, c i * |R i p|) := by
      refine (norm_exp_le _).trans ?_
      rw [← Real.exp_sum, ← Real.exp_add, ← Real.exp_add]
      exact Real.exp_le_exp.mpr (by linarith [hrem R p])
    rw [Matrix.linfty_opNorm_diagonal]
    have h2 : Real.exp (∑ i, c i * |R i p|) *
        ‖fun a => step t (vib.energy a a) (fun i => vib.linear i a a) vib.omega R p‖
        ≤ (∑ a, q a) * ∏ i, w i (R i p) (R i (p + 1)) := by
      rw [← le_div_iff₀' (Real.exp_pos _), pi_norm_le_iff_of_nonneg (div_nonneg (mul_nonneg
        (sum_nonneg fun a _ => hq0 a) (prod_nonneg fun i _ => (hw _ _ _).le)) (Real.exp_pos _).le)]
      intro a
      rw [le_div_iff₀' (Real.exp_pos _), Real.norm_of_nonneg (step_pos _ _ _ _ ht hv _ _).le]
      refine (hstep R p a).trans (mul_le_mul_of_nonneg_right ?_ (prod_nonneg fun i _ => (hw _ _ _).le))
      exact single_le_sum (fun a _ => hq0 a) (mem_univ a)
    calc _ ≤ Real.exp (s * ‖vib.folded.energy‖) * (∏ i, Real.exp (κ i * R i p ^ 2)) * Real.exp (∑ i, c i * |R i p|) *
          ‖fun a => step t (vib.energy a a) (fun i => vib.linear i a a) vib.omega R p‖ :=
          mul_le_mul_of_nonneg_right h1 (norm_nonneg _)
      _ ≤ Real.exp (s * ‖vib.folded.energy‖) * (∏ i, Real.exp (κ i * R i p ^ 2)) *
          ((∑ a, q a) * ∏ i, w i (R i p) (R i (p + 1))) := by
          rw [mul_assoc (_ * _)]
          exact mul_le_mul_of_nonneg_left h2 (mul_nonneg (Real.exp_pos _).le (prod_nonneg fun i _ => (Real.exp_pos _).le))
      _ = _ := by
          rw [prod_mul_distrib]
          simp only [K]
          ring
  have hshift : ∀ (R : BeadPath N P) i, ∏ p, (Real.exp (κ i * R i p ^ 2) * w i (R i p) (R i (p + 1)))
      = ∏ p, Real.exp (-(2 * γ i) * R i p ^ 2) := by
    intro R i
    have h1 : ∀ p, Real.exp (κ i * R i p ^ 2) * w i (R i p) (R i (p + 1))
        = Real.exp ((κ i - (α i - γ i)) * R i p ^ 2) * Real.exp (-(α i - γ i) * R i (p + 1) ^ 2) := by
      intro p
      simp only [w]
      rw [← Real.exp_add, ← Real.exp_add]
      congr 1; ring
    simp only [h1]
    have h2 : ∏ p, Real.exp (-(α i - γ i) * R i (p + 1) ^ 2) = ∏ p, Real.exp (-(α i - γ i) * R i p ^ 2) :=
      Equiv.prod_comp (Equiv.addRight (1 : Fin P)) fun p => Real.exp (-(α i - γ i) * R i p ^ 2)
    rw [prod_mul_distrib, h2, ← prod_mul_distrib]
    refine prod_congr rfl fun p _ => ?_
    rw [← Real.exp_add]
    congr 1
    simp only [γ]
    ring
  have hbound : ∀ R : BeadPath N P, ‖gSplit s t vib R‖
      ≤ A * K ^ P * ∏ i, ∏ p, Real.exp (-(2 * γ i) * R i p ^ 2) := by
    intro R
    unfold gSplit
    refine (norm_trace_le _).trans ?_
    rw [mul_assoc]
    refine mul_le_mul_of_nonneg_left ?_ (Nat.cast_nonneg A)
    refine (norm_prod_ofFn_le _ _ (hfac R)).trans (le_of_eq ?_)
    rw [prod_mul_distrib, prod_const, card_univ, Fintype.card_fin, prod_comm]
    congr 1
    exact prod_congr rfl fun i _ => hshift R i
  have hint : Integrable fun R : BeadPath N P => ∏ i, ∏ p, Real.exp (-(2 * γ i) * R i p ^ 2) := by
    have h1 : ∀ i, Integrable fun x : Fin P → ℝ => ∏ p, Real.exp (-(2 * γ i) * x p ^ 2) := fun i =>
      Integrable.fintype_prod (f := fun (_ : Fin P) (y : ℝ) => Real.exp (-(2 * γ i) * y ^ 2))
        fun _ => integrable_exp_neg_mul_sq (mul_pos two_pos (hγ i))
    exact Integrable.fintype_prod (f := fun (i : Fin N) (x : Fin P → ℝ) =>
      ∏ p, Real.exp (-(2 * γ i) * x p ^ 2)) h1
  exact (hint.const_mul _).mono' (gSplit_continuous s t vib).aestronglyMeasurable
    (Filter.Eventually.of_forall hbound)

theorem small_of_linear (s t : ℝ) (ht : 0 < t) (vib : Vib A N) (hv : ∀ i, 0 < vib.omega i)
    (hq : ∀ i j, vib.quadratic i j = 0) : SmallQuadratic s t vib :=
  ⟨fun _ _ => 0, fun i j a => by simp [hq], fun i => by
    simpa using tanh_pos (half_pos (mul_pos ht (hv i)))⟩

theorem small_mono {s t t' : ℝ} (h : t ≤ t') (vib : Vib A N) (hv : ∀ i, 0 < vib.omega i)
    (hq : SmallQuadratic s t vib) : SmallQuadratic s t' vib := by
  obtain ⟨q, h1, h2⟩ := hq
  exact ⟨q, h1, fun i => (h2 i).trans_le (tanh_le (by have := mul_le_mul_of_nonneg_right h (hv i).le; linarith))⟩

/-- C59: integrability of the integrand for a system with linear couplings only. -/
theorem gSplit_integrable (s t : ℝ) (hs : 0 ≤ s) (ht : 0 < t) (vib : Vib A N) (hv : ∀ i, 0 < vib.omega i)
    (hq : ∀ i j, vib.quadratic i j = 0) : Integrable fun R : BeadPath N P => gSplit s t vib R :=
  gSplit_integrable' s t hs ht vib hv (small_of_linear s t ht vib hv hq)

end

end Pibronic.PIMC
