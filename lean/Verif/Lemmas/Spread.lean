import Verif.Lemmas.Integrable
import Verif.Props.PIMC

set_option autoImplicit false
set_option linter.unusedSectionVars false

/-! Bounds on the system integrand and the sampling integrand by products of undisplaced propagators, and the second
moment of their ratio. -/
namespace Pibronic.PIMC
open Finset Spec.PIMC MeasureTheory

attribute [local instance] Matrix.linftyOpNormedRing Matrix.linftyOpNormedAlgebra
  Matrix.linfty_opNormOneClass

/-- Half of `tanh (u / 2)`. -/
private noncomputable def half (u : ℝ) : ℝ := (Real.cosh u - 1) / (2 * Real.sinh u)

private theorem half_pos' {u : ℝ} (h : 0 < u) : 0 < half u :=
  div_pos (sub_pos.mpr (Real.one_lt_cosh.mpr h.ne')) (mul_pos two_pos (Real.sinh_pos_iff.mpr h))

/-- The propagator between displaced points. -/
private theorem propagator_shift (t w σ x y : ℝ) (h : 0 < t * w) :
    propagator t w (x - σ) (y - σ) = propagator t w x y * Real.exp (2 * half (t * w) * (σ * (x + y) - σ ^ 2)) := by
  have hs := (Real.sinh_pos_iff.mpr h).ne'
  unfold propagator half
  rw [div_mul_eq_mul_div, ← Real.exp_add]
  congr 2
  field_simp
  ring

private theorem shift_le (t w σ x y : ℝ) (h : 0 < t * w) :
    propagator t w (x - σ) (y - σ) ≤ propagator t w x y * Real.exp (2 * half (t * w) * |σ| * (|x| + |y|)) := by
  rw [propagator_shift t w σ x y h]
  refine mul_le_mul_of_nonneg_left (Real.exp_le_exp.mpr ?_) (propagator_pos _ _ _ _ h).le
  have h1 : σ * (x + y) ≤ |σ| * (|x| + |y|) :=
    (le_abs_self _).trans (by rw [abs_mul]; exact mul_le_mul_of_nonneg_left (abs_add_le _ _) (abs_nonneg _))
  rw [mul_assoc (2 * half (t * w))]
  exact mul_le_mul_of_nonneg_left (by nlinarith [sq_nonneg σ]) (mul_pos two_pos (half_pos' h)).le

private theorem le_shift (t w σ x y : ℝ) (h : 0 < t * w) :
    propagator t w x y * Real.exp (-(2 * half (t * w) * σ ^ 2)) * Real.exp (-(2 * half (t * w) * |σ| * (|x| + |y|)))
      ≤ propagator t w (x - σ) (y - σ) := by
  rw [propagator_shift t w σ x y h, mul_assoc, ← Real.exp_add]
  refine mul_le_mul_of_nonneg_left (Real.exp_le_exp.mpr ?_) (propagator_pos _ _ _ _ h).le
  have h1 : -(σ * (x + y)) ≤ |σ| * (|x| + |y|) :=
    (neg_le_abs _).trans (by rw [abs_mul]; exact mul_le_mul_of_nonneg_left (abs_add_le _ _) (abs_nonneg _))
  have := mul_le_mul_of_nonneg_left h1 (mul_pos two_pos (half_pos' h)).le
  nlinarith

/-- The square of one propagator over another one. -/
private theorem sq_div (t' t w w' x y : ℝ) (h : 0 < t' * w) (h' : 0 < t * w') (hs : Real.sinh (t' * w) ≤ 2 * Real.sinh (t * w')) :
    propagator t' w x y ^ 2 / propagator t w' x y ≤ Real.sqrt (Real.sinh (t * w')) / Real.sinh (t' * w)
      * Real.exp (-(2 * half (t' * w) - half (t * w')) * x ^ 2 + -(2 * half (t' * w) - half (t * w')) * y ^ 2) := by
  have h1 := Real.sinh_pos_iff.mpr h
  have h2 := Real.sinh_pos_iff.mpr h'
  have e : ∀ u, 0 < Real.sinh u → -((x ^ 2 + y ^ 2) * Real.cosh u - 2 * x * y) / (2 * Real.sinh u)
      = -(half u * x ^ 2 + half u * y ^ 2) - (x - y) ^ 2 / (2 * Real.sinh u) := by
    intro u hu
    unfold half
    field_simp
    ring
  unfold propagator
  rw [e _ h1, e _ h2, div_pow, Real.sq_sqrt h1.le, ← Real.exp_nat_mul, div_div_div_eq, mul_comm (Real.exp _),
    mul_div_mul_comm, ← Real.exp_sub]
  refine mul_le_mul_of_nonneg_left (Real.exp_le_exp.mpr ?_) (by positivity)
  have h3 : (x - y) ^ 2 / (2 * Real.sinh (t * w')) ≤ 2 * ((x - y) ^ 2 / (2 * Real.sinh (t' * w))) := by
    rw [mul_div_mul_left _ _ two_ne_zero |>.symm, ← mul_div_assoc, div_le_div_iff₀ (by positivity) (by positivity)]
    nlinarith [mul_le_mul_of_nonneg_left hs (sq_nonneg (x - y))]
  push_cast
  nlinarith

section
variable {A N P : ℕ} [NeZero A] [NeZero P]

/-- The closed product of undisplaced propagators. -/
noncomputable def freePath (t : ℝ) (w : Fin N → ℝ) (R : BeadPath N P) : ℝ :=
  ∏ i, ∏ p, propagator t (w i) (R i p) (R i (p + 1))

theorem freePath_pos (t : ℝ) (w : Fin N → ℝ) (h : ∀ i, 0 < t * w i) (R : BeadPath N P) : 0 < freePath t w R :=
  prod_pos fun i _ => prod_pos fun _ _ => propagator_pos _ _ _ _ (h i)

private theorem shift_prod (f : ℝ → ℝ) (x : Fin P → ℝ) : ∏ p, f (x (p + 1)) = ∏ p, f (x p) :=
  Equiv.prod_comp (Equiv.addRight (1 : Fin P)) fun p => f (x p)

private theorem both_ends (d : ℝ) (x : Fin P → ℝ) :
    ∏ p, Real.exp (d * (|x p| + |x (p + 1)|)) = ∏ p, Real.exp (2 * d * |x p|) := by
  have e : ∀ p, Real.exp (d * (|x p| + |x (p + 1)|)) = Real.exp (d * |x p|) * Real.exp (d * |x (p + 1)|) := fun p => by
    rw [← Real.exp_add]; ring_nf
  simp only [e]
  rw [prod_mul_distrib, shift_prod (fun y => Real.exp (d * |y|)), ← prod_mul_distrib]
  exact prod_congr rfl fun p _ => by rw [← Real.exp_add]; ring_nf

/-- An upper bound on the system integrand. -/
theorem gSplit_le (s t : ℝ) (hs : 0 ≤ s) (ht : 0 < t) (vib : Vib A N) (hv : ∀ i, 0 < vib.omega i)
    (m : Fin N → Fin N → ℝ) (hm : ∀ i j a, ∑ b, |vib.quadratic i j a b| ≤ m i j) :
    ∃ (C : ℝ) (c : Fin N → ℝ), ∀ R : BeadPath N P, |gSplit s t vib R| ≤ C * (∏ i, ∏ p, Real.exp (c i * |R i p|
      + s * (∑ j, (m i j + m j i) / 4) * R i p ^ 2)) * freePath t vib.omega R := by
  have hu : ∀ i, 0 < t * vib.omega i := fun i => mul_pos ht (hv i)
  let κ : Fin N → ℝ := fun i => s * ∑ j, (m i j + m j i) / 4
  let c : Fin N → ℝ := fun i => s * ‖vib.folded.linear i‖
  let σ : Fin A → Fin N → ℝ := fun a i => centre (vib.linear i a a) (vib.omega i)
  let d : Fin N → ℝ := fun i => ∑ a, 2 * half (t * vib.omega i) * |σ a i|
  have hd : ∀ a i, 2 * half (t * vib.omega i) * |σ a i| ≤ d i := fun a i =>
    single_le_sum (f := fun a => 2 * half (t * vib.omega i) * |σ a i|)
      (fun a _ => mul_nonneg (mul_pos two_pos (half_pos' (hu i))).le (abs_nonneg _)) (mem_univ a)
  let e : Fin A → ℝ := fun a => Real.exp (-t * bottom (vib.energy a a) (fun i => vib.linear i a a) vib.omega)
  let K : ℝ := Real.exp (s * ‖vib.folded.energy‖) * ∑ a, e a
  let f : BeadPath N P → Fin P → Fin N → ℝ := fun R p i =>
    propagator t (vib.omega i) (R i p) (R i (p + 1)) * Real.exp (d i * (|R i p| + |R i (p + 1)|))
  have hf : ∀ R p i, 0 < f R p i := fun R p i => mul_pos (propagator_pos _ _ _ _ (hu i)) (Real.exp_pos _)
  have hstep : ∀ (R : BeadPath N P) p a, step t (vib.energy a a) (fun i => vib.linear i a a) vib.omega R p
      ≤ (∑ a, e a) * ∏ i, f R p i := by
    intro R p a
    unfold step
    refine mul_le_mul (single_le_sum (f := e) (fun a _ => (Real.exp_pos _).le) (mem_univ a))
      (prod_le_prod (fun i _ => (propagator_pos _ _ _ _ (hu i)).le) fun i _ => ?_)
      (prod_nonneg fun i _ => (propagator_pos _ _ _ _ (hu i)).le) (sum_nonneg fun a _ => (Real.exp_pos _).le)
    refine (shift_le _ _ _ _ _ (hu i)).trans (mul_le_mul_of_nonneg_left (Real.exp_le_exp.mpr ?_)
      (propagator_pos _ _ _ _ (hu i)).le)
    exact mul_le_mul_of_nonneg_right (hd a i) (by positivity)
  have hfac : ∀ (R : BeadPath N P) p, ‖NormedSpace.exp (-s • remainder vib R p) *
      Matrix.diagonal fun a => step t (vib.energy a a) (fun i => vib.linear i a a) vib.omega R p‖
      ≤ K * ∏ i, (Real.exp (c i * |R i p| + κ i * R i p ^ 2) * f R p i) := by
    intro R p
    refine (norm_mul_le _ _).trans ?_
    have h1 : ‖NormedSpace.exp (-s • remainder vib R p)‖
        ≤ Real.exp (s * ‖vib.folded.energy‖) * ∏ i, Real.exp (c i * |R i p| + κ i * R i p ^ 2) := by
      refine (norm_exp_le _).trans ?_
      rw [← Real.exp_sum, ← Real.exp_add]
      refine Real.exp_le_exp.mpr ?_
      have := remainder_norm_le s hs vib hv m hm R p
      rw [sum_add_distrib]
      simp only [c, κ]
      linarith
    have h2 : ‖Matrix.diagonal fun a => step t (vib.energy a a) (fun i => vib.linear i a a) vib.omega R p‖
        ≤ (∑ a, e a) * ∏ i, f R p i := by
      rw [Matrix.linfty_opNorm_diagonal, pi_norm_le_iff_of_nonneg (mul_nonneg (sum_nonneg fun a _ => (Real.exp_pos _).le)
        (prod_nonneg fun i _ => (hf _ _ _).le))]
      intro a
      rw [Real.norm_of_nonneg (step_pos _ _ _ _ ht hv _ _).le]
      exact hstep R p a
    refine (mul_le_mul h1 h2 (norm_nonneg _) (by positivity)).trans (le_of_eq ?_)
    rw [prod_mul_distrib (f := fun i => Real.exp (c i * |R i p| + κ i * R i p ^ 2))]
    simp only [K]
    generalize (∏ i, f R p i) = u
    ring
  refine ⟨A * K ^ P, fun i => c i + 2 * d i, fun R => ?_⟩
  unfold gSplit
  refine (norm_trace_le _).trans ?_
  rw [mul_assoc, mul_assoc]
  refine mul_le_mul_of_nonneg_left ?_ (Nat.cast_nonneg A)
  refine (norm_prod_ofFn_le _ _ (hfac R)).trans (le_of_eq ?_)
  rw [prod_mul_distrib, prod_const, card_univ, Fintype.card_fin, prod_comm]
  congr 1
  unfold freePath
  rw [← prod_mul_distrib]
  refine prod_congr rfl fun i _ => ?_
  simp only [f]
  rw [prod_mul_distrib, prod_mul_distrib, both_ends, mul_comm (∏ p, propagator _ _ _ _), ← mul_assoc, ← prod_mul_distrib]
  congr 1
  refine prod_congr rfl fun p _ => ?_
  rw [← Real.exp_add]
  simp only [κ]
  ring_nf

/-- A lower bound on the sampling integrand. -/
theorem le_rhoExact (t : ℝ) (ht : 0 < t) (rho : Rho A N) (hr : ∀ i, 0 < rho.omega i) :
    ∃ (C : ℝ) (c : Fin N → ℝ), 0 < C ∧ ∀ R : BeadPath N P,
      C * (∏ i, ∏ p, Real.exp (-(c i * |R i p|))) * freePath t rho.omega R ≤ rhoExact t rho R := by
  have hu : ∀ i, 0 < t * rho.omega i := fun i => mul_pos ht (hr i)
  let σ : Fin N → ℝ := fun i => centre (rho.linear i 0) (rho.omega i)
  let d : Fin N → ℝ := fun i => 2 * half (t * rho.omega i) * |σ i|
  let e : ℝ := Real.exp (-t * bottom (rho.energy 0) (fun i => rho.linear i 0) rho.omega)
    * ∏ i, Real.exp (-(2 * half (t * rho.omega i) * σ i ^ 2))
  have he : 0 < e := mul_pos (Real.exp_pos _) (prod_pos fun i _ => Real.exp_pos _)
  refine ⟨e ^ P, fun i => 2 * d i, pow_pos he P, fun R => ?_⟩
  have hstep : ∀ p, e * ∏ i, (propagator t (rho.omega i) (R i p) (R i (p + 1))
      * Real.exp (-d i * (|R i p| + |R i (p + 1)|))) ≤ step t (rho.energy 0) (fun i => rho.linear i 0) rho.omega R p := by
    intro p
    unfold step
    rw [mul_assoc, ← prod_mul_distrib]
    refine mul_le_mul_of_nonneg_left (prod_le_prod (fun i _ => mul_nonneg (Real.exp_pos _).le
      (mul_nonneg (propagator_pos _ _ _ _ (hu i)).le (Real.exp_pos _).le)) fun i _ => ?_) (Real.exp_pos _).le
    refine le_trans (le_of_eq ?_) (le_shift t (rho.omega i) (σ i) (R i p) (R i (p + 1)) (hu i))
    rw [neg_mul]
    ring
  unfold rhoExact
  refine le_trans ?_ (single_le_sum (f := fun a => ∏ p, step t (rho.energy a) (fun i => rho.linear i a) rho.omega R p)
    (fun a _ => prod_nonneg fun p _ => (step_pos _ _ _ _ ht hr _ _).le) (mem_univ 0))
  refine le_trans (le_of_eq ?_) (prod_le_prod (fun p _ => mul_nonneg he.le (prod_nonneg fun i _ =>
    mul_nonneg (propagator_pos _ _ _ _ (hu i)).le (Real.exp_pos _).le)) fun p _ => hstep p)
  rw [prod_mul_distrib, prod_const, card_univ, Fintype.card_fin, mul_assoc]
  congr 1
  unfold freePath
  rw [← prod_mul_distrib, prod_comm (s := univ (α := Fin P))]
  refine prod_congr rfl fun i _ => ?_
  rw [prod_mul_distrib, both_ends, mul_comm]
  congr 1
  exact prod_congr rfl fun p _ => by ring_nf

/-- The square of the system integrand over the sampling integrand is integrable when the frequencies of the two models
are not too different and the quadratic terms are small. -/
theorem sq_div_integrable (s t' t : ℝ) (hs : 0 ≤ s) (ht' : 0 < t') (ht : 0 < t) (vib : Vib A N) (hv : ∀ i, 0 < vib.omega i)
    (rho : Rho A N) (hr : ∀ i, 0 < rho.omega i)
    (m : Fin N → Fin N → ℝ) (hm : ∀ i j a, ∑ b, |vib.quadratic i j a b| ≤ m i j)
    (h1 : ∀ i, Real.sinh (t' * vib.omega i) ≤ 2 * Real.sinh (t * rho.omega i))
    (h2 : ∀ i, Real.tanh (t * rho.omega i / 2) + 2 * (s * ∑ j, (m i j + m j i) / 4) < 2 * Real.tanh (t' * vib.omega i / 2)) :
    Integrable fun R : BeadPath N P => gSplit s t' vib R ^ 2 / rhoExact t rho R := by
  have hu : ∀ i, 0 < t' * vib.omega i := fun i => mul_pos ht' (hv i)
  have hu' : ∀ i, 0 < t * rho.omega i := fun i => mul_pos ht (hr i)
  obtain ⟨C, c, hg⟩ := gSplit_le (P := P) s t' hs ht' vib hv m hm
  obtain ⟨C', c', hC', hrho⟩ := le_rhoExact (P := P) t ht rho hr
  let κ : Fin N → ℝ := fun i => s * ∑ j, (m i j + m j i) / 4
  let δ : Fin N → ℝ := fun i => 2 * (2 * half (t' * vib.omega i) - half (t * rho.omega i)) - 2 * κ i
  have hδ : ∀ i, 0 < δ i := by
    intro i
    have := h2 i
    rw [tanh_half _ (hu i), tanh_half _ (hu' i)] at this
    simp only [δ, κ, half]
    linarith
  let L : Fin N → ℝ := fun i => Real.sqrt (Real.sinh (t * rho.omega i)) / Real.sinh (t' * vib.omega i)
  let b : Fin N → ℝ := fun i => 2 * c i + c' i
  have hfree : ∀ R : BeadPath N P, freePath t' vib.omega R ^ 2 / freePath t rho.omega R
      ≤ ∏ i, ∏ p, (L i * Real.exp (-(2 * (2 * half (t' * vib.omega i) - half (t * rho.omega i))) * R i p ^ 2)) := by
    intro R
    unfold freePath
    rw [← prod_pow, ← prod_div_distrib]
    refine prod_le_prod (fun i _ => by
      rw [← prod_pow]
      exact div_nonneg (prod_nonneg fun p _ => sq_nonneg _) (prod_nonneg fun p _ => (propagator_pos _ _ _ _ (hu' i)).le))
      fun i _ => ?_
    rw [← prod_pow, ← prod_div_distrib]
    refine (prod_le_prod (fun p _ => div_nonneg (sq_nonneg _) (propagator_pos _ _ _ _ (hu' i)).le)
      fun p _ => sq_div t' t (vib.omega i) (rho.omega i) (R i p) (R i (p + 1)) (hu i) (hu' i) (h1 i)).trans (le_of_eq ?_)
    simp only [Real.exp_add]
    rw [prod_mul_distrib, prod_mul_distrib, shift_prod (fun y => Real.exp (-(2 * half (t' * vib.omega i)
      - half (t * rho.omega i)) * y ^ 2)), ← prod_mul_distrib, ← prod_mul_distrib]
    refine prod_congr rfl fun p _ => ?_
    rw [← Real.exp_add]
    congr 2
    ring
  have hL : ∀ i, 0 ≤ L i := fun i => div_nonneg (Real.sqrt_nonneg _) (Real.sinh_pos_iff.mpr (hu i)).le
  have hbound : ∀ R : BeadPath N P, ‖gSplit s t' vib R ^ 2 / rhoExact t rho R‖
      ≤ C ^ 2 / C' * ∏ i, ∏ p, (L i * Real.exp (b i ^ 2 / (2 * δ i)) * Real.exp (-(δ i / 2) * R i p ^ 2)) := by
    intro R
    have hpos : 0 < rhoExact t rho R := Props.PIMC.rhoExact_pos t ht rho hr R
    have hF := freePath_pos t' vib.omega hu R
    have hF' := freePath_pos t rho.omega hu' R
    let U : ℝ := ∏ i, ∏ p, Real.exp (c i * |R i p| + κ i * R i p ^ 2)
    let W : ℝ := ∏ i, ∏ p, Real.exp (-(c' i * |R i p|))
    have hU : 0 < U := prod_pos fun i _ => prod_pos fun p _ => Real.exp_pos _
    have hW : 0 < W := prod_pos fun i _ => prod_pos fun p _ => Real.exp_pos _
    rw [Real.norm_of_nonneg (div_nonneg (sq_nonneg _) hpos.le), ← sq_abs]
    have a1 : |gSplit s t' vib R| ^ 2 ≤ (C * U * freePath t' vib.omega R) ^ 2 := pow_le_pow_left₀ (abs_nonneg _) (hg R) 2
    have a2 : |gSplit s t' vib R| ^ 2 / rhoExact t rho R
        ≤ (C * U * freePath t' vib.omega R) ^ 2 / (C' * W * freePath t rho.omega R) :=
      div_le_div₀ (sq_nonneg _) a1 (by positivity) (hrho R)
    refine a2.trans ?_
    have a3 : (C * U * freePath t' vib.omega R) ^ 2 / (C' * W * freePath t rho.omega R)
        = C ^ 2 / C' * (U ^ 2 / W * (freePath t' vib.omega R ^ 2 / freePath t rho.omega R)) := by
      field_simp
    rw [a3]
    refine mul_le_mul_of_nonneg_left ((mul_le_mul_of_nonneg_left (hfree R) (by positivity)).trans ?_) (by positivity)
    have a4 : U ^ 2 / W = ∏ i, ∏ p, Real.exp (b i * |R i p| + 2 * κ i * R i p ^ 2) := by
      simp only [U, W]
      rw [← prod_pow, ← prod_div_distrib]
      refine prod_congr rfl fun i _ => ?_
      rw [← prod_pow, ← prod_div_distrib]
      refine prod_congr rfl fun p _ => ?_
      rw [← Real.exp_nat_mul, ← Real.exp_sub]
      simp only [b]
      push_cast
      ring_nf
    rw [a4, ← prod_mul_distrib]
    refine prod_le_prod (fun i _ => mul_nonneg (prod_nonneg fun p _ => (Real.exp_pos _).le)
      (prod_nonneg fun p _ => mul_nonneg (hL i) (Real.exp_pos _).le)) fun i _ => ?_
    rw [← prod_mul_distrib]
    refine prod_le_prod (fun p _ => mul_nonneg (Real.exp_pos _).le (mul_nonneg (hL i) (Real.exp_pos _).le)) fun p _ => ?_
    rw [mul_left_comm, ← Real.exp_add, mul_assoc (L i), ← Real.exp_add]
    refine mul_le_mul_of_nonneg_left (Real.exp_le_exp.mpr ?_) (hL i)
    have a5 : b i * |R i p| ≤ b i ^ 2 / (2 * δ i) + δ i / 2 * R i p ^ 2 := by
      have := hδ i
      rw [div_add' _ _ _ (by positivity), le_div_iff₀ (by positivity), ← sq_abs (R i p)]
      nlinarith [sq_nonneg (b i - δ i * |R i p|)]
    have a6 : -(2 * (2 * half (t' * vib.omega i) - half (t * rho.omega i))) = -(δ i + 2 * κ i) := by
      simp only [δ]; ring
    rw [a6]
    nlinarith
  have hint : Integrable fun R : BeadPath N P => ∏ i, ∏ p, (L i * Real.exp (b i ^ 2 / (2 * δ i))
      * Real.exp (-(δ i / 2) * R i p ^ 2)) := by
    have k1 : ∀ i, Integrable fun x : Fin P → ℝ => ∏ p, (L i * Real.exp (b i ^ 2 / (2 * δ i))
        * Real.exp (-(δ i / 2) * x p ^ 2)) := fun i =>
      Integrable.fintype_prod (f := fun (_ : Fin P) (y : ℝ) => L i * Real.exp (b i ^ 2 / (2 * δ i))
        * Real.exp (-(δ i / 2) * y ^ 2)) fun _ => (integrable_exp_neg_mul_sq (half_pos (hδ i))).const_mul _
    exact Integrable.fintype_prod (f := fun (i : Fin N) (x : Fin P → ℝ) =>
      ∏ p, (L i * Real.exp (b i ^ 2 / (2 * δ i)) * Real.exp (-(δ i / 2) * x p ^ 2))) k1
  have hcont : Continuous fun R : BeadPath N P => rhoExact t rho R := by
    unfold rhoExact step propagator
    fun_prop
  exact (hint.const_mul _).mono' (((gSplit_continuous s t' vib).measurable.pow_const 2).div
    hcont.measurable).aestronglyMeasurable (Filter.Eventually.of_forall hbound)

end

end Pibronic.PIMC
