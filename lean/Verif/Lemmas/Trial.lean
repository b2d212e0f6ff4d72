import Verif.Lemmas.BeadSums

set_option autoImplicit false
set_option linter.unusedSectionVars false

/-! Integrals of closed paths of oscillators that are weakened at every bead. -/
namespace Pibronic.PIMC
open Finset Filter Topology Spec.PIMC MeasureTheory

variable {N : ℕ}

/-- The potential energy of the oscillators. -/
noncomputable def pot (w x : Fin N → ℝ) : ℝ := ∑ i, w i * x i ^ 2 / 2

/-- The closed product of the propagators, with a part `κ` of the potential removed at every bead. -/
noncomputable def trial {P : ℕ} [NeZero P] (t : ℝ) (w : Fin N → ℝ) (κ : ℝ) (R : BeadPath N P) : ℝ :=
  ∏ p, ((∏ i, propagator t (w i) (R i p) (R i (p + 1))) * Real.exp (t * (κ * pot w fun i => R i p)))

theorem continuous_trial {P : ℕ} [NeZero P] (t : ℝ) (w : Fin N → ℝ) (κ : ℝ) : Continuous (trial (P := P) t w κ) := by
  unfold trial propagator pot; fun_prop

theorem continuous_spring {P : ℕ} [NeZero P] (t : ℝ) (w : Fin N → ℝ) : Continuous (spring (P := P) t w) := by
  unfold spring; fun_prop

theorem trial_pos {P : ℕ} [NeZero P] (t : ℝ) (w : Fin N → ℝ) (κ : ℝ) (hw : ∀ i, 0 < t * w i) (R : BeadPath N P) :
    0 < trial t w κ R :=
  prod_pos fun _ _ => mul_pos (prod_pos fun i _ => propagator_pos _ _ _ _ (hw i)) (Real.exp_pos _)

theorem quad_diagonal (d x : Fin N → ℝ) : quad (Matrix.diagonal d) x = ∑ i, d i * x i ^ 2 := by
  unfold quad
  refine sum_congr rfl fun i _ => ?_
  simp only [Matrix.diagonal_apply, mul_ite, ite_mul, mul_zero, zero_mul, sum_ite_eq, mem_univ, if_true]
  ring

theorem trial_eq {P : ℕ} [NeZero P] (t : ℝ) (w : Fin N → ℝ) (κ : ℝ) (hw : ∀ i, 0 < t * w i) (lam : ℝ) (hl : 0 < lam)
    (hlP : lam = 1 - 1 / P) (R : BeadPath N P) :
    trial t w κ R * Real.exp (spring t w R / P)
      = ((∏ i, Real.sqrt (Real.sinh (t * w i))) ^ P)⁻¹
        * chain (Matrix.diagonal fun i => (2 * Real.tanh (t * w i / 2) - t * κ * w i) * (Real.sinh (t * w i) / lam))
          (fun i p => R i p / Real.sqrt (Real.sinh (t * w i) / lam)) := by
  have hsh : ∀ i, 0 < Real.sinh (t * w i) := fun i => Real.sinh_pos_iff.mpr (hw i)
  have hc : ∀ i, 0 < Real.sinh (t * w i) / lam := fun i => div_pos (hsh i) hl
  have hprop : ∀ i a b, -((a ^ 2 + b ^ 2) * Real.cosh (t * w i) - 2 * a * b) / (2 * Real.sinh (t * w i))
      = -(1 / 2) * (Real.tanh (t * w i / 2) * a ^ 2) + -(1 / 2) * (Real.tanh (t * w i / 2) * b ^ 2)
        + -((a - b) ^ 2 / (2 * Real.sinh (t * w i))) := by
    intro i a b
    rw [← tanh_half_eq _ (hw i)]
    have := (hsh i).ne'
    field_simp
    ring
  have hshift : ∑ p, ∑ i, Real.tanh (t * w i / 2) * R i (p + 1) ^ 2
      = ∑ p, ∑ i, Real.tanh (t * w i / 2) * R i p ^ 2 :=
    Fintype.sum_equiv (Equiv.addRight 1) _ _ fun _ => rfl
  have hquad : ∀ p, quad (Matrix.diagonal fun i => (2 * Real.tanh (t * w i / 2) - t * κ * w i) * (Real.sinh (t * w i) / lam))
      (fun i => R i p / Real.sqrt (Real.sinh (t * w i) / lam))
      = 2 * ∑ i, Real.tanh (t * w i / 2) * R i p ^ 2 - 2 * (t * (κ * pot w fun i => R i p)) := by
    intro p
    rw [quad_diagonal, pot, mul_sum, mul_sum, mul_sum, mul_sum, ← sum_sub_distrib]
    refine sum_congr rfl fun i _ => ?_
    rw [div_pow, Real.sq_sqrt (hc i).le, mul_assoc, mul_div_cancel₀ _ (hc i).ne']
    ring
  have hdiff : ∀ i a b, (a / Real.sqrt (Real.sinh (t * w i) / lam) - b / Real.sqrt (Real.sinh (t * w i) / lam)) ^ 2
      = 2 * lam * ((a - b) ^ 2 / (2 * Real.sinh (t * w i))) := by
    intro i a b
    rw [← sub_div, div_pow, Real.sq_sqrt (hc i).le]
    have := (hsh i).ne'
    field_simp
  unfold trial chain
  simp only [hquad, hdiff, propagator, prod_mul_distrib, prod_div_distrib, ← Real.exp_sum]
  rw [prod_const, card_univ, Fintype.card_fin, div_mul_eq_mul_div, div_mul_eq_mul_div, ← Real.exp_add, ← Real.exp_add,
    div_eq_inv_mul]
  congr 2
  simp only [hprop, sum_add_distrib, sum_sub_distrib, ← mul_sum, hshift, spring, sum_neg_distrib, hlP]
  ring

theorem tendsto_trialSpring (beta : ℝ) (w : Fin N → ℝ) (κ : ℝ) (i : Fin N) :
    Tendsto (fun n : ℕ => (n : ℝ) ^ 2 * ((2 * Real.tanh (beta / n * w i / 2) - beta / n * κ * w i)
      * (Real.sinh (beta / n * w i) / (1 - 1 / n)))) atTop (𝓝 (beta ^ 2 * w i ^ 2 * (1 - κ))) := by
  have h1 := ((tendsto_nat_mul_tanh (beta * w i / 2)).const_mul 2).sub ((tendsto_nat_mul_div beta).mul_const (κ * w i))
  have h2 := tendsto_nat_mul_sinh (beta * w i)
  have h3 : Tendsto (fun n : ℕ => 1 - 1 / (n : ℝ)) atTop (𝓝 (1 - 0)) :=
    (tendsto_const_nhds (x := (1 : ℝ))).sub (tendsto_const_div_atTop_nhds_zero_nat 1)
  have h := (h1.mul h2).mul (h3.inv₀ (by norm_num))
  have e : (2 * (beta * w i / 2) - beta * (κ * w i)) * (beta * w i) * (1 - 0)⁻¹ = beta ^ 2 * w i ^ 2 * (1 - κ) := by ring
  rw [e] at h
  refine h.congr fun n => ?_
  rw [show beta / n * w i / 2 = beta * w i / 2 / n by ring, show beta / n * w i = beta * w i / n by ring]
  ring

theorem trial_bounded (beta : ℝ) (hb : 0 < beta) (w : Fin N → ℝ) (hw : ∀ i, 0 < w i) (κ : ℝ) (hκ : κ < 1) :
    ∃ C : ℝ, 0 ≤ C ∧ ∀ᶠ P : ℕ in atTop, ∀ [NeZero P],
      Integrable (fun R : BeadPath N P => trial (beta / P) w κ R * Real.exp (spring (beta / P) w R / P)) ∧
      ∫ R : BeadPath N P, trial (beta / P) w κ R * Real.exp (spring (beta / P) w R / P) ≤ C * Real.sqrt (2 * Real.pi) ^ (N * P) := by
  set μ : Fin N → ℝ := fun i => beta ^ 2 * w i ^ 2 * (1 - κ) with hμd
  have hμ : ∀ i, 0 < μ i := fun i => mul_pos (mul_pos (pow_pos hb 2) (pow_pos (hw i) 2)) (by linarith)
  set M : ℕ → Matrix (Fin N) (Fin N) ℝ := fun n => Matrix.diagonal fun i =>
    (2 * Real.tanh (beta / n * w i / 2) - beta / n * κ * w i) * (Real.sinh (beta / n * w i) / (1 - 1 / n)) with hM
  have hlim := tendsto_chainZ (1 : Matrix (Fin N) (Fin N) ℝ) (by simp) μ hμ M (by
    intro i j
    rw [Matrix.one_mul, Matrix.transpose_one, Matrix.mul_one]
    by_cases h : i = j
    · subst h
      simp only [hM, Matrix.diagonal_apply_eq]
      exact tendsto_trialSpring beta w κ i
    · simp only [hM, Matrix.diagonal_apply_ne _ h, mul_zero]
      exact tendsto_const_nhds)
  set Z := ∏ i, (2 * Real.sinh (Real.sqrt (μ i) / 2))⁻¹ with hZ
  have hZ0 : 0 ≤ Z := prod_nonneg fun i _ => inv_nonneg.mpr (mul_nonneg two_pos.le
    (Real.sinh_nonneg_iff.mpr (by positivity)))
  have hpow := Real.tendsto_one_add_div_pow_exp (-1)
  set ρ := Real.exp (-1) / 2 with hρ
  have hρ0 : 0 < ρ := by positivity
  have hpi : (0 : ℝ) < Real.sqrt (2 * Real.pi) := Real.sqrt_pos.mpr (by positivity)
  refine ⟨(Real.sqrt ρ ^ N)⁻¹ * (Z + 1), by positivity, ?_⟩
  filter_upwards [hlim.1, (tendsto_order.1 hlim.2).2 (Z + 1) (by linarith), eventually_ge_atTop 2,
    (tendsto_order.1 hpow).1 ρ (by rw [hρ]; exact half_lt_self (Real.exp_pos _))] with P hi hz hP2 hρP hne
  have hP0 : (0 : ℝ) < P := by exact_mod_cast (by omega : 0 < P)
  have hP2' : (2 : ℝ) ≤ P := by exact_mod_cast hP2
  have ht : 0 < beta / P := div_pos hb hP0
  have hl : 0 < 1 - 1 / (P : ℝ) := by
    rw [sub_pos, div_lt_one hP0]; linarith
  have hsh : ∀ i, 0 < Real.sinh (beta / P * w i) := fun i => Real.sinh_pos_iff.mpr (mul_pos ht (hw i))
  have hc : ∀ i, 0 < Real.sqrt (Real.sinh (beta / P * w i) / (1 - 1 / P)) := fun i => Real.sqrt_pos.mpr (div_pos (hsh i) hl)
  have hprod : 0 < ∏ i, Real.sqrt (Real.sinh (beta / P * w i) / (1 - 1 / P)) := prod_pos fun i _ => hc i
  have hprod1 : 0 < ∏ i, Real.sqrt (Real.sinh (beta / P * w i)) := prod_pos fun i _ => Real.sqrt_pos.mpr (hsh i)
  set W : Matrix (Fin N) (Fin N) ℝ := Matrix.diagonal fun i => Real.sqrt (Real.sinh (beta / P * w i) / (1 - 1 / P)) with hWd
  have hdet : W.det = ∏ i, Real.sqrt (Real.sinh (beta / P * w i) / (1 - 1 / P)) := Matrix.det_diagonal
  have hne' : W.det ≠ 0 := by rw [hdet]; exact hprod.ne'
  set f : BeadPath N P → ℝ := fun R => chain (M P)
    (fun i p => R i p / Real.sqrt (Real.sinh (beta / P * w i) / (1 - 1 / P))) with hf
  have hfc : Continuous f := (continuous_chain _).comp (by fun_prop)
  have hfW : ∀ u, f (modeMap P W u) = chain (M P) u := by
    intro u
    have e : (fun i p => modeMap P W u i p / Real.sqrt (Real.sinh (beta / P * w i) / (1 - 1 / P))) = u := by
      funext i p
      simp only [modeMap, LinearMap.coe_mk, AddHom.coe_mk, hWd, Matrix.diagonal_apply, ite_mul, zero_mul, sum_ite_eq,
        mem_univ, if_true]
      exact mul_div_cancel_left₀ _ (hc i).ne'
    simp only [hf, e]
  have he : ∀ R : BeadPath N P, trial (beta / P) w κ R * Real.exp (spring (beta / P) w R / P)
      = ((∏ i, Real.sqrt (Real.sinh (beta / P * w i))) ^ P)⁻¹ * f R := fun R =>
    trial_eq (beta / P) w κ (fun i => mul_pos ht (hw i)) _ hl rfl R
  have hfi : Integrable f := integrable_modeMap W hne' f hfc (by simpa only [hfW] using hi)
  simp only [he]
  refine ⟨hfi.const_mul _, ?_⟩
  rw [integral_const_mul, integral_modeMap W hne' f hfc, hdet, abs_of_pos hprod]
  simp only [hfW]
  rw [chainZ_eq, div_lt_iff₀ (pow_pos hpi _)] at hz
  have hratio : ((∏ i, Real.sqrt (Real.sinh (beta / P * w i))) ^ P)⁻¹
      * (∏ i, Real.sqrt (Real.sinh (beta / P * w i) / (1 - 1 / P))) ^ P = (Real.sqrt ((1 - 1 / (P : ℝ)) ^ P) ^ N)⁻¹ := by
    have h1 : ∏ i, Real.sqrt (Real.sinh (beta / P * w i) / (1 - 1 / P))
        = (∏ i, Real.sqrt (Real.sinh (beta / P * w i))) / Real.sqrt (1 - 1 / P) ^ N := by
      simp only [Real.sqrt_div (hsh _).le, prod_div_distrib, prod_const, card_univ, Fintype.card_fin]
    have h2 : Real.sqrt ((1 - 1 / (P : ℝ)) ^ P) = Real.sqrt (1 - 1 / P) ^ P := by
      rw [Real.sqrt_eq_iff_mul_self_eq (by positivity) (by positivity), ← mul_pow, Real.mul_self_sqrt hl.le]
    rw [h1, h2, div_pow, ← pow_mul, ← pow_mul, mul_comm P N]
    rw [← mul_div_assoc, inv_mul_cancel₀ (pow_pos hprod1 P).ne', one_div]
  rw [← mul_assoc, hratio]
  have hρ2 : ρ ≤ (1 - 1 / (P : ℝ)) ^ P := by
    have e : (1 : ℝ) - 1 / P = 1 + -1 / P := by ring
    rw [e]; exact hρP.le
  have h1 : (Real.sqrt ((1 - 1 / (P : ℝ)) ^ P) ^ N)⁻¹ ≤ (Real.sqrt ρ ^ N)⁻¹ := by
    refine inv_anti₀ (pow_pos (Real.sqrt_pos.mpr hρ0) _) (pow_le_pow_left₀ (Real.sqrt_nonneg _) (Real.sqrt_le_sqrt hρ2) _)
  have h2 : 0 ≤ ∫ R : BeadPath N P, chain (M P) R := integral_nonneg fun R => by unfold chain; exact (Real.exp_pos _).le
  calc _ ≤ (Real.sqrt ρ ^ N)⁻¹ * ((Z + 1) * Real.sqrt (2 * Real.pi) ^ (N * P)) :=
        mul_le_mul h1 hz.le h2 (by positivity)
    _ = _ := by ring

end Pibronic.PIMC
