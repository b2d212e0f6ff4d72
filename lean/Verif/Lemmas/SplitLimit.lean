import Verif.Lemmas.SplitBounds
import Verif.Lemmas.ExpBounds

set_option autoImplicit false
set_option linter.unusedSectionVars false

/-! What one step of the split propagation does to a basis function, to first order in the length of the step. -/
namespace Pibronic.Ritz
open Finset Filter Topology MeasureTheory Pibronic.PIMC
open scoped Matrix.Norms.L2Operator

section
variable {N A : ℕ}

local notation "⟪" x ", " y "⟫" => inner ℝ x y

variable {W : (Fin N → ℝ) → Matrix (Fin A) (Fin A) ℝ} {w : Fin N → ℝ} {κ θ C : ℝ}

/-- A basis function multiplied by a column of the exponential. -/
noncomputable def rf (W : (Fin N → ℝ) → Matrix (Fin A) (Fin A) ℝ) (τ : ℝ) (n : (Fin N → ℕ) × Fin A) (p : Pt N A) : ℝ :=
  NormedSpace.exp (-(τ • W p.1)) p.2 n.2 * prodState n.1 p.1

theorem rf_meas (H : Below W w κ θ C) (τ : ℝ) (n : (Fin N → ℕ) × Fin A) : Measurable (rf W τ n) := by
  refine measurable_pt fun a => Continuous.measurable ?_
  exact (exp_continuous H τ a n.2).mul (prodState_continuous n.1)

theorem memLp_of_gw (f : Pt N A → ℝ) (hf : Measurable f) (K c : ℝ) (hc : 0 < c) (h : ∀ p, |f p| ≤ K * gw N A c p) : MemLp f 2 (vol N A) := by
  refine ((gw_weight (N := N) (A := A) c hc).memLp.const_mul K).mono hf.aestronglyMeasurable (ae_of_all _ fun p => ?_)
  rw [Real.norm_eq_abs, Real.norm_eq_abs]
  exact (h p).trans (le_abs_self _)

theorem rf_memLp [NeZero A] (H : Below W w κ θ C) (Bd : ℝ) (hBd : 0 ≤ Bd) (hW : ∀ x, ‖W x‖ ≤ Bd * (1 + ∑ i, x i ^ 2)) (n : (Fin N → ℕ) × Fin A)
    (τ : ℝ) (hτ : 0 ≤ τ) (hs : τ * Bd ≤ 1 / 32) : MemLp (rf W τ n) 2 (vol N A) := by
  obtain ⟨K, hK, hb⟩ := prodState_bound n.1 (1 / 4) (by norm_num)
  refine memLp_of_gw _ (rf_meas H τ n) (Real.exp (1 / 32) * K) (1 / 8) (by norm_num) fun p => ?_
  unfold rf gw
  set s := ∑ i, p.1 i ^ 2 with hsdef
  have hs0 : 0 ≤ s := sum_nonneg fun _ _ => sq_nonneg _
  have h1 : |NormedSpace.exp (-(τ • W p.1)) p.2 n.2| ≤ Real.exp (1 / 32) * Real.exp (s / 32) := by
    refine (entry_le _ _ _).trans ((LieProduct.norm_exp_le _).trans ?_)
    rw [← Real.exp_add, norm_neg, norm_smul, Real.norm_eq_abs, abs_of_nonneg hτ]
    refine Real.exp_le_exp.mpr ?_
    have := mul_le_mul_of_nonneg_left (hW p.1) hτ
    have := mul_le_mul_of_nonneg_right hs (by linarith : 0 ≤ 1 + s)
    nlinarith
  rw [abs_mul]
  refine (mul_le_mul h1 (hb p.1) (abs_nonneg _) (by positivity)).trans ?_
  rw [← hsdef]
  have e : Real.exp (1 / 32) * Real.exp (s / 32) * (K * Real.exp (-((1 / 2 - 1 / 4) * s)))
      = Real.exp (1 / 32) * K * Real.exp (s / 32 + -((1 / 2 - 1 / 4) * s)) := by
    rw [Real.exp_add]; ring
  rw [e]
  exact mul_le_mul_of_nonneg_left (Real.exp_le_exp.mpr (by linarith)) (by positivity)

theorem op_ak_state {φ : Pt N A → ℝ} (hφ : Weight (vol N A) φ) {t : ℝ} (hw : ∀ i, 0 < t * w i) (hA : Ker φ (ak W w t)) (hD : Ker φ (bk 0 w t))
    (n : (Fin N → ℕ) × Fin A) : op hφ hA (states N A n) =ᵐ[vol N A] fun p => Real.exp (-(t * quanta w n.1)) * rf W t n p := by
  filter_upwards [op_coe hφ hA (states N A n)] with p hp
  rw [hp]
  obtain ⟨x, a⟩ := p
  rw [act_ak hφ hA hD]
  simp only [act_state hφ hw hD, bf, rf]
  rw [sum_eq_single n.2]
  · simp; ring
  · intro b _ hb; simp [hb]
  · simp

theorem vec_ext (f g : Lp ℝ 2 (vol N A)) (h : ∀ m, ⟪states N A m, f⟫ = ⟪states N A m, g⟫) : f = g := by
  refine (states N A).repr.injective (lp.ext (funext fun m => ?_))
  rw [HilbertBasis.repr_apply_apply, HilbertBasis.repr_apply_apply, h]

/-- One step, applied to a basis function. -/
theorem step_state [NeZero A] (H : Below W w κ θ C) (n : (Fin N → ℕ) × Fin A) {τ : ℝ} (h : Short θ w (τ / 2)) {φ : Pt N A → ℝ}
    (hφ : Weight (vol N A) φ) (hA : Ker φ (ak W w (τ / 2))) (hD : Ker φ (bk 0 w (τ / 2))) (hr : MemLp (rf W τ n) 2 (vol N A)) :
    op hφ hA.swap (op hφ hA (states N A n)) = Real.exp (-(τ / 2 * quanta w n.1)) • op hφ hD (hr.toLp (rf W τ n)) := by
  have hw : ∀ i, 0 < τ / 2 * w i := fun i => mul_pos h.1 (H.freq i)
  refine vec_ext _ _ fun m => ?_
  rw [real_inner_comm, op_adjoint hφ hA, real_inner_comm, inner_smul_right, inner_bk hφ hw hD, inner_lp, inner_lp]
  have hm := op_ak_state hφ hw hA hD m
  have hn := op_ak_state hφ hw hA hD n
  have i1 : Integrable (fun p => (Real.exp (-(τ / 2 * quanta w m.1)) * rf W (τ / 2) m p) * (Real.exp (-(τ / 2 * quanta w n.1)) * rf W (τ / 2) n p))
      (vol N A) := by
    have := MemLp.integrable_mul (p := 2) (q := 2) (Lp.memLp (op hφ hA (states N A m))) (Lp.memLp (op hφ hA (states N A n)))
    refine this.congr ?_
    filter_upwards [hm, hn] with p h1 h2
    rw [Pi.mul_apply, h1, h2]
  have i2 : Integrable (fun p => bf m p * rf W τ n p) (vol N A) := MemLp.integrable_mul (p := 2) (q := 2) (bf_memLp m) hr
  have e1 : ∫ p, op hφ hA (states N A m) p * op hφ hA (states N A n) p ∂(vol N A)
      = ∫ p, (Real.exp (-(τ / 2 * quanta w m.1)) * rf W (τ / 2) m p) * (Real.exp (-(τ / 2 * quanta w n.1)) * rf W (τ / 2) n p) ∂(vol N A) := by
    refine integral_congr_ae ?_
    filter_upwards [hm, hn] with p h1 h2
    rw [h1, h2]
  have e2 : ∫ p, states N A m p * (hr.toLp (rf W τ n)) p ∂(vol N A) = ∫ p, bf m p * rf W τ n p ∂(vol N A) := by
    refine integral_congr_ae ?_
    filter_upwards [states_coe m, hr.coeFn_toLp] with p h1 h2
    rw [h1, h2]
  rw [e1, e2, integral_pt i1, integral_pt i2, ← integral_finsetSum _ fun a _ => section_integrable i1 a, sum_eq_single m.2, ← integral_const_mul,
    ← integral_const_mul]
  · congr 1
    funext x
    have e3 : NormedSpace.exp (-(τ • W x)) = NormedSpace.exp (-((τ / 2) • W x)) * NormedSpace.exp (-((τ / 2) • W x)) := by
      rw [← Matrix.exp_add_of_commute _ _ (Commute.refl _)]
      congr 1
      rw [← neg_add, ← add_smul, add_halves]
    have e4 : ∀ a, NormedSpace.exp (-((τ / 2) • W x)) a m.2 = NormedSpace.exp (-((τ / 2) • W x)) m.2 a := fun a =>
      (exp_symm H (τ / 2) x).apply m.2 a
    simp only [rf, bf, if_true]
    rw [e3, Matrix.mul_apply, sum_mul, mul_sum, mul_sum, mul_sum]
    refine sum_congr rfl fun a _ => ?_
    rw [e4]; ring
  · intro a _ ha
    simp [bf, ha]
  · simp

theorem sq_le_exp (y : ℝ) (hy : 0 ≤ y) : y ^ 2 ≤ 2048 * Real.exp (y / 32) := by
  have h := Real.quadratic_le_exp_of_nonneg (x := y / 32) (by positivity)
  have : 0 ≤ y / 32 := by positivity
  nlinarith

/-- The exponential, to first order. -/
theorem rf_first [NeZero A] (Bd : ℝ) (hW : ∀ x, ‖W x‖ ≤ Bd * (1 + ∑ i, x i ^ 2)) (n : (Fin N → ℕ) × Fin A) :
    ∃ K, 0 ≤ K ∧ ∀ τ, 0 ≤ τ → τ * Bd ≤ 1 / 32 → ∀ p : Pt N A,
      |rf W τ n p - bf n p + τ * (W p.1 p.2 n.2 * prodState n.1 p.1)| ≤ τ ^ 2 * K * gw N A (1 / 8) p := by
  obtain ⟨K, hK, hb⟩ := prodState_bound n.1 (1 / 4) (by norm_num)
  refine ⟨Bd ^ 2 * 2048 * Real.exp (1 / 16) * K, by positivity, fun τ hτ hs p => ?_⟩
  set s := ∑ i, p.1 i ^ 2 with hsdef
  have hs0 : 0 ≤ s := sum_nonneg fun _ _ => sq_nonneg _
  have e1 : rf W τ n p - bf n p + τ * (W p.1 p.2 n.2 * prodState n.1 p.1)
      = (NormedSpace.exp (-(τ • W p.1)) - 1 - -(τ • W p.1)) p.2 n.2 * prodState n.1 p.1 := by
    unfold rf bf
    simp only [Matrix.sub_apply, Matrix.neg_apply, Matrix.smul_apply, smul_eq_mul, Matrix.one_apply]
    split_ifs <;> ring
  rw [e1, abs_mul]
  have hX : ‖-(τ • W p.1)‖ ≤ τ * Bd * (1 + s) := by
    rw [norm_neg, norm_smul, Real.norm_eq_abs, abs_of_nonneg hτ, mul_assoc]
    exact mul_le_mul_of_nonneg_left (hW p.1) hτ
  have h1 : |(NormedSpace.exp (-(τ • W p.1)) - 1 - -(τ • W p.1)) p.2 n.2| ≤ (τ * Bd * (1 + s)) ^ 2 * Real.exp ((1 + s) / 32) := by
    refine (entry_le _ _ _).trans ((norm_exp_sub_one_sub_le _).trans ?_)
    refine mul_le_mul (pow_le_pow_left₀ (norm_nonneg _) hX 2) (Real.exp_le_exp.mpr (hX.trans ?_)) (Real.exp_pos _).le (by positivity)
    have := mul_le_mul_of_nonneg_right hs (by linarith : 0 ≤ 1 + s)
    linarith
  have h2 := sq_le_exp (1 + s) (by linarith)
  have h3 : (τ * Bd * (1 + s)) ^ 2 * Real.exp ((1 + s) / 32) ≤ τ ^ 2 * Bd ^ 2 * (2048 * Real.exp ((1 + s) / 32)) * Real.exp ((1 + s) / 32) := by
    rw [mul_pow, mul_pow]
    exact mul_le_mul_of_nonneg_right (mul_le_mul_of_nonneg_left h2 (by positivity)) (Real.exp_pos _).le
  refine (mul_le_mul (h1.trans h3) (hb p.1) (abs_nonneg _) (by positivity)).trans ?_
  rw [← hsdef]
  unfold gw
  rw [← hsdef]
  have e2 : τ ^ 2 * Bd ^ 2 * (2048 * Real.exp ((1 + s) / 32)) * Real.exp ((1 + s) / 32) * (K * Real.exp (-((1 / 2 - 1 / 4) * s)))
      = τ ^ 2 * (Bd ^ 2 * 2048 * Real.exp (1 / 16) * K) * Real.exp (s / 16 + -((1 / 2 - 1 / 4) * s)) := by
    have e3 : Real.exp ((1 + s) / 32) * Real.exp ((1 + s) / 32) = Real.exp (1 / 16) * Real.exp (s / 16) := by
      rw [← Real.exp_add, ← Real.exp_add]; congr 1; ring
    rw [Real.exp_add]
    linear_combination τ ^ 2 * Bd ^ 2 * 2048 * K * Real.exp (-((1 / 2 - 1 / 4) * s)) * e3
  rw [e2]
  exact mul_le_mul_of_nonneg_left (Real.exp_le_exp.mpr (by linarith)) (by positivity)

/-- One step, to first order. -/
theorem step_cons [NeZero A] (H : Below W w κ θ C) (Bd : ℝ) (hBd : 0 ≤ Bd) (hW : ∀ x, ‖W x‖ ≤ Bd * (1 + ∑ i, x i ^ 2)) (n : (Fin N → ℕ) × Fin A)
    (F : Finset ((Fin N → ℕ) × Fin A)) (c : (Fin N → ℕ) × Fin A → ℝ) (V : Lp ℝ 2 (vol N A))
    (hV : V =ᵐ[vol N A] fun p => W p.1 p.2 n.2 * prodState n.1 p.1) (hV2 : V = ∑ m ∈ F, c m • states N A m) :
    ∃ K, ∀ᶠ τ in 𝓝[>] (0 : ℝ), ‖step H τ (states N A n) - states N A n + τ • (quanta w n.1 • states N A n + V)‖ ≤ K * τ ^ 2 := by
  obtain ⟨K, hK, hfirst⟩ := rf_first Bd hW n
  set G : Lp ℝ 2 (vol N A) := (gw_weight (N := N) (A := A) (1 / 8) (by norm_num)).memLp.toLp (gw N A (1 / 8)) with hG
  set q := quanta w n.1 with hq
  have hq0 : 0 ≤ q := quanta_nonneg w H.freq n.1
  set S := ∑ m ∈ F, |c m| * (q + quanta w m.1) with hS
  refine ⟨K * ‖G‖ + q ^ 2 + S, ?_⟩
  filter_upwards [short_half w H.freq θ H.θ1, eventually_pos, eventually_small (1 / (32 * (Bd + 1))) (by positivity),
    eventually_small (1 / (q + 1)) (by positivity)] with τ h hτ hs hs2
  have hsB : τ * Bd ≤ 1 / 32 := by
    have := mul_le_mul_of_nonneg_right hs (by linarith : 0 ≤ Bd + 1)
    have e : 1 / (32 * (Bd + 1)) * (Bd + 1) = 1 / 32 := by field_simp
    rw [e] at this
    nlinarith
  have hsq : τ * q ≤ 1 := by
    have := mul_le_mul_of_nonneg_right hs2 (by linarith : 0 ≤ q + 1)
    rw [one_div_mul_cancel (by linarith)] at this
    nlinarith
  have hr := rf_memLp H Bd hBd hW n τ hτ.le hsB
  obtain ⟨φ, hφ, hB, hD, hA, e⟩ := step_eq H τ h
  have hw : ∀ i, 0 < τ / 2 * w i := fun i => mul_pos h.1 (H.freq i)
  have e1 : step H τ (states N A n) = Real.exp (-(τ / 2 * q)) • op hφ hD (hr.toLp (rf W τ n)) := by
    rw [e, ContinuousLinearMap.comp_apply]
    exact step_state H n h hφ hA hD hr
  set r := hr.toLp (rf W τ n) with hrdef
  have hDn : op hφ hD (states N A n) = Real.exp (-(τ / 2 * q)) • states N A n := op_bk_state hφ hw hD n
  have hDV : op hφ hD V = ∑ m ∈ F, c m • (Real.exp (-(τ / 2 * quanta w m.1)) • states N A m) := by
    rw [hV2, map_sum]
    refine sum_congr rfl fun m _ => ?_
    rw [map_smul, op_bk_state hφ hw hD]
  have h1 : ‖r - states N A n + τ • V‖ ≤ τ ^ 2 * K * ‖G‖ := by
    refine Lp.norm_le_mul_norm_of_ae_le_mul ?_
    filter_upwards [Lp.coeFn_add (r - states N A n) (τ • V), Lp.coeFn_sub r (states N A n), Lp.coeFn_smul τ V, hV, states_coe n, hr.coeFn_toLp,
      (gw_weight (N := N) (A := A) (1 / 8) (by norm_num)).memLp.coeFn_toLp] with p a1 a2 a3 a4 a5 a6 a7
    rw [a1, Pi.add_apply, a2, Pi.sub_apply, a3, Pi.smul_apply, a4, a5, a6, a7, smul_eq_mul, Real.norm_eq_abs, Real.norm_eq_abs,
      abs_of_pos (show 0 < gw N A (1 / 8) p from Real.exp_pos _)]
    exact hfirst τ hτ.le hsB p
  set x := Real.exp (-(τ / 2 * q)) with hx
  have hx0 : 0 < x := Real.exp_pos _
  have hx1 : x ≤ 1 := Real.exp_le_one_iff.mpr (by have : 0 ≤ τ / 2 * q := by positivity
                                                  linarith)
  have e2 : step H τ (states N A n) - states N A n + τ • (q • states N A n + V)
      = x • op hφ hD (r - states N A n + τ • V) + (x * x - 1 + τ * q) • states N A n + τ • (V - x • op hφ hD V) := by
    rw [e1, map_add, map_sub, map_smul, hDn]
    module
  have hnn : ‖states N A n‖ = 1 := (states N A).orthonormal.1 n
  have b1 : ‖x • op hφ hD (r - states N A n + τ • V)‖ ≤ τ ^ 2 * K * ‖G‖ := by
    rw [norm_smul, Real.norm_eq_abs, abs_of_pos hx0]
    refine (mul_le_mul hx1 ((free_norm hφ h.1 H.freq hD _).trans h1) (norm_nonneg _) zero_le_one).trans (le_of_eq (one_mul _))
  have b2 : ‖(x * x - 1 + τ * q) • states N A n‖ ≤ τ ^ 2 * q ^ 2 := by
    rw [norm_smul, hnn, mul_one, Real.norm_eq_abs]
    have e3 : x * x - 1 + τ * q = Real.exp (-(τ * q)) - 1 - -(τ * q) := by
      rw [hx, ← Real.exp_add]
      have : -(τ / 2 * q) + -(τ / 2 * q) = -(τ * q) := by ring
      rw [this]; ring
    rw [e3]
    have h0 : 0 ≤ τ * q := by positivity
    refine (Real.abs_exp_sub_one_sub_id_le (x := -(τ * q)) (by rw [abs_neg, abs_of_nonneg h0]; exact hsq)).trans (le_of_eq (by ring))
  have b3 : ‖τ • (V - x • op hφ hD V)‖ ≤ τ ^ 2 * S := by
    have e4 : V - x • op hφ hD V = ∑ m ∈ F, (c m * (1 - x * Real.exp (-(τ / 2 * quanta w m.1)))) • states N A m := by
      rw [hDV, smul_sum]
      conv_lhs => rw [hV2]
      rw [← sum_sub_distrib]
      exact sum_congr rfl fun m _ => by module
    rw [norm_smul, Real.norm_eq_abs, abs_of_pos hτ, e4, pow_two, mul_assoc]
    refine mul_le_mul_of_nonneg_left ((norm_sum_le _ _).trans ?_) hτ.le
    rw [hS, mul_sum]
    refine sum_le_sum fun m _ => ?_
    have hm : ‖states N A m‖ = 1 := (states N A).orthonormal.1 m
    rw [norm_smul, hm, mul_one, Real.norm_eq_abs, abs_mul, hx, ← Real.exp_add]
    set y := -(τ / 2 * q) + -(τ / 2 * quanta w m.1) with hy
    have hm0 := quanta_nonneg w H.freq m.1
    have hy0 : y ≤ 0 := by
      have : 0 ≤ τ / 2 * q := by positivity
      have : 0 ≤ τ / 2 * quanta w m.1 := by positivity
      rw [hy]; linarith
    have h5 : Real.exp y ≤ 1 := Real.exp_le_one_iff.mpr hy0
    rw [abs_of_nonneg (by linarith : 0 ≤ 1 - Real.exp y)]
    have h6 : 1 - Real.exp y ≤ τ * (q + quanta w m.1) := by
      have h7 := Real.add_one_le_exp y
      have : -y ≤ τ * (q + quanta w m.1) := by
        rw [hy]
        have := mul_nonneg hτ.le (add_nonneg hq0 hm0)
        linarith
      linarith
    refine (mul_le_mul_of_nonneg_left h6 (abs_nonneg _)).trans (le_of_eq (by ring))
  rw [e2]
  refine (norm_add_le _ _).trans ((add_le_add (norm_add_le _ _) le_rfl).trans ?_)
  linarith

end

end Pibronic.Ritz
