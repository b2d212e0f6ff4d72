import Verif.Lemmas.Ritz
import Verif.Lemmas.Oscillator

set_option autoImplicit false
set_option linter.unusedSectionVars false

/-! One step: the propagator of the oscillators, and half of the couplings before and after it. -/
namespace Pibronic.Ritz
open Finset Filter Topology MeasureTheory Spec.PIMC Pibronic.PIMC
open scoped Matrix.Norms.L2Operator

/-! ### one mode -/

theorem propagator_form (t w x y : ℝ) (hs : 0 < t * w) :
    propagator t w x y = Real.exp (-(Real.tanh (t * w / 2) * (x ^ 2 + y ^ 2) / 2) + -((x - y) ^ 2 / (2 * Real.sinh (t * w))))
      / Real.sqrt (Real.sinh (t * w)) := by
  have h1 : 0 < Real.sinh (t * w) := Real.sinh_pos_iff.mpr hs
  unfold propagator
  rw [← tanh_half_eq _ hs]
  congr 2
  field_simp
  ring

theorem propagator_le (t w θ : ℝ) (hs : 0 < t * w) (hθ0 : 0 ≤ θ) (hθ : θ * (t * w) < Real.tanh (t * w)) :
    ∃ c, 0 < c ∧ ∀ x y, Real.exp (θ * t * (w * x ^ 2 / 2)) * propagator t w x y
      ≤ 1 / Real.sqrt (Real.sinh (t * w)) * Real.exp (-(c * (x ^ 2 + y ^ 2))) := by
  have h1 : 0 < Real.sinh (t * w) := Real.sinh_pos_iff.mpr hs
  have hc : 0 < Real.cosh (t * w) := Real.cosh_pos _
  have hT : 0 < Real.tanh (t * w) := lt_of_le_of_lt (by positivity) hθ
  have hT2 : 0 < Real.tanh (t * w / 2) := tanh_pos (by linarith)
  have hcs : Real.cosh (t * w) ^ 2 = Real.sinh (t * w) ^ 2 + 1 := Real.cosh_sq _
  set η := 1 - θ * (t * w) / Real.tanh (t * w) with hη
  have hη0 : 0 < η := by rw [hη, sub_pos, div_lt_one hT]; exact hθ
  have hη1 : η ≤ 1 := by rw [hη]; have : 0 ≤ θ * (t * w) / Real.tanh (t * w) := by positivity
                         linarith
  have hηT : (1 - η) * Real.tanh (t * w) = θ * (t * w) := by rw [hη]; field_simp; ring
  refine ⟨η * Real.tanh (t * w / 2) / 2, by positivity, fun x y => ?_⟩
  set Q := ((x ^ 2 + y ^ 2) * Real.cosh (t * w) - 2 * x * y) / (2 * Real.sinh (t * w)) with hQ
  have e1 : propagator t w x y = Real.exp (-Q) / Real.sqrt (Real.sinh (t * w)) := by
    unfold propagator; rw [hQ, neg_div]
  have q1 : Real.tanh (t * w) * x ^ 2 / 2 ≤ Q := by
    rw [hQ, Real.tanh_eq_sinh_div_cosh, le_div_iff₀ (by positivity)]
    have e2 : Real.sinh (t * w) / Real.cosh (t * w) * x ^ 2 / 2 * (2 * Real.sinh (t * w))
        = (Real.cosh (t * w) ^ 2 - 1) * x ^ 2 / Real.cosh (t * w) := by
      rw [hcs]; field_simp; ring
    rw [e2, div_le_iff₀ hc]
    nlinarith [sq_nonneg (Real.cosh (t * w) * y - x)]
  have q2 : Real.tanh (t * w / 2) * (x ^ 2 + y ^ 2) / 2 ≤ Q := by
    rw [hQ, ← tanh_half_eq _ hs, le_div_iff₀ (by positivity)]
    have e2 : (Real.cosh (t * w) - 1) / Real.sinh (t * w) * (x ^ 2 + y ^ 2) / 2 * (2 * Real.sinh (t * w))
        = (Real.cosh (t * w) - 1) * (x ^ 2 + y ^ 2) := by field_simp
    rw [e2]
    nlinarith [sq_nonneg (x - y)]
  have q3 : θ * (t * w) * x ^ 2 / 2 + η * Real.tanh (t * w / 2) / 2 * (x ^ 2 + y ^ 2) ≤ Q := by
    rw [← hηT]
    have := mul_le_mul_of_nonneg_left q1 (by linarith : 0 ≤ 1 - η)
    have := mul_le_mul_of_nonneg_left q2 hη0.le
    nlinarith
  rw [e1, mul_div_assoc', ← Real.exp_add, div_mul_eq_mul_div, one_mul]
  refine div_le_div_of_nonneg_right (Real.exp_le_exp.mpr ?_) (Real.sqrt_nonneg _)
  have e3 : θ * t * (w * x ^ 2 / 2) = θ * (t * w) * x ^ 2 / 2 := by ring
  rw [e3]
  linarith

section
variable {N A : ℕ}

local notation "⟪" x ", " y "⟫" => inner ℝ x y

/-- The propagator of all oscillators. -/
noncomputable def freeK (t : ℝ) (w x y : Fin N → ℝ) : ℝ := ∏ i, propagator t (w i) (x i) (y i) / Real.sqrt (2 * Real.pi)

theorem freeK_pos (t : ℝ) (w x y : Fin N → ℝ) (hw : ∀ i, 0 < t * w i) : 0 < freeK t w x y := by
  refine prod_pos fun i _ => div_pos ?_ (Real.sqrt_pos.mpr (by positivity))
  unfold propagator
  have := Real.sinh_pos_iff.mpr (hw i)
  positivity

theorem freeK_comm (t : ℝ) (w x y : Fin N → ℝ) : freeK t w x y = freeK t w y x := by
  unfold freeK
  refine prod_congr rfl fun i _ => ?_
  congr 1
  unfold propagator
  congr 3
  ring

theorem freeK_continuous (t : ℝ) (w : Fin N → ℝ) : Continuous fun z : (Fin N → ℝ) × (Fin N → ℝ) => freeK t w z.1 z.2 := by
  unfold freeK propagator; fun_prop

theorem freeK_comp (t s : ℝ) (w x y : Fin N → ℝ) (ht : ∀ i, 0 < t * w i) (hs : ∀ i, 0 < s * w i) :
    Integrable (fun z => freeK t w x z * freeK s w z y) ∧ ∫ z, freeK t w x z * freeK s w z y = freeK (t + s) w x y := by
  have e : (fun z => freeK t w x z * freeK s w z y)
      = fun z => ∏ i, (1 / (2 * Real.pi)) * (propagator t (w i) (x i) (z i) * propagator s (w i) (z i) (y i)) := by
    funext z
    unfold freeK
    rw [← prod_mul_distrib]
    refine prod_congr rfl fun i _ => ?_
    rw [div_mul_div_comm, Real.mul_self_sqrt (by positivity)]
    ring
  rw [e]
  refine ⟨Integrable.fintype_prod (f := fun i z => (1 / (2 * Real.pi)) * (propagator t (w i) (x i) z * propagator s (w i) z (y i)))
    fun i => (propagator_comp t s (w i) (x i) (y i) (ht i) (hs i)).1.const_mul _, ?_⟩
  rw [integral_fintype_prod_volume_eq_prod fun i z => (1 / (2 * Real.pi)) * (propagator t (w i) (x i) z * propagator s (w i) z (y i))]
  unfold freeK
  refine prod_congr rfl fun i _ => ?_
  rw [integral_const_mul, (propagator_comp t s (w i) (x i) (y i) (ht i) (hs i)).2]
  have h := Real.mul_self_sqrt (by positivity : (0 : ℝ) ≤ 2 * Real.pi)
  have h2 : Real.sqrt (2 * Real.pi) ≠ 0 := (Real.sqrt_pos.mpr (by positivity)).ne'
  rw [eq_div_iff h2]
  calc 1 / (2 * Real.pi) * (Real.sqrt (2 * Real.pi) * propagator (t + s) (w i) (x i) (y i)) * Real.sqrt (2 * Real.pi)
      = 1 / (2 * Real.pi) * (Real.sqrt (2 * Real.pi) * Real.sqrt (2 * Real.pi)) * propagator (t + s) (w i) (x i) (y i) := by ring
    _ = _ := by rw [h]; field_simp

/-- The energy of a basis function. -/
noncomputable def quanta (w : Fin N → ℝ) (n : Fin N → ℕ) : ℝ := ∑ i, w i * (n i + 1 / 2)

theorem freeK_state (t : ℝ) (w x : Fin N → ℝ) (ht : ∀ i, 0 < t * w i) (n : Fin N → ℕ) :
    ∫ y, freeK t w x y * prodState n y = Real.exp (-(t * quanta w n)) * prodState n x := by
  have e : (fun y => freeK t w x y * prodState n y)
      = fun y => ∏ i, (1 / Real.sqrt (2 * Real.pi)) * (propagator t (w i) (x i) (y i) * state (n i) (y i)) := by
    funext y
    unfold freeK prodState
    rw [← prod_mul_distrib]
    exact prod_congr rfl fun i _ => by ring
  rw [e, integral_fintype_prod_volume_eq_prod fun i z => (1 / Real.sqrt (2 * Real.pi)) * (propagator t (w i) (x i) z * state (n i) z)]
  unfold prodState quanta
  rw [mul_sum, ← sum_neg_distrib, Real.exp_sum, ← prod_mul_distrib]
  refine prod_congr rfl fun i _ => ?_
  rw [integral_const_mul, propagator_state t (w i) (x i) (ht i)]
  have h2 : Real.sqrt (2 * Real.pi) ≠ 0 := (Real.sqrt_pos.mpr (by positivity)).ne'
  have e2 : t * (w i * ((n i : ℝ) + 1 / 2)) = t * w i * (n i + 1 / 2) := by ring
  rw [e2]
  field_simp

/-- A common lower bound of finitely many positive numbers. -/
theorem common_pos (c : Fin N → ℝ) (hc : ∀ i, 0 < c i) : ∃ d, 0 < d ∧ ∀ i, d ≤ c i := by
  rcases isEmpty_or_nonempty (Fin N) with h | h
  · exact ⟨1, one_pos, fun i => h.elim i⟩
  · obtain ⟨i, hi⟩ := Finite.exists_min c
    exact ⟨c i, hc i, hi⟩

/-- The step is short enough. -/
def Short (θ : ℝ) (w : Fin N → ℝ) (t : ℝ) : Prop := 0 < t ∧ ∀ i, θ * (t * w i) < Real.tanh (t * w i)

theorem short_eventually (θ : ℝ) (hθ : θ < 1) (w : Fin N → ℝ) (hw : ∀ i, 0 < w i) : ∀ᶠ t in 𝓝[>] (0 : ℝ), Short θ w t := by
  have h : ∀ᶠ t in 𝓝[>] (0 : ℝ), ∀ i, t * w i < 1 - θ := by
    refine eventually_all.mpr fun i => ?_
    have : Tendsto (fun t : ℝ => t * w i) (𝓝[>] 0) (𝓝 (0 * w i)) := (tendsto_id.mono_left nhdsWithin_le_nhds).mul_const _
    rw [zero_mul] at this
    exact this.eventually (Iio_mem_nhds (by linarith))
  filter_upwards [h, eventually_mem_nhdsWithin] with t h1 h2
  have h2' : 0 < t := h2
  refine ⟨h2', fun i => ?_⟩
  have h3 := mul_pos h2' (hw i)
  refine lt_of_lt_of_le ?_ (tanh_ge _ h3.le)
  nlinarith [h1 i]

theorem freeK_le (θ : ℝ) (hθ0 : 0 ≤ θ) (w : Fin N → ℝ) (hw : ∀ i, 0 < w i) (t : ℝ) (ht : Short θ w t) :
    ∃ c, 0 < c ∧ ∃ C, 0 ≤ C ∧ ∀ x y : Fin N → ℝ, Real.exp (θ * t * pot w x) * freeK t w x y
      ≤ C * (Real.exp (-(c * ∑ i, x i ^ 2)) * Real.exp (-(c * ∑ i, y i ^ 2))) := by
  choose c hc h using fun i => propagator_le t (w i) θ (mul_pos ht.1 (hw i)) hθ0 (ht.2 i)
  obtain ⟨d, hd, hdc⟩ := common_pos c hc
  have hq : 0 < Real.sqrt (2 * Real.pi) := Real.sqrt_pos.mpr (by positivity)
  refine ⟨d, hd, ∏ i, (1 / Real.sqrt (Real.sinh (t * w i)) / Real.sqrt (2 * Real.pi)), prod_nonneg fun i _ => by positivity, fun x y => ?_⟩
  have e1 : Real.exp (θ * t * pot w x) * freeK t w x y
      = ∏ i, (Real.exp (θ * t * (w i * x i ^ 2 / 2)) * propagator t (w i) (x i) (y i)) / Real.sqrt (2 * Real.pi) := by
    unfold pot freeK
    rw [mul_sum, Real.exp_sum, ← prod_mul_distrib]
    exact prod_congr rfl fun i _ => by ring
  have e2 : Real.exp (-(d * ∑ i, x i ^ 2)) * Real.exp (-(d * ∑ i, y i ^ 2)) = ∏ i, Real.exp (-(d * (x i ^ 2 + y i ^ 2))) := by
    rw [← Real.exp_add, ← Real.exp_sum]
    congr 1
    rw [sum_neg_distrib, ← mul_sum, sum_add_distrib]; ring
  rw [e1, e2, ← prod_mul_distrib]
  refine prod_le_prod (fun i _ => ?_) fun i _ => ?_
  · unfold propagator; positivity
  · rw [div_mul_eq_mul_div]
    refine div_le_div_of_nonneg_right ((h i (x i) (y i)).trans ?_) hq.le
    refine mul_le_mul_of_nonneg_left (Real.exp_le_exp.mpr ?_) (by positivity)
    have := mul_le_mul_of_nonneg_right (hdc i) (by positivity : 0 ≤ x i ^ 2 + y i ^ 2)
    linarith

/-! ### the kernels -/

/-- The propagator, with a part of the potential taken back. -/
noncomputable def bk (θ : ℝ) (w : Fin N → ℝ) (t : ℝ) (p q : Pt N A) : ℝ :=
  if p.2 = q.2 then Real.exp (θ * t * pot w p.1) * freeK t w p.1 q.1 else 0

/-- The propagator, then the couplings. -/
noncomputable def ak (W : (Fin N → ℝ) → Matrix (Fin A) (Fin A) ℝ) (w : Fin N → ℝ) (t : ℝ) (p q : Pt N A) : ℝ :=
  freeK t w p.1 q.1 * NormedSpace.exp (-(t • W p.1)) p.2 q.2

theorem measurable_pt2 {f : Pt N A → Pt N A → ℝ} (hf : ∀ a b, Measurable fun z : (Fin N → ℝ) × (Fin N → ℝ) => f (z.1, a) (z.2, b)) :
    Measurable (Function.uncurry f) := by
  have h : Measurable fun z : ((Fin N → ℝ) × (Fin N → ℝ)) × (Fin A × Fin A) => f (z.1.1, z.2.1) (z.1.2, z.2.2) :=
    measurable_from_prod_countable_left fun c => hf c.1 c.2
  have h2 : Measurable fun z : Pt N A × Pt N A => (((z.1.1, z.2.1), (z.1.2, z.2.2)) : ((Fin N → ℝ) × (Fin N → ℝ)) × (Fin A × Fin A)) := by
    fun_prop
  exact h.comp h2

theorem pot_nonneg (w : Fin N → ℝ) (hw : ∀ i, 0 < w i) (x : Fin N → ℝ) : 0 ≤ pot w x :=
  sum_nonneg fun i _ => by have := hw i; positivity

/-- What is known about the couplings. -/
structure Below (W : (Fin N → ℝ) → Matrix (Fin A) (Fin A) ℝ) (w : Fin N → ℝ) (κ θ C : ℝ) : Prop where
  freq : ∀ i, 0 < w i
  cont : Continuous W
  symm : ∀ x, (W x).IsSymm
  below : ∀ x v, -(κ * pot w x + C) * ∑ a, v a ^ 2 ≤ quad (W x) v
  C_nonneg : 0 ≤ C
  κ_nonneg : 0 ≤ κ
  κθ : κ < θ
  θ1 : θ < 1

variable {W : (Fin N → ℝ) → Matrix (Fin A) (Fin A) ℝ} {w : Fin N → ℝ} {κ θ C : ℝ}

theorem quad_smul' (c : ℝ) (M : Matrix (Fin A) (Fin A) ℝ) (v : Fin A → ℝ) : quad (c • M) v = c * quad M v := quad_smul c M v

theorem Below.exp_le [NeZero A] (H : Below W w κ θ C) (t : ℝ) (ht : 0 ≤ t) (x : Fin N → ℝ) :
    ‖NormedSpace.exp (-(t • W x))‖ ≤ Real.exp (t * (κ * pot w x + C)) := by
  have h := norm_exp_neg_le (t • W x) (by rw [Matrix.IsSymm, Matrix.transpose_smul, (H.symm x).eq]) (-(t * (κ * pot w x + C))) fun v => by
    rw [quad_smul']
    have := mul_le_mul_of_nonneg_left (H.below x v) ht
    linarith
  rwa [neg_neg] at h

theorem exp_continuous (H : Below W w κ θ C) (t : ℝ) (a b : Fin A) : Continuous fun x => NormedSpace.exp (-(t • W x)) a b := by
  have h : Continuous fun x => NormedSpace.exp (-(t • W x)) := (continuous_matrix_exp A).comp (H.cont.const_smul t).neg
  exact (continuous_apply b).comp ((continuous_apply a).comp h)

theorem exp_symm (H : Below W w κ θ C) (t : ℝ) (x : Fin N → ℝ) : (NormedSpace.exp (-(t • W x))).IsSymm := by
  rw [Matrix.IsSymm, ← Matrix.exp_transpose, Matrix.transpose_neg, Matrix.transpose_smul, (H.symm x).eq]

theorem kernels [NeZero A] (H : Below W w κ θ C) (t : ℝ) (ht : Short θ w t) :
    ∃ c, 0 < c ∧ Ker (gw N A c) (bk θ w t) ∧ Ker (gw N A c) (bk 0 w t) ∧ Ker (gw N A c) (ak W w t) := by
  obtain ⟨c, hc, C', hC', h⟩ := freeK_le θ (H.κ_nonneg.trans H.κθ.le) w H.freq t ht
  have hpos : ∀ x y : Fin N → ℝ, 0 < freeK t w x y := fun x y => freeK_pos t w x y fun i => mul_pos ht.1 (H.freq i)
  have hθ0 := H.κ_nonneg.trans H.κθ.le
  have hb : ∀ θ' : ℝ, Measurable (Function.uncurry (bk (A := A) θ' w t)) := by
    intro θ'
    refine measurable_pt2 fun a b => ?_
    unfold bk
    by_cases hab : a = b
    · simp only [hab, if_true]
      refine Continuous.measurable (Continuous.mul ?_ (freeK_continuous t w))
      unfold pot; fun_prop
    · simp only [hab, if_false]; exact measurable_const
  have hbd : ∀ θ' : ℝ, θ' ≤ θ → ∀ p q : Pt N A, |bk θ' w t p q| ≤ C' * (gw N A c p * gw N A c q) := by
    intro θ' hθ' p q
    unfold bk gw
    split_ifs with hpq
    · rw [abs_of_nonneg (mul_nonneg (Real.exp_pos _).le (hpos _ _).le)]
      refine le_trans (mul_le_mul_of_nonneg_right (Real.exp_le_exp.mpr ?_) (hpos _ _).le) (h p.1 q.1)
      exact mul_le_mul_of_nonneg_right (mul_le_mul_of_nonneg_right hθ' ht.1.le) (pot_nonneg w H.freq p.1)
    · rw [abs_zero]; positivity
  refine ⟨c, hc, ⟨hb θ, C', hC', hbd θ le_rfl⟩, ⟨hb 0, C', hC', hbd 0 hθ0⟩, ?_, Real.exp (t * C) * C', by positivity, fun p q => ?_⟩
  · refine measurable_pt2 fun a b => Continuous.measurable ?_
    exact (freeK_continuous t w).mul ((exp_continuous H t a b).comp continuous_fst)
  · unfold ak
    rw [abs_mul, abs_of_pos (hpos _ _)]
    have h1 := (entry_le (NormedSpace.exp (-(t • W p.1))) p.2 q.2).trans (H.exp_le t ht.1.le p.1)
    have h2 : Real.exp (t * (κ * pot w p.1 + C)) ≤ Real.exp (t * C) * Real.exp (θ * t * pot w p.1) := by
      rw [← Real.exp_add]
      refine Real.exp_le_exp.mpr ?_
      have := mul_le_mul_of_nonneg_right (mul_le_mul_of_nonneg_right H.κθ.le ht.1.le) (pot_nonneg w H.freq p.1)
      linarith
    refine (mul_le_mul_of_nonneg_left (h1.trans h2) (hpos _ _).le).trans ?_
    have h3 := mul_le_mul_of_nonneg_left (h p.1 q.1) (Real.exp_pos (t * C)).le
    unfold gw
    calc _ = Real.exp (t * C) * (Real.exp (θ * t * pot w p.1) * freeK t w p.1 q.1) := by ring
      _ ≤ _ := h3
      _ = _ := by ring

/-! ### the operators -/

theorem row_pt {φ : Pt N A → ℝ} (hφ : Weight (vol N A) φ) {k : Pt N A → Pt N A → ℝ} (hk : Ker φ k) (g : Lp ℝ 2 (vol N A)) (p : Pt N A) :
    act (vol N A) k g p = ∑ b, ∫ y, k p (y, b) * g (y, b) := integral_pt (hk.row_integrable hφ g p)

theorem act_bk {φ : Pt N A → ℝ} (hφ : Weight (vol N A) φ) {θ' : ℝ} {t : ℝ} (hk : Ker φ (bk θ' w t)) (g : Lp ℝ 2 (vol N A)) (x : Fin N → ℝ)
    (a : Fin A) : act (vol N A) (bk θ' w t) g (x, a) = Real.exp (θ' * t * pot w x) * ∫ y, freeK t w x y * g (y, a) := by
  rw [row_pt hφ hk, sum_eq_single a]
  · rw [← integral_const_mul]
    congr 1; funext y
    simp only [bk, if_true]; ring
  · intro b _ hb
    simp [bk, Ne.symm hb]
  · simp

theorem act_bk0 {φ : Pt N A → ℝ} (hφ : Weight (vol N A) φ) {t : ℝ} (hk : Ker φ (bk 0 w t)) (g : Lp ℝ 2 (vol N A)) (x : Fin N → ℝ)
    (a : Fin A) : act (vol N A) (bk 0 w t) g (x, a) = ∫ y, freeK t w x y * g (y, a) := by
  rw [act_bk hφ hk]; simp

theorem act_ak {φ : Pt N A → ℝ} (hφ : Weight (vol N A) φ) {t : ℝ} (hk : Ker φ (ak W w t)) (hD : Ker φ (bk 0 w t)) (g : Lp ℝ 2 (vol N A))
    (x : Fin N → ℝ) (a : Fin A) :
    act (vol N A) (ak W w t) g (x, a) = ∑ b, NormedSpace.exp (-(t • W x)) a b * act (vol N A) (bk 0 w t) g (x, b) := by
  rw [row_pt hφ hk]
  refine sum_congr rfl fun b _ => ?_
  rw [act_bk0 hφ hD, ← integral_const_mul]
  congr 1; funext y
  simp only [ak]; ring

theorem act_state {φ : Pt N A → ℝ} (hφ : Weight (vol N A) φ) {t : ℝ} (hw : ∀ i, 0 < t * w i) (hD : Ker φ (bk 0 w t))
    (m : (Fin N → ℕ) × Fin A) (p : Pt N A) : act (vol N A) (bk 0 w t) (states N A m) p = Real.exp (-(t * quanta w m.1)) * bf m p := by
  rw [act_congr (states_coe m)]
  obtain ⟨x, a⟩ := p
  have hi : Integrable (fun q => bk 0 w t (x, a) q * bf m q) (vol N A) :=
    (hD.row_integrable hφ (states N A m) (x, a)).congr (by filter_upwards [states_coe m] with q hq; rw [hq])
  unfold act
  rw [integral_pt hi, sum_eq_single a]
  · have e : (fun y => bk 0 w t (x, a) (y, a) * bf m (y, a)) = fun y => (if a = m.2 then 1 else 0) * (freeK t w x y * prodState m.1 y) := by
      funext y; simp [bk, bf]
    rw [e, integral_const_mul, freeK_state t w x hw]
    unfold bf
    split_ifs <;> simp
  · intro b _ hb
    simp [bk, Ne.symm hb]
  · simp

theorem op_bk_state {φ : Pt N A → ℝ} (hφ : Weight (vol N A) φ) {t : ℝ} (hw : ∀ i, 0 < t * w i) (hD : Ker φ (bk 0 w t))
    (m : (Fin N → ℕ) × Fin A) : op hφ hD (states N A m) = Real.exp (-(t * quanta w m.1)) • states N A m := by
  refine Lp.ext ?_
  filter_upwards [op_coe hφ hD (states N A m), Lp.coeFn_smul (Real.exp (-(t * quanta w m.1))) (states N A m), states_coe m] with p h1 h2 h3
  rw [h1, h2, Pi.smul_apply, smul_eq_mul, h3, act_state hφ hw hD]

theorem bk_symm (t : ℝ) : (fun p q : Pt N A => bk 0 w t q p) = bk 0 w t := by
  funext p q
  unfold bk
  rw [freeK_comm]
  by_cases h : p.2 = q.2
  · rw [if_pos h, if_pos h.symm]; simp
  · rw [if_neg h, if_neg (Ne.symm h)]

theorem inner_bk {φ : Pt N A → ℝ} (hφ : Weight (vol N A) φ) {t : ℝ} (hw : ∀ i, 0 < t * w i) (hD : Ker φ (bk 0 w t))
    (m : (Fin N → ℕ) × Fin A) (g : Lp ℝ 2 (vol N A)) :
    ⟪states N A m, op hφ hD g⟫ = Real.exp (-(t * quanta w m.1)) * ⟪states N A m, g⟫ := by
  rw [← op_adjoint hφ hD, op_congr hφ (bk_symm t) hD.swap hD, op_bk_state hφ hw hD, real_inner_smul_left]

/-- The propagator of the oscillators, with part of the potential taken back, does not make anything longer. -/
theorem bk_norm {φ : Pt N A → ℝ} (hφ : Weight (vol N A) φ) {t : ℝ} (ht : Short θ w t) (hfreq : ∀ i, 0 < w i) (hB : Ker φ (bk θ w t))
    (g : Lp ℝ 2 (vol N A)) : ‖op hφ hB g‖ ≤ ‖g‖ := by
  have hw : ∀ i, 0 < t * w i := fun i => mul_pos ht.1 (hfreq i)
  have hw2 : ∀ i, 0 < (t + t) * w i := fun i => mul_pos (by have := ht.1; linarith) (hfreq i)
  have hpos : ∀ x y, 0 < freeK (t + t) w x y := fun x y => freeK_pos _ _ _ _ hw2
  -- the kernel of the product
  have ecomp : ∀ (x y : Fin N → ℝ) (a b : Fin A), comp (vol N A) (bk θ w t) (fun p q => bk θ w t q p) (x, a) (y, b)
      = if a = b then Real.exp (θ * t * pot w x) * Real.exp (θ * t * pot w y) * freeK (t + t) w x y else 0 := by
    intro x y a b
    unfold comp
    rw [integral_pt (hB.mul_integrable hφ hB.swap (x, a) (y, b)), sum_eq_single a]
    · by_cases hab : a = b
      · subst hab
        simp only [bk, if_true]
        rw [← (freeK_comp t t w x y hw hw).2, ← integral_const_mul]
        congr 1; funext z
        rw [freeK_comm t w y z]; ring
      · have : b ≠ a := Ne.symm hab
        simp [bk, hab, this]
    · intro c _ hc
      simp [bk, Ne.symm hc]
    · simp
  -- one mode
  have hq : 0 < Real.sqrt (2 * Real.pi) := Real.sqrt_pos.mpr (by positivity)
  set G : Fin N → ℝ → ℝ := fun i z => Real.exp (-(1 / (2 * Real.sinh ((t + t) * w i))) * z ^ 2)
    / Real.sqrt (Real.sinh ((t + t) * w i)) / Real.sqrt (2 * Real.pi) with hG
  have hS : ∀ i, 0 < Real.sinh ((t + t) * w i) := fun i => Real.sinh_pos_iff.mpr (hw2 i)
  have hGint : ∀ i, Integrable (G i) ∧ ∫ z, G i z = 1 := by
    intro i
    have hs := hS i
    have hp : 0 < 1 / (2 * Real.sinh ((t + t) * w i)) := by positivity
    refine ⟨((integrable_exp_neg_mul_sq hp).div_const _).div_const _, ?_⟩
    simp only [hG]
    rw [integral_div, integral_div, integral_gaussian]
    have e : Real.pi / (1 / (2 * Real.sinh ((t + t) * w i))) = Real.sinh ((t + t) * w i) * (2 * Real.pi) := by field_simp
    rw [e, Real.sqrt_mul hs.le]
    have := (Real.sqrt_pos.mpr hs).ne'
    rw [div_div, div_self (mul_ne_zero this hq.ne')]
  have hkle : ∀ x y, Real.exp (θ * t * pot w x) * Real.exp (θ * t * pot w y) * freeK (t + t) w x y ≤ ∏ i, G i (y i - x i) := by
    intro x y
    have e : Real.exp (θ * t * pot w x) * Real.exp (θ * t * pot w y) * freeK (t + t) w x y
        = ∏ i, Real.exp (θ * t * (w i * x i ^ 2 / 2)) * Real.exp (θ * t * (w i * y i ^ 2 / 2))
          * (propagator (t + t) (w i) (x i) (y i) / Real.sqrt (2 * Real.pi)) := by
      unfold pot freeK
      rw [mul_sum, mul_sum, Real.exp_sum, Real.exp_sum, ← prod_mul_distrib, ← prod_mul_distrib]
    rw [e]
    refine prod_le_prod (fun i _ => ?_) fun i _ => ?_
    · unfold propagator; positivity
    · rw [propagator_form _ _ _ _ (hw2 i), hG]
      simp only
      rw [mul_div_assoc', mul_div_assoc', ← Real.exp_add, ← Real.exp_add]
      refine div_le_div_of_nonneg_right (div_le_div_of_nonneg_right (Real.exp_le_exp.mpr ?_) (Real.sqrt_nonneg _)) hq.le
      have e2 : (t + t) * w i / 2 = t * w i := by ring
      rw [e2]
      have h1 := mul_le_mul_of_nonneg_right (ht.2 i).le (by positivity : 0 ≤ x i ^ 2 + y i ^ 2)
      have e3 : -(1 / (2 * Real.sinh ((t + t) * w i))) * (y i - x i) ^ 2 = -((x i - y i) ^ 2 / (2 * Real.sinh ((t + t) * w i))) := by ring
      rw [e3]
      nlinarith
  have hprod : ∀ x : Fin N → ℝ, Integrable (fun y : Fin N → ℝ => ∏ i, G i (y i - x i)) ∧ ∫ y : Fin N → ℝ, ∏ i, G i (y i - x i) = 1 := by
    intro x
    refine ⟨Integrable.fintype_prod (f := fun i z => G i (z - x i)) fun i => (hGint i).1.comp_sub_right _, ?_⟩
    rw [integral_fintype_prod_volume_eq_prod fun i z => G i (z - x i)]
    refine prod_eq_one fun i _ => ?_
    rw [integral_sub_right_eq_self (G i), (hGint i).2]
  have hkc := hB.comp hφ hB.swap
  have hknn : ∀ p q, 0 ≤ comp (vol N A) (bk θ w t) (fun p q => bk θ w t q p) p q := by
    rintro ⟨x, a⟩ ⟨y, b⟩
    rw [ecomp]
    split_ifs
    · exact mul_nonneg (by positivity) (hpos x y).le
    · exact le_rfl
  have hrowint : ∀ p, Integrable (comp (vol N A) (bk θ w t) (fun p q => bk θ w t q p) p) (vol N A) := by
    rintro ⟨x, a⟩
    refine integrable_pt (fun b => (hkc.meas_right (x, a)).comp measurable_prodMk_right) fun b => ?_
    refine (hprod x).1.mono' ((hkc.meas_right (x, a)).comp measurable_prodMk_right).aestronglyMeasurable (ae_of_all _ fun y => ?_)
    rw [Real.norm_eq_abs, abs_of_nonneg (hknn _ _), ecomp]
    split_ifs
    · exact hkle x y
    · exact ((mul_nonneg (by positivity) (hpos x y).le)).trans (hkle x y)
  refine op_norm_le hφ hB (schur hφ hkc hknn ?_ hrowint ?_) g
  · rintro ⟨x, a⟩ ⟨y, b⟩
    rw [ecomp, ecomp, freeK_comm]
    by_cases h : a = b
    · rw [if_pos h, if_pos h.symm]; ring
    · rw [if_neg h, if_neg (Ne.symm h)]
  · rintro ⟨x, a⟩
    rw [integral_pt (hrowint (x, a)), sum_eq_single a]
    · rw [← (hprod x).2]
      refine integral_mono_of_nonneg (ae_of_all _ fun y => hknn _ _) (hprod x).1 (ae_of_all _ fun y => ?_)
      simp only
      rw [ecomp, if_pos rfl]
      exact hkle x y
    · intro b _ hb
      have : ∀ y, comp (vol N A) (bk θ w t) (fun p q => bk θ w t q p) (x, a) (y, b) = 0 := fun y => by
        rw [ecomp, if_neg (Ne.symm hb)]
      simp [this]
    · simp

end

end Pibronic.Ritz
