import Verif.Lemmas.Split

set_option autoImplicit false
set_option linter.unusedSectionVars false

/-! The steps of the split propagation satisfy what `Steps` asks for. -/
namespace Pibronic.Ritz
open Finset Filter Topology MeasureTheory Pibronic.PIMC
open scoped Matrix.Norms.L2Operator

section
variable {N A : ℕ}

local notation "⟪" x ", " y "⟫" => inner ℝ x y

variable {W : (Fin N → ℝ) → Matrix (Fin A) (Fin A) ℝ} {w : Fin N → ℝ} {κ θ C : ℝ}

theorem mulVec_sq_le (M : Matrix (Fin A) (Fin A) ℝ) (v : Fin A → ℝ) : ∑ a, (∑ b, M a b * v b) ^ 2 ≤ ‖M‖ ^ 2 * ∑ b, v b ^ 2 := by
  have h := M.l2_opNorm_mulVec (WithLp.toLp 2 v)
  have h1 : ‖WithLp.toLp 2 v‖ ^ 2 = ∑ b, v b ^ 2 := by
    rw [EuclideanSpace.norm_sq_eq]; simp
  have h2 : ‖(WithLp.toLp 2 (M.mulVec v) : EuclideanSpace ℝ (Fin A))‖ ^ 2 = ∑ a, (∑ b, M a b * v b) ^ 2 := by
    rw [EuclideanSpace.norm_sq_eq]; simp [Matrix.mulVec, dotProduct]
  rw [← h1, ← h2, ← mul_pow]
  exact pow_le_pow_left₀ (norm_nonneg _) h 2

theorem norm_sq_act {φ : Pt N A → ℝ} (hφ : Weight (vol N A) φ) {k : Pt N A → Pt N A → ℝ} (hk : Ker φ k) (g : Lp ℝ 2 (vol N A)) :
    ‖op hφ hk g‖ ^ 2 = ∫ x, ∑ a, act (vol N A) k g (x, a) ^ 2 ∧ Integrable fun x => ∑ a, act (vol N A) k g (x, a) ^ 2 := by
  have hi : Integrable (fun p => act (vol N A) k g p ^ 2) (vol N A) := (hk.act_memLp hφ g).integrable_sq
  have hs := fun a => section_integrable hi a
  refine ⟨?_, integrable_finsetSum _ fun a _ => hs a⟩
  rw [norm_sq_lp, integral_finsetSum _ fun a _ => hs a, ← integral_pt hi]
  refine integral_congr_ae ?_
  filter_upwards [op_coe hφ hk g] with p hp
  rw [hp]

/-- The half step: the propagator and the couplings together, against the propagator alone. -/
theorem half_le [NeZero A] (H : Below W w κ θ C) {t : ℝ} (ht : Short θ w t) {φ : Pt N A → ℝ} (hφ : Weight (vol N A) φ) (hA : Ker φ (ak W w t))
    (hB : Ker φ (bk θ w t)) (hD : Ker φ (bk 0 w t)) (g : Lp ℝ 2 (vol N A)) :
    ‖op hφ hA g‖ ^ 2 ≤ Real.exp (2 * t * C) * ((1 - κ / θ) * ‖op hφ hD g‖ ^ 2 + κ / θ * ‖g‖ ^ 2) := by
  have hθ0 : 0 < θ := lt_of_le_of_lt H.κ_nonneg H.κθ
  have hr0 : 0 ≤ κ / θ := div_nonneg H.κ_nonneg hθ0.le
  have hr1 : κ / θ ≤ 1 := (div_le_one hθ0).mpr H.κθ.le
  obtain ⟨eA, iA⟩ := norm_sq_act hφ hA g
  obtain ⟨eB, iB⟩ := norm_sq_act hφ hB g
  obtain ⟨eD, iD⟩ := norm_sq_act hφ hD g
  have hbn : ‖op hφ hB g‖ ^ 2 ≤ ‖g‖ ^ 2 := pow_le_pow_left₀ (norm_nonneg _) (bk_norm hφ ht H.freq hB g) 2
  have hmain : ‖op hφ hA g‖ ^ 2 ≤ Real.exp (2 * t * C) * ((1 - κ / θ) * ‖op hφ hD g‖ ^ 2 + κ / θ * ‖op hφ hB g‖ ^ 2) := by
    rw [eA, eB, eD, ← integral_const_mul, ← integral_const_mul, ← integral_add (iD.const_mul _) (iB.const_mul _), ← integral_const_mul]
    refine integral_mono iA (((iD.const_mul _).add (iB.const_mul _)).const_mul _) fun x => ?_
    have hp := pot_nonneg w H.freq x
    set u : ℝ := 2 * t * (θ * pot w x) with hu
    have h1 : ∑ a, act (vol N A) (ak W w t) g (x, a) ^ 2 ≤ Real.exp (2 * t * (κ * pot w x + C)) * ∑ b, act (vol N A) (bk 0 w t) g (x, b) ^ 2 := by
      simp only [act_ak hφ hA hD]
      refine (mulVec_sq_le _ _).trans (mul_le_mul_of_nonneg_right ?_ (sum_nonneg fun _ _ => sq_nonneg _))
      refine (pow_le_pow_left₀ (norm_nonneg _) (H.exp_le t ht.1.le x) 2).trans (le_of_eq ?_)
      rw [← Real.exp_nat_mul]
      congr 1
      push_cast; ring
    have h2 : ∑ b, act (vol N A) (bk θ w t) g (x, b) ^ 2 = Real.exp u * ∑ b, act (vol N A) (bk 0 w t) g (x, b) ^ 2 := by
      rw [mul_sum]
      refine sum_congr rfl fun b _ => ?_
      rw [act_bk hφ hB, act_bk0 hφ hD, mul_pow, ← Real.exp_nat_mul]
      congr 2
      rw [hu]; push_cast; ring
    have h3 : Real.exp (2 * t * (κ * pot w x)) ≤ (1 - κ / θ) + κ / θ * Real.exp u := by
      have hc := convexOn_exp.2 (Set.mem_univ (0 : ℝ)) (Set.mem_univ u) (sub_nonneg.mpr hr1) hr0 (by ring)
      simp only [smul_eq_mul, mul_zero, zero_add, Real.exp_zero, mul_one] at hc
      have e : κ / θ * u = 2 * t * (κ * pot w x) := by rw [hu]; field_simp
      rwa [e] at hc
    refine h1.trans ?_
    rw [h2]
    have h0 : 0 ≤ ∑ b, act (vol N A) (bk 0 w t) g (x, b) ^ 2 := sum_nonneg fun _ _ => sq_nonneg _
    have e : Real.exp (2 * t * (κ * pot w x + C)) = Real.exp (2 * t * C) * Real.exp (2 * t * (κ * pot w x)) := by
      rw [← Real.exp_add]; congr 1; ring
    rw [e, mul_assoc]
    refine mul_le_mul_of_nonneg_left ((mul_le_mul_of_nonneg_right h3 h0).trans (le_of_eq (by ring))) (Real.exp_pos _).le
  refine hmain.trans (mul_le_mul_of_nonneg_left ?_ (Real.exp_pos _).le)
  have := mul_le_mul_of_nonneg_left hbn hr0
  linarith

/-- The quanta of a state. -/
def total (n : Fin N → ℕ) : ℕ := ∑ i, n i

theorem quanta_ge (w : Fin N → ℝ) (w0 : ℝ) (h : ∀ i, w0 ≤ w i) (hw0 : 0 < w0) (n : Fin N → ℕ) : w0 * total n ≤ quanta w n := by
  unfold quanta total
  push_cast
  rw [mul_sum]
  refine sum_le_sum fun i _ => ?_
  have h1 : (0 : ℝ) ≤ n i := Nat.cast_nonneg _
  have := h i
  nlinarith

theorem quanta_nonneg (w : Fin N → ℝ) (h : ∀ i, 0 < w i) (n : Fin N → ℕ) : 0 ≤ quanta w n :=
  sum_nonneg fun i _ => by have := h i; positivity

/-- The propagator shortens the part of a vector in the high states. -/
theorem free_le {φ : Pt N A → ℝ} (hφ : Weight (vol N A) φ) {t : ℝ} (ht : 0 < t) (hw : ∀ i, 0 < w i) (hD : Ker φ (bk 0 w t))
    (w0 : ℝ) (h0 : ∀ i, w0 ≤ w i) (hw0 : 0 < w0) (M : ℕ) (F : Finset ((Fin N → ℕ) × Fin A)) (hF : ∀ m, m ∉ F → M ≤ total m.1)
    (g : Lp ℝ 2 (vol N A)) :
    ‖op hφ hD g‖ ^ 2 ≤ ‖g‖ ^ 2 - (1 - Real.exp (-(2 * t * w0 * M))) * (‖g‖ ^ 2 - ∑ m ∈ F, ⟪states N A m, g⟫ ^ 2) := by
  classical
  have h1 := parseval (b := states N A) (op hφ hD g)
  have h2 := parseval (b := states N A) g
  have h3 : HasSum (fun m => if m ∈ F then ⟪states N A m, g⟫ ^ 2 else 0) (∑ m ∈ F, ⟪states N A m, g⟫ ^ 2) := by
    have := hasSum_sum_of_ne_finset_zero (L := .unconditional _) (f := fun m => if m ∈ F then ⟪states N A m, g⟫ ^ 2 else 0) (s := F) fun m hm => if_neg hm
    rwa [sum_congr rfl fun m hm => if_pos hm] at this
  set e := Real.exp (-(2 * t * w0 * M)) with he
  have he1 : e ≤ 1 := by
    have : (0 : ℝ) ≤ 2 * t * w0 * M := by positivity
    exact Real.exp_le_one_iff.mpr (by linarith)
  refine hasSum_le (fun m => ?_) h1 (h2.sub ((h2.sub h3).mul_left (1 - e)))
  rw [inner_bk hφ (fun i => mul_pos ht (hw i)) hD, mul_pow, ← Real.exp_nat_mul]
  have hs := sq_nonneg ⟪states N A m, g⟫
  by_cases hm : m ∈ F
  · rw [if_pos hm]
    have : Real.exp ((2 : ℕ) * -(t * quanta w m.1)) ≤ 1 := by
      refine Real.exp_le_one_iff.mpr ?_
      have := mul_nonneg ht.le (quanta_nonneg w hw m.1)
      push_cast; linarith
    nlinarith
  · rw [if_neg hm]
    have : Real.exp ((2 : ℕ) * -(t * quanta w m.1)) ≤ e := by
      rw [he]
      refine Real.exp_le_exp.mpr ?_
      have h4 := quanta_ge w w0 h0 hw0 m.1
      have h5 : w0 * (M : ℝ) ≤ w0 * total m.1 := mul_le_mul_of_nonneg_left (by exact_mod_cast hF m hm) hw0.le
      have := mul_le_mul_of_nonneg_left (h5.trans h4) ht.le
      push_cast; linarith
    nlinarith

theorem free_norm {φ : Pt N A → ℝ} (hφ : Weight (vol N A) φ) {t : ℝ} (ht : 0 < t) (hw : ∀ i, 0 < w i) (hD : Ker φ (bk 0 w t))
    (g : Lp ℝ 2 (vol N A)) : ‖op hφ hD g‖ ≤ ‖g‖ := by
  obtain ⟨w0, hw0, h0⟩ := common_pos w hw
  have h := free_le hφ ht hw hD w0 h0 hw0 0 ∅ (fun _ _ => Nat.zero_le _) g
  simp only [CharP.cast_eq_zero, mul_zero, neg_zero, Real.exp_zero, sub_self, zero_mul, sub_zero] at h
  exact (abs_le_of_sq_le_sq' h (norm_nonneg _)).2

theorem half_norm [NeZero A] (H : Below W w κ θ C) {t : ℝ} (ht : Short θ w t) {φ : Pt N A → ℝ} (hφ : Weight (vol N A) φ) (hA : Ker φ (ak W w t))
    (hB : Ker φ (bk θ w t)) (hD : Ker φ (bk 0 w t)) : ‖op hφ hA‖ ≤ Real.exp (t * C) := by
  refine ContinuousLinearMap.opNorm_le_bound _ (Real.exp_pos _).le fun g => ?_
  have hθ0 : 0 < θ := lt_of_le_of_lt H.κ_nonneg H.κθ
  have hr1 : κ / θ ≤ 1 := (div_le_one hθ0).mpr H.κθ.le
  have h1 := half_le H ht hφ hA hB hD g
  have h2 := pow_le_pow_left₀ (norm_nonneg _) (free_norm hφ ht.1 H.freq hD g) 2
  have h3 : ‖op hφ hA g‖ ^ 2 ≤ (Real.exp (t * C) * ‖g‖) ^ 2 := by
    refine h1.trans ?_
    rw [mul_pow, ← Real.exp_nat_mul]
    have e : ((2 : ℕ) : ℝ) * (t * C) = 2 * t * C := by push_cast; ring
    rw [e]
    refine mul_le_mul_of_nonneg_left ?_ (Real.exp_pos _).le
    have := mul_le_mul_of_nonneg_left h2 (sub_nonneg.mpr hr1)
    linarith
  exact abs_le_of_sq_le_sq' h3 (by positivity) |>.2

theorem adjoint_norm {φ : Pt N A → ℝ} (hφ : Weight (vol N A) φ) {k : Pt N A → Pt N A → ℝ} (hk : Ker φ k) (c : ℝ) (hc : 0 ≤ c)
    (h : ‖op hφ hk‖ ≤ c) : ‖op hφ hk.swap‖ ≤ c := by
  refine ContinuousLinearMap.opNorm_le_bound _ hc fun g => ?_
  by_cases h0 : ‖op hφ hk.swap g‖ = 0
  · rw [h0]; positivity
  have h1 : ‖op hφ hk.swap g‖ ^ 2 ≤ c * ‖g‖ * ‖op hφ hk.swap g‖ := by
    rw [← real_inner_self_eq_norm_sq, op_adjoint hφ hk]
    refine (real_inner_le_norm _ _).trans ?_
    have := (op hφ hk).le_of_opNorm_le h (op hφ hk.swap g)
    have := mul_le_mul_of_nonneg_left this (norm_nonneg g)
    linarith
  have h2 : 0 < ‖op hφ hk.swap g‖ := lt_of_le_of_ne (norm_nonneg _) (Ne.symm h0)
  rw [pow_two] at h1
  exact le_of_mul_le_mul_right h1 h2

/-! ### the step -/

theorem kernels_at [NeZero A] (H : Below W w κ θ C) (t : ℝ) (ht : Short θ w t) :
    ∃ φ : Pt N A → ℝ, Weight (vol N A) φ ∧ Ker φ (bk θ w t) ∧ Ker φ (bk 0 w t) ∧ Ker φ (ak W w t) := by
  obtain ⟨c, hc, h⟩ := kernels H t ht
  exact ⟨gw N A c, gw_weight c hc, h⟩

open Classical in
/-- One step of length `τ`: half a step of the oscillators, the couplings, half a step of the oscillators. -/
noncomputable def step [NeZero A] (H : Below W w κ θ C) (τ : ℝ) : Lp ℝ 2 (vol N A) →L[ℝ] Lp ℝ 2 (vol N A) :=
  if h : Short θ w (τ / 2) then
    (op (kernels_at H (τ / 2) h).choose_spec.1 (kernels_at H (τ / 2) h).choose_spec.2.2.2.swap).comp
      (op (kernels_at H (τ / 2) h).choose_spec.1 (kernels_at H (τ / 2) h).choose_spec.2.2.2)
  else 0

theorem step_eq [NeZero A] (H : Below W w κ θ C) (τ : ℝ) (h : Short θ w (τ / 2)) :
    ∃ (φ : Pt N A → ℝ) (hφ : Weight (vol N A) φ) (hB : Ker φ (bk θ w (τ / 2))) (hD : Ker φ (bk 0 w (τ / 2))) (hA : Ker φ (ak W w (τ / 2))),
      step H τ = (op hφ hA.swap).comp (op hφ hA) := by
  refine ⟨(kernels_at H (τ / 2) h).choose, (kernels_at H (τ / 2) h).choose_spec.1, (kernels_at H (τ / 2) h).choose_spec.2.1,
    (kernels_at H (τ / 2) h).choose_spec.2.2.1, (kernels_at H (τ / 2) h).choose_spec.2.2.2, ?_⟩
  unfold step
  rw [dif_pos h]

theorem step_self [NeZero A] (H : Below W w κ θ C) (τ : ℝ) (f g : Lp ℝ 2 (vol N A)) : ⟪step H τ f, g⟫ = ⟪f, step H τ g⟫ := by
  by_cases h : Short θ w (τ / 2)
  · obtain ⟨φ, hφ, -, -, hA, e⟩ := step_eq H τ h
    rw [e, ContinuousLinearMap.comp_apply, ContinuousLinearMap.comp_apply, op_adjoint hφ hA, real_inner_comm, ← op_adjoint hφ hA,
      real_inner_comm]
  · unfold step
    rw [dif_neg h]; simp

theorem short_half (w : Fin N → ℝ) (hw : ∀ i, 0 < w i) (θ : ℝ) (hθ : θ < 1) : ∀ᶠ τ in 𝓝[>] (0 : ℝ), Short θ w (τ / 2) := by
  have h : Tendsto (fun τ : ℝ => τ / 2) (𝓝[>] 0) (𝓝[>] 0) := by
    refine tendsto_nhdsWithin_iff.mpr ⟨?_, ?_⟩
    · have : Tendsto (fun τ : ℝ => τ / 2) (𝓝 0) (𝓝 (0 / 2)) := tendsto_id.div_const 2
      rw [zero_div] at this
      exact this.mono_left nhdsWithin_le_nhds
    · filter_upwards [eventually_mem_nhdsWithin] with τ hτ
      exact half_pos (Set.mem_Ioi.mp hτ)
  exact h.eventually (short_eventually θ hθ w hw)

theorem exp_le_linear (y : ℝ) (h0 : 0 ≤ y) (h1 : y ≤ 1) : Real.exp y ≤ 1 + 2 * y := by
  have h := Real.abs_exp_sub_one_sub_id_le (x := y) (by rw [abs_of_nonneg h0]; exact h1)
  have := (abs_le.mp h).2
  nlinarith

theorem step_norm [NeZero A] (H : Below W w κ θ C) : ∀ᶠ τ in 𝓝[>] (0 : ℝ), ‖step (A := A) H τ‖ ≤ 1 + 4 * C * τ := by
  filter_upwards [short_half w H.freq θ H.θ1, eventually_pos, eventually_small (1 / (C + 1)) (by have := H.C_nonneg; positivity)] with τ h hτ hs
  obtain ⟨φ, hφ, hB, hD, hA, e⟩ := step_eq H τ h
  have h1 := half_norm H h hφ hA hB hD
  have h2 := adjoint_norm hφ hA _ (Real.exp_pos _).le h1
  rw [e]
  refine (ContinuousLinearMap.opNorm_comp_le _ _).trans ((mul_le_mul h2 h1 (norm_nonneg _) (Real.exp_pos _).le).trans ?_)
  rw [← Real.exp_add]
  have hC := H.C_nonneg
  have e1 : τ / 2 * C + τ / 2 * C = C * τ := by ring
  rw [e1]
  have h3 : C * τ ≤ 1 := by
    have := mul_le_mul_of_nonneg_left hs (by linarith : 0 ≤ C + 1)
    rw [mul_one_div_cancel (by linarith)] at this
    nlinarith
  have := exp_le_linear (C * τ) (by positivity) h3
  have : 0 ≤ C * τ := by positivity
  linarith

theorem step_tight [NeZero A] (H : Below W w κ θ C) (w0 : ℝ) (h0 : ∀ i, w0 ≤ w i) (hw0 : 0 < w0) (M : ℕ) (hM : 0 < M)
    (F : Finset ((Fin N → ℕ) × Fin A)) (hF : ∀ m, m ∉ F → M ≤ total m.1) :
    ∀ᶠ τ in 𝓝[>] (0 : ℝ), ∀ g : Lp ℝ 2 (vol N A), ‖g‖ ^ 2 - ∑ m ∈ F, ⟪states N A m, g⟫ ^ 2
      ≤ 2 / ((1 - κ / θ) * w0) / M * ((‖g‖ ^ 2 - ‖step H τ g‖ ^ 2) / τ + 4 * C * ‖g‖ ^ 2) := by
  have hC := H.C_nonneg
  have hM' : (0 : ℝ) < M := by exact_mod_cast hM
  filter_upwards [short_half w H.freq θ H.θ1, eventually_pos, eventually_small (1 / (2 * C + 1)) (by positivity),
    eventually_small (1 / (w0 * M)) (by positivity)] with τ h hτ hs hs2 g
  obtain ⟨φ, hφ, hB, hD, hA, e⟩ := step_eq H τ h
  have hθ0 : 0 < θ := lt_of_le_of_lt H.κ_nonneg H.κθ
  have hr1 : 0 < 1 - κ / θ := sub_pos.mpr ((div_lt_one hθ0).mpr H.κθ)
  set tail := ‖g‖ ^ 2 - ∑ m ∈ F, ⟪states N A m, g⟫ ^ 2 with htail
  have htail0 : 0 ≤ tail := sub_nonneg.mpr (bessel F g)
  have h1 := half_norm H h hφ hA hB hD
  have h2 := adjoint_norm hφ hA _ (Real.exp_pos _).le h1
  have h3 := half_le H h hφ hA hB hD g
  have h4 := free_le hφ h.1 H.freq hD w0 h0 hw0 M F hF g
  rw [← htail] at h4
  set y := 2 * (τ / 2) * w0 * M with hy
  have hy' : y = τ * (w0 * M) := by rw [hy]; ring
  have hy0 : 0 < y := by rw [hy']; positivity
  have hy1 : y ≤ 1 := by
    have := mul_le_mul_of_nonneg_right hs2 (by positivity : 0 ≤ w0 * M)
    rwa [one_div_mul_cancel (by positivity), ← hy'] at this
  have h5 : y / 2 ≤ 1 - Real.exp (-y) := by
    have h6 : Real.exp (-y) ≤ 1 / (1 + y) := by
      rw [Real.exp_neg, ← one_div]
      exact one_div_le_one_div_of_le (by linarith) (by linarith [Real.add_one_le_exp y])
    have h7 : 1 / (1 + y) ≤ 1 - y / 2 := by
      rw [div_le_iff₀ (by linarith)]; nlinarith
    linarith
  set X := (1 - κ / θ) * (y / 2 * tail) with hX
  have hX0 : 0 ≤ X := by positivity
  have h6 : ‖op hφ hA g‖ ^ 2 ≤ Real.exp (τ * C) * (‖g‖ ^ 2 - X) := by
    refine h3.trans ?_
    have e1 : 2 * (τ / 2) * C = τ * C := by ring
    rw [e1]
    refine mul_le_mul_of_nonneg_left ?_ (Real.exp_pos _).le
    have h7 := mul_le_mul_of_nonneg_left (h4.trans (sub_le_sub_left (mul_le_mul_of_nonneg_right h5 htail0) _)) hr1.le
    rw [hX]
    linarith
  have h7 : ‖step H τ g‖ ^ 2 ≤ Real.exp (τ * C) * ‖op hφ hA g‖ ^ 2 := by
    rw [e, ContinuousLinearMap.comp_apply]
    refine (pow_le_pow_left₀ (norm_nonneg _) ((op hφ hA.swap).le_of_opNorm_le h2 _) 2).trans (le_of_eq ?_)
    rw [mul_pow, ← Real.exp_nat_mul]
    congr 2
    push_cast; ring
  have h8 : ‖step H τ g‖ ^ 2 ≤ Real.exp (2 * τ * C) * (‖g‖ ^ 2 - X) := by
    refine h7.trans ((mul_le_mul_of_nonneg_left h6 (Real.exp_pos _).le).trans (le_of_eq ?_))
    rw [← mul_assoc, ← Real.exp_add]
    congr 2; ring
  have h9 : Real.exp (2 * τ * C) ≤ 1 + 4 * C * τ := by
    have hh : 2 * τ * C ≤ 1 := by
      have := mul_le_mul_of_nonneg_left hs (by linarith : 0 ≤ 2 * C + 1)
      rw [mul_one_div_cancel (by linarith)] at this
      nlinarith
    have := exp_le_linear (2 * τ * C) (by positivity) hh
    linarith
  have h10 : 1 ≤ Real.exp (2 * τ * C) := Real.one_le_exp (by positivity)
  have h11 : X ≤ ‖g‖ ^ 2 - ‖step H τ g‖ ^ 2 + 4 * C * τ * ‖g‖ ^ 2 := by
    have a1 := mul_le_mul_of_nonneg_right h9 (sq_nonneg ‖g‖)
    have a2 := mul_le_mul_of_nonneg_right h10 hX0
    linarith
  have e2 : (1 - κ / θ) * w0 * M / 2 * tail * τ = X := by rw [hX, hy']; ring
  have h12 : (1 - κ / θ) * w0 * M / 2 * tail ≤ (‖g‖ ^ 2 - ‖step H τ g‖ ^ 2) / τ + 4 * C * ‖g‖ ^ 2 := by
    rw [← sub_le_iff_le_add, le_div_iff₀ hτ]
    linarith
  have h13 := mul_le_mul_of_nonneg_left h12 (by positivity : 0 ≤ 2 / ((1 - κ / θ) * w0) / M)
  refine le_trans (le_of_eq ?_) h13
  have hr := hr1.ne'
  clear_value tail
  generalize 1 - κ / θ = r at hr
  field_simp

end

end Pibronic.Ritz
