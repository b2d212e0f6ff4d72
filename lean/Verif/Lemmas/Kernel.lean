import Mathlib.Analysis.InnerProductSpace.l2Space
import Mathlib.MeasureTheory.Function.L2Space
import Mathlib.MeasureTheory.Integral.Prod
import Mathlib.MeasureTheory.Integral.DominatedConvergence

set_option autoImplicit false
set_option linter.unusedSectionVars false

/-! Operators on square integrable functions that are given by kernels with a product bound. -/
namespace Pibronic.Ritz
open Filter Topology MeasureTheory

section
variable {α : Type*} [MeasurableSpace α] {μ : Measure α} [SFinite μ] {φ : α → ℝ}

local notation "⟪" x ", " y "⟫" => inner ℝ x y

/-- A weight that is square integrable. -/
structure Weight (μ : Measure α) (φ : α → ℝ) : Prop where
  meas : Measurable φ
  pos : ∀ x, 0 ≤ φ x
  sq : Integrable (fun x => φ x ^ 2) μ

/-- A kernel bounded by a multiple of `φ x * φ y`. -/
structure Ker (φ : α → ℝ) (k : α → α → ℝ) : Prop where
  meas : Measurable (Function.uncurry k)
  bound : ∃ C, 0 ≤ C ∧ ∀ x y, |k x y| ≤ C * (φ x * φ y)

theorem Weight.memLp (hφ : Weight μ φ) : MemLp φ 2 μ := by
  rw [memLp_two_iff_integrable_sq hφ.meas.aestronglyMeasurable]
  exact hφ.sq

theorem Ker.meas_right {k : α → α → ℝ} (hk : Ker φ k) (x : α) : Measurable (k x) := hk.meas.comp measurable_prodMk_left

theorem Ker.meas_left {k : α → α → ℝ} (hk : Ker φ k) (y : α) : Measurable fun x => k x y := hk.meas.comp measurable_prodMk_right

theorem Ker.swap {k : α → α → ℝ} (hk : Ker φ k) : Ker φ fun x y => k y x := by
  obtain ⟨C, hC, h⟩ := hk.bound
  exact ⟨hk.meas.comp measurable_swap, C, hC, fun x y => (h y x).trans (le_of_eq (by ring))⟩

theorem Ker.row_memLp (hφ : Weight μ φ) {k : α → α → ℝ} (hk : Ker φ k) (x : α) : MemLp (k x) 2 μ := by
  obtain ⟨C, hC, h⟩ := hk.bound
  refine (hφ.memLp.const_mul (C * φ x)).mono (hk.meas_right x).aestronglyMeasurable (ae_of_all _ fun y => ?_)
  rw [Real.norm_eq_abs, Real.norm_eq_abs, abs_of_nonneg (mul_nonneg (mul_nonneg hC (hφ.pos x)) (hφ.pos y))]
  exact (h x y).trans (le_of_eq (by ring))

theorem Weight.mul_integrable (hφ : Weight μ φ) (g : Lp ℝ 2 μ) : Integrable (fun y => φ y * |g y|) μ :=
  MemLp.integrable_mul hφ.memLp (Lp.memLp g).abs

theorem Ker.row_integrable (hφ : Weight μ φ) {k : α → α → ℝ} (hk : Ker φ k) (g : Lp ℝ 2 μ) (x : α) :
    Integrable (fun y => k x y * g y) μ := MemLp.integrable_mul (hk.row_memLp hφ x) (Lp.memLp g)

/-- The function that the kernel makes of `g`. -/
noncomputable def act (μ : Measure α) (k : α → α → ℝ) (g : α → ℝ) (x : α) : ℝ := ∫ y, k x y * g y ∂μ

theorem Ker.act_meas {k : α → α → ℝ} (hk : Ker φ k) (g : Lp ℝ 2 μ) : Measurable (act μ k g) := by
  have h : StronglyMeasurable fun p : α × α => k p.1 p.2 * g p.2 :=
    hk.meas.stronglyMeasurable.mul ((Lp.stronglyMeasurable g).comp_measurable measurable_snd)
  exact h.integral_prod_right.measurable

theorem Ker.act_le (hφ : Weight μ φ) {k : α → α → ℝ} (C : ℝ) (hC : 0 ≤ C) (h : ∀ x y, |k x y| ≤ C * (φ x * φ y)) (g : Lp ℝ 2 μ) (x : α) :
    |act μ k g x| ≤ C * φ x * (Real.sqrt (∫ y, φ y ^ 2 ∂μ) * ‖g‖) := by
  have h1 : |act μ k g x| ≤ ∫ y, C * φ x * (φ y * |g y|) ∂μ := by
    unfold act
    refine (abs_integral_le_integral_abs).trans (integral_mono_of_nonneg (ae_of_all _ fun _ => abs_nonneg _)
      ((hφ.mul_integrable g).const_mul _) (ae_of_all _ fun y => ?_))
    simp only [abs_mul]
    refine (mul_le_mul_of_nonneg_right (h x y) (abs_nonneg _)).trans (le_of_eq (by ring))
  rw [integral_const_mul] at h1
  refine h1.trans (mul_le_mul_of_nonneg_left ?_ (mul_nonneg hC (hφ.pos x)))
  have e1 : ∫ y, φ y * |g y| ∂μ = ⟪(hφ.memLp).toLp φ, ((Lp.memLp g).abs).toLp _⟫ := by
    rw [L2.inner_def]
    refine integral_congr_ae ?_
    filter_upwards [hφ.memLp.coeFn_toLp, (Lp.memLp g).abs.coeFn_toLp] with y e2 e3
    rw [e2, e3]
    simp [mul_comm]
  rw [e1]
  refine (real_inner_le_norm _ _).trans (le_of_eq ?_)
  congr 1
  · rw [← Real.sqrt_sq (norm_nonneg _), ← real_inner_self_eq_norm_sq, L2.inner_def]
    congr 1
    refine integral_congr_ae ?_
    filter_upwards [hφ.memLp.coeFn_toLp] with y e2
    rw [e2]; simp [sq]
  · rw [Lp.norm_toLp, Lp.norm_def]
    exact congrArg ENNReal.toReal (eLpNorm_norm (g : α → ℝ))

theorem Ker.act_memLp (hφ : Weight μ φ) {k : α → α → ℝ} (hk : Ker φ k) (g : Lp ℝ 2 μ) : MemLp (act μ k g) 2 μ := by
  obtain ⟨C, hC, h⟩ := hk.bound
  refine (hφ.memLp.const_mul (C * (Real.sqrt (∫ y, φ y ^ 2 ∂μ) * ‖g‖))).mono (hk.act_meas g).aestronglyMeasurable
    (ae_of_all _ fun x => ?_)
  rw [Real.norm_eq_abs, Real.norm_eq_abs, abs_of_nonneg (mul_nonneg (by positivity) (hφ.pos x))]
  exact (Ker.act_le hφ C hC h g x).trans (le_of_eq (by ring))

theorem norm_sq_lp (f : Lp ℝ 2 μ) : ‖f‖ ^ 2 = ∫ x, f x ^ 2 ∂μ := by
  rw [← real_inner_self_eq_norm_sq, L2.inner_def]
  exact integral_congr_ae (ae_of_all _ fun x => by simp [sq])

theorem inner_lp (f g : Lp ℝ 2 μ) : ⟪f, g⟫ = ∫ x, f x * g x ∂μ := by
  rw [L2.inner_def]
  exact integral_congr_ae (ae_of_all _ fun x => by simp [mul_comm])

/-- The operator with kernel `k`. -/
noncomputable def op (hφ : Weight μ φ) {k : α → α → ℝ} (hk : Ker φ k) : Lp ℝ 2 μ →L[ℝ] Lp ℝ 2 μ :=
  LinearMap.mkContinuous
    { toFun := fun g => (hk.act_memLp hφ g).toLp (act μ k g)
      map_add' := fun f g => by
        rw [← MemLp.toLp_add]
        refine MemLp.toLp_congr _ _ (ae_of_all _ fun x => ?_)
        simp only [act, Pi.add_apply]
        rw [← integral_add (hk.row_integrable hφ f x) (hk.row_integrable hφ g x)]
        refine integral_congr_ae ?_
        filter_upwards [Lp.coeFn_add f g] with y hy
        rw [hy, Pi.add_apply, mul_add]
      map_smul' := fun c g => by
        rw [RingHom.id_apply, ← MemLp.toLp_const_smul]
        refine MemLp.toLp_congr _ _ (ae_of_all _ fun x => ?_)
        simp only [act, Pi.smul_apply, smul_eq_mul]
        rw [← integral_const_mul]
        refine integral_congr_ae ?_
        filter_upwards [Lp.coeFn_smul c g] with y hy
        rw [hy, Pi.smul_apply, smul_eq_mul]; ring }
    (hk.bound.choose * (∫ y, φ y ^ 2 ∂μ)) (fun g => by
      obtain ⟨hC, h⟩ := hk.bound.choose_spec
      set C := hk.bound.choose
      have hI : 0 ≤ ∫ y, φ y ^ 2 ∂μ := integral_nonneg fun _ => sq_nonneg _
      refine abs_le_of_sq_le_sq' ?_ (by positivity) |>.2
      simp only [LinearMap.coe_mk, AddHom.coe_mk]
      rw [norm_sq_lp]
      have h1 : ∫ x, (hk.act_memLp hφ g).toLp (act μ k g) x ^ 2 ∂μ ≤ ∫ x, (C * (Real.sqrt (∫ y, φ y ^ 2 ∂μ) * ‖g‖)) ^ 2 * φ x ^ 2 ∂μ := by
        refine integral_mono_of_nonneg (ae_of_all _ fun _ => sq_nonneg _) (hφ.sq.const_mul _) ?_
        filter_upwards [(hk.act_memLp hφ g).coeFn_toLp] with x hx
        rw [hx, ← mul_pow, ← sq_abs]
        refine pow_le_pow_left₀ (abs_nonneg _) ((Ker.act_le hφ C hC h g x).trans (le_of_eq (by ring))) 2
      refine h1.trans (le_of_eq ?_)
      rw [integral_const_mul, mul_pow, mul_pow, Real.sq_sqrt hI]
      ring)

theorem op_coe (hφ : Weight μ φ) {k : α → α → ℝ} (hk : Ker φ k) (g : Lp ℝ 2 μ) : op hφ hk g =ᵐ[μ] act μ k g :=
  (hk.act_memLp hφ g).coeFn_toLp

theorem Ker.triple (hφ : Weight μ φ) {k : α → α → ℝ} (hk : Ker φ k) (f g : Lp ℝ 2 μ) :
    Integrable (fun p : α × α => f p.1 * (k p.1 p.2 * g p.2)) (μ.prod μ) := by
  obtain ⟨C, hC, h⟩ := hk.bound
  refine (((hφ.mul_integrable f).mul_prod (hφ.mul_integrable g)).const_mul C).mono' ?_ (ae_of_all _ fun p => ?_)
  · exact (((Lp.stronglyMeasurable f).comp_measurable measurable_fst).mul (hk.meas.stronglyMeasurable.mul
      ((Lp.stronglyMeasurable g).comp_measurable measurable_snd))).aestronglyMeasurable
  · rw [Real.norm_eq_abs, abs_mul, abs_mul]
    have h1 := mul_le_mul_of_nonneg_right (h p.1 p.2) (mul_nonneg (abs_nonneg (f p.1)) (abs_nonneg (g p.2)))
    nlinarith

/-- The operator with the transposed kernel is the adjoint. -/
theorem op_adjoint (hφ : Weight μ φ) {k : α → α → ℝ} (hk : Ker φ k) (f g : Lp ℝ 2 μ) :
    ⟪op hφ hk.swap f, g⟫ = ⟪f, op hφ hk g⟫ := by
  rw [inner_lp, inner_lp]
  have h1 : ∫ x, op hφ hk.swap f x * g x ∂μ = ∫ y, ∫ x, f x * (k x y * g y) ∂μ ∂μ := by
    refine integral_congr_ae ?_
    filter_upwards [op_coe hφ hk.swap f] with y hy
    rw [hy]
    unfold act
    rw [← integral_mul_const]
    congr 1; funext x; ring
  have h2 : ∫ x, f x * op hφ hk g x ∂μ = ∫ x, ∫ y, f x * (k x y * g y) ∂μ ∂μ := by
    refine integral_congr_ae ?_
    filter_upwards [op_coe hφ hk g] with x hx
    rw [hx]
    unfold act
    rw [← integral_const_mul]
  rw [h1, h2]
  exact (integral_integral_swap (hk.triple hφ f g)).symm

/-! ### composition -/

/-- The kernel of the product of two operators. -/
noncomputable def comp (μ : Measure α) (k l : α → α → ℝ) (x z : α) : ℝ := ∫ y, k x y * l y z ∂μ

theorem Ker.mul_integrable (hφ : Weight μ φ) {k l : α → α → ℝ} (hk : Ker φ k) (hl : Ker φ l) (x z : α) :
    Integrable (fun y => k x y * l y z) μ := MemLp.integrable_mul (hk.row_memLp hφ x) (hl.swap.row_memLp hφ z)

theorem Ker.comp (hφ : Weight μ φ) {k l : α → α → ℝ} (hk : Ker φ k) (hl : Ker φ l) : Ker φ (comp μ k l) := by
  obtain ⟨C, hC, h⟩ := hk.bound
  obtain ⟨C', hC', h'⟩ := hl.bound
  have hI : 0 ≤ ∫ y, φ y ^ 2 ∂μ := integral_nonneg fun _ => sq_nonneg _
  refine ⟨?_, C * C' * ∫ y, φ y ^ 2 ∂μ, by positivity, fun x z => ?_⟩
  · have h1 : StronglyMeasurable fun p : (α × α) × α => k p.1.1 p.2 * l p.2 p.1.2 := by
      refine Measurable.stronglyMeasurable (Measurable.mul ?_ ?_)
      · exact hk.meas.comp ((measurable_fst.comp measurable_fst).prodMk measurable_snd)
      · exact hl.meas.comp (measurable_snd.prodMk (measurable_snd.comp measurable_fst))
    exact h1.integral_prod_right.measurable
  · have h1 : |Ritz.comp μ k l x z| ≤ ∫ y, C * C' * (φ x * φ z) * φ y ^ 2 ∂μ := by
      unfold Ritz.comp
      refine (abs_integral_le_integral_abs).trans (integral_mono_of_nonneg (ae_of_all _ fun _ => abs_nonneg _)
        (hφ.sq.const_mul _) (ae_of_all _ fun y => ?_))
      simp only [abs_mul]
      refine (mul_le_mul (h x y) (h' y z) (abs_nonneg _) (mul_nonneg hC (mul_nonneg (hφ.pos x) (hφ.pos y)))).trans (le_of_eq (by ring))
    rw [integral_const_mul] at h1
    exact h1.trans (le_of_eq (by ring))

theorem op_comp (hφ : Weight μ φ) {k l : α → α → ℝ} (hk : Ker φ k) (hl : Ker φ l) (g : Lp ℝ 2 μ) :
    op hφ hk (op hφ hl g) = op hφ (hk.comp hφ hl) g := by
  refine Lp.ext ?_
  filter_upwards [op_coe hφ hk (op hφ hl g), op_coe hφ (hk.comp hφ hl) g] with x h1 h2
  rw [h1, h2]
  unfold act Ritz.comp
  have e1 : ∫ y, k x y * op hφ hl g y ∂μ = ∫ y, ∫ z, k x y * (l y z * g z) ∂μ ∂μ := by
    refine integral_congr_ae ?_
    filter_upwards [op_coe hφ hl g] with y hy
    rw [hy]
    unfold act
    rw [← integral_const_mul]
  have e2 : ∫ z, (∫ y, k x y * l y z ∂μ) * g z ∂μ = ∫ z, ∫ y, k x y * (l y z * g z) ∂μ ∂μ := by
    congr 1; funext z
    rw [← integral_mul_const]
    congr 1; funext y; ring
  rw [e1, e2]
  have e3 : (fun p : α × α => k x p.1 * (l p.1 p.2 * g p.2)) =ᵐ[μ.prod μ]
      fun p => (hk.row_memLp hφ x).toLp (k x) p.1 * (l p.1 p.2 * g p.2) := by
    have h3 : ∀ᵐ p ∂(μ.prod μ), (hk.row_memLp hφ x).toLp (k x) p.1 = k x p.1 :=
      Measure.quasiMeasurePreserving_fst.ae (hk.row_memLp hφ x).coeFn_toLp
    filter_upwards [h3] with p hp
    rw [hp]
  exact integral_integral_swap ((hl.triple hφ _ g).congr e3.symm)

/-! ### the sum of the squares -/

theorem op_sum {ι : Type*} [Countable ι] (b : HilbertBasis ι ℝ (Lp ℝ 2 μ)) (hφ : Weight μ φ) {k : α → α → ℝ} (hk : Ker φ k) :
    HasSum (fun n => ‖op hφ hk (b n)‖ ^ 2) (∫ x, ∫ y, k x y ^ 2 ∂μ ∂μ) := by
  have hrow : ∀ x, HasSum (fun n => act μ k (b n) x ^ 2) (∫ y, k x y ^ 2 ∂μ) := by
    intro x
    have h1 := b.hasSum_inner_mul_inner ((hk.row_memLp hφ x).toLp (k x)) ((hk.row_memLp hφ x).toLp (k x))
    have e1 : ∀ n, ⟪(hk.row_memLp hφ x).toLp (k x), b n⟫ = act μ k (b n) x := by
      intro n
      rw [inner_lp]
      unfold act
      refine integral_congr_ae ?_
      filter_upwards [(hk.row_memLp hφ x).coeFn_toLp] with y hy
      rw [hy]
    have e2 : ⟪(hk.row_memLp hφ x).toLp (k x), (hk.row_memLp hφ x).toLp (k x)⟫ = ∫ y, k x y ^ 2 ∂μ := by
      rw [inner_lp]
      refine integral_congr_ae ?_
      filter_upwards [(hk.row_memLp hφ x).coeFn_toLp] with y hy
      rw [hy, sq]
    rw [e2] at h1
    have e3 : (fun n => ⟪(hk.row_memLp hφ x).toLp (k x), b n⟫ * ⟪b n, (hk.row_memLp hφ x).toLp (k x)⟫)
        = fun n => act μ k (b n) x ^ 2 := by
      funext n; rw [real_inner_comm _ (b n), e1, sq]
    rwa [e3] at h1
  have e : (fun n => ‖op hφ hk (b n)‖ ^ 2) = fun n => ∫ x, act μ k (b n) x ^ 2 ∂μ := by
    funext n
    rw [norm_sq_lp]
    refine integral_congr_ae ?_
    filter_upwards [op_coe hφ hk (b n)] with x hx
    rw [hx]
  rw [e]
  obtain ⟨C, hC, h⟩ := hk.bound
  refine hasSum_integral_of_dominated_convergence (fun n x => act μ k (b n) x ^ 2)
    (fun n => ((hk.act_meas (b n)).pow_const 2).aestronglyMeasurable)
    (fun n => ae_of_all _ fun x => by rw [Real.norm_eq_abs, abs_of_nonneg (sq_nonneg _)])
    (ae_of_all _ fun x => (hrow x).summable) ?_ (ae_of_all _ hrow)
  have e2 : (fun x => ∑' n, act μ k (b n) x ^ 2) = fun x => ∫ y, k x y ^ 2 ∂μ := by funext x; exact (hrow x).tsum_eq
  rw [e2]
  have hI : 0 ≤ ∫ y, φ y ^ 2 ∂μ := integral_nonneg fun _ => sq_nonneg _
  refine (hφ.sq.const_mul (C ^ 2 * ∫ y, φ y ^ 2 ∂μ)).mono' ?_ (ae_of_all _ fun x => ?_)
  · have h1 : StronglyMeasurable fun p : α × α => k p.1 p.2 ^ 2 := (hk.meas.pow_const 2).stronglyMeasurable
    exact h1.integral_prod_right.aestronglyMeasurable
  · rw [Real.norm_eq_abs, abs_of_nonneg (integral_nonneg fun _ => sq_nonneg _)]
    have h1 : ∫ y, k x y ^ 2 ∂μ ≤ ∫ y, (C * φ x) ^ 2 * φ y ^ 2 ∂μ := by
      refine integral_mono_of_nonneg (ae_of_all _ fun _ => sq_nonneg _) (hφ.sq.const_mul _) (ae_of_all _ fun y => ?_)
      simp only
      rw [← mul_pow, ← sq_abs]
      exact pow_le_pow_left₀ (abs_nonneg _) ((h x y).trans (le_of_eq (by ring))) 2
    rw [integral_const_mul] at h1
    exact h1.trans (le_of_eq (by ring))

theorem op_congr (hφ : Weight μ φ) {k l : α → α → ℝ} (h : k = l) (hk : Ker φ k) (hl : Ker φ l) : op hφ hk = op hφ hl := by
  subst h; rfl

theorem act_congr {k : α → α → ℝ} {f g : α → ℝ} (h : f =ᵐ[μ] g) (x : α) : act μ k f x = act μ k g x := by
  unfold act
  refine integral_congr_ae ?_
  filter_upwards [h] with y hy
  rw [hy]

/-- A symmetric positive kernel whose rows have integral at most one. -/
theorem schur (hφ : Weight μ φ) {k : α → α → ℝ} (hk : Ker φ k) (hpos : ∀ x y, 0 ≤ k x y) (hsymm : ∀ x y, k x y = k y x)
    (hint : ∀ x, Integrable (k x) μ) (hrow : ∀ x, ∫ y, k x y ∂μ ≤ 1) (f : Lp ℝ 2 μ) : ⟪f, op hφ hk f⟫ ≤ ‖f‖ ^ 2 := by
  have hf2 : Integrable (fun x => f x ^ 2) μ :=
    (memLp_two_iff_integrable_sq (Lp.stronglyMeasurable f).aestronglyMeasurable).mp (Lp.memLp f)
  have hfm := (Lp.stronglyMeasurable f)
  have i1 : Integrable (fun p : α × α => f p.1 ^ 2 * k p.1 p.2) (μ.prod μ) := by
    have hm : AEStronglyMeasurable (fun p : α × α => f p.1 ^ 2 * k p.1 p.2) (μ.prod μ) :=
      (((hfm.comp_measurable measurable_fst).pow 2).mul hk.meas.stronglyMeasurable).aestronglyMeasurable
    rw [integrable_prod_iff hm]
    refine ⟨ae_of_all _ fun x => (hint x).const_mul (f x ^ 2), ?_⟩
    have e : (fun x => ∫ y, ‖f x ^ 2 * k x y‖ ∂μ) = fun x => f x ^ 2 * ∫ y, k x y ∂μ := by
      funext x
      rw [← integral_const_mul]
      congr 1; funext y
      rw [Real.norm_eq_abs, abs_of_nonneg (mul_nonneg (sq_nonneg _) (hpos x y))]
    simp only [e]
    refine hf2.mono' ?_ (ae_of_all _ fun x => ?_)
    · exact ((hfm.pow 2).mul hk.meas.stronglyMeasurable.integral_prod_right).aestronglyMeasurable
    · have h1 : 0 ≤ ∫ y, k x y ∂μ := integral_nonneg (hpos x)
      rw [Real.norm_eq_abs, abs_of_nonneg (mul_nonneg (sq_nonneg _) h1)]
      exact mul_le_of_le_one_right (sq_nonneg _) (hrow x)
  have i2 : Integrable (fun p : α × α => f p.2 ^ 2 * k p.1 p.2) (μ.prod μ) := by
    refine i1.swap.congr (ae_of_all _ fun p => ?_)
    simp only [Function.comp, Prod.fst_swap, Prod.snd_swap]
    rw [hsymm]
  have b1 : ∫ p : α × α, f p.1 ^ 2 * k p.1 p.2 ∂(μ.prod μ) ≤ ‖f‖ ^ 2 := by
    rw [integral_prod _ i1, norm_sq_lp]
    refine integral_mono_of_nonneg (ae_of_all _ fun x => ?_) hf2 (ae_of_all _ fun x => ?_)
    · exact integral_nonneg fun y => mul_nonneg (sq_nonneg _) (hpos x y)
    · simp only
      rw [integral_const_mul]
      exact mul_le_of_le_one_right (sq_nonneg _) (hrow x)
  have b2 : ∫ p : α × α, f p.2 ^ 2 * k p.1 p.2 ∂(μ.prod μ) ≤ ‖f‖ ^ 2 := by
    refine le_trans (le_of_eq ?_) b1
    rw [← integral_prod_swap]
    congr 1; funext p
    simp only [Prod.fst_swap, Prod.snd_swap]
    rw [hsymm]
  have e1 : ⟪f, op hφ hk f⟫ = ∫ p : α × α, f p.1 * (k p.1 p.2 * f p.2) ∂(μ.prod μ) := by
    rw [integral_prod _ (hk.triple hφ f f), inner_lp]
    refine integral_congr_ae ?_
    filter_upwards [op_coe hφ hk f] with x hx
    rw [hx]
    unfold act
    rw [← integral_const_mul]
  rw [e1]
  have h2 : ∫ p : α × α, f p.1 * (k p.1 p.2 * f p.2) ∂(μ.prod μ)
      ≤ ∫ p : α × α, (1 / 2 * (f p.1 ^ 2 * k p.1 p.2) + 1 / 2 * (f p.2 ^ 2 * k p.1 p.2)) ∂(μ.prod μ) := by
    refine integral_mono (hk.triple hφ f f) ((i1.const_mul _).add (i2.const_mul _)) fun p => ?_
    have := mul_nonneg (sq_nonneg (f p.1 - f p.2)) (hpos p.1 p.2)
    simp only
    nlinarith
  rw [integral_add (i1.const_mul _) (i2.const_mul _), integral_const_mul, integral_const_mul] at h2
  linarith

/-- If the product with the adjoint is at most one, so is the operator. -/
theorem op_norm_le (hφ : Weight μ φ) {k : α → α → ℝ} (hk : Ker φ k)
    (h : ∀ f : Lp ℝ 2 μ, ⟪f, op hφ (hk.comp hφ hk.swap) f⟫ ≤ ‖f‖ ^ 2) (g : Lp ℝ 2 μ) : ‖op hφ hk g‖ ≤ ‖g‖ := by
  have h1 : ∀ f : Lp ℝ 2 μ, ‖op hφ hk.swap f‖ ≤ ‖f‖ := by
    intro f
    have h2 : ‖op hφ hk.swap f‖ ^ 2 ≤ ‖f‖ ^ 2 := by
      rw [← real_inner_self_eq_norm_sq, op_adjoint hφ hk, op_comp]
      exact h f
    exact abs_le_of_sq_le_sq' h2 (norm_nonneg _) |>.2
  set u := op hφ hk g with hu
  have h3 : ‖u‖ ^ 2 ≤ ‖u‖ * ‖g‖ := by
    rw [← real_inner_self_eq_norm_sq]
    conv_lhs => rw [hu]
    rw [← hu, ← op_adjoint]
    exact (real_inner_le_norm _ _).trans (mul_le_mul_of_nonneg_right (h1 u) (norm_nonneg _))
  rcases (norm_nonneg u).eq_or_lt with h4 | h4
  · rw [← h4]; exact norm_nonneg _
  · nlinarith

end

end Pibronic.Ritz
