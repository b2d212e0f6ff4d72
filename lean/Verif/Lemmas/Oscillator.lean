import Verif.Lemmas.Hermite
import Verif.Lemmas.Kernel
import Mathlib.MeasureTheory.Measure.CharacteristicFunction.Basic
import Mathlib.MeasureTheory.Measure.Haar.OfBasis

set_option autoImplicit false
set_option linter.unusedSectionVars false

/-! The oscillator functions of several modes and several surfaces form a basis. -/
namespace Pibronic.Ritz
open Finset Filter Topology MeasureTheory Spec.PIMC Pibronic.PIMC

section
variable {N : ℕ}

/-- The product of one function per mode. -/
noncomputable def prodState (n : Fin N → ℕ) (x : Fin N → ℝ) : ℝ := ∏ i, state (n i) (x i)

def up (i : Fin N) (n : Fin N → ℕ) : Fin N → ℕ := Function.update n i (n i + 1)
def dn (i : Fin N) (n : Fin N → ℕ) : Fin N → ℕ := Function.update n i (n i - 1)

theorem prodState_continuous (n : Fin N → ℕ) : Continuous (prodState n) :=
  continuous_finsetProd _ fun i _ => (state_continuous (n i)).comp (continuous_apply i)

theorem prodState_update (n : Fin N → ℕ) (i : Fin N) (k : ℕ) (x : Fin N → ℝ) :
    prodState (Function.update n i k) x = state k (x i) * ∏ j ∈ univ.erase i, state (n j) (x j) := by
  unfold prodState
  rw [← mul_prod_erase univ _ (mem_univ i), Function.update_self]
  congr 1
  refine prod_congr rfl fun j hj => ?_
  rw [Function.update_of_ne (ne_of_mem_erase hj)]

theorem prodState_mul (n : Fin N → ℕ) (i : Fin N) (x : Fin N → ℝ) :
    x i * prodState n x = Real.sqrt ((n i + 1) / 2) * prodState (up i n) x + Real.sqrt (n i / 2) * prodState (dn i n) x := by
  have e : prodState n x = state (n i) (x i) * ∏ j ∈ univ.erase i, state (n j) (x j) := by
    rw [← prodState_update, Function.update_eq_self]
  unfold up dn
  rw [prodState_update, prodState_update, e, ← mul_assoc, state_mul]
  ring

theorem prodState_ortho (n m : Fin N → ℕ) : ∫ x, prodState n x * prodState m x = if n = m then 1 else 0 := by
  unfold prodState
  simp only [← prod_mul_distrib]
  rw [integral_fintype_prod_volume_eq_prod (fun i y => state (n i) y * state (m i) y)]
  simp only [state_ortho]
  by_cases h : n = m
  · subst h; simp
  · rw [if_neg h]
    obtain ⟨i, hi⟩ := Function.ne_iff.mp h
    exact prod_eq_zero (mem_univ i) (if_neg hi)

theorem prodState_bound (n : Fin N → ℕ) (δ : ℝ) (hδ : 0 < δ) :
    ∃ C, 0 ≤ C ∧ ∀ x, |prodState n x| ≤ C * Real.exp (-((1 / 2 - δ) * ∑ i, x i ^ 2)) := by
  choose C hC h using fun i => state_bound (n i) δ hδ
  refine ⟨∏ i, C i, prod_nonneg fun i _ => hC i, fun x => ?_⟩
  unfold prodState
  rw [abs_prod, mul_sum, ← sum_neg_distrib, Real.exp_sum, ← prod_mul_distrib]
  exact prod_le_prod (fun _ _ => abs_nonneg _) fun i _ => h i (x i)

/-- The Gaussian is integrable. -/
theorem gauss_integrable (c : ℝ) (hc : 0 < c) : Integrable fun x : Fin N → ℝ => Real.exp (-(c * ∑ i, x i ^ 2)) := by
  have e : (fun x : Fin N → ℝ => Real.exp (-(c * ∑ i, x i ^ 2))) = fun x => ∏ i, Real.exp (-c * x i ^ 2) := by
    funext x
    rw [mul_sum, ← sum_neg_distrib, Real.exp_sum]
    simp only [neg_mul]
  rw [e]
  exact Integrable.fintype_prod fun i => integrable_exp_neg_mul_sq hc

theorem gauss_memLp (c : ℝ) (hc : 0 < c) : MemLp (fun x : Fin N → ℝ => Real.exp (-(c * ∑ i, x i ^ 2))) 2 := by
  rw [memLp_two_iff_integrable_sq (Continuous.aestronglyMeasurable (by fun_prop))]
  refine (gauss_integrable (2 * c) (by linarith)).congr (ae_of_all _ fun x => ?_)
  simp only
  rw [pow_two, ← Real.exp_add]; congr 1; ring

theorem memLp_of_gauss (f : (Fin N → ℝ) → ℝ) (hf : Continuous f) (C c : ℝ) (hc : 0 < c)
    (h : ∀ x, |f x| ≤ C * Real.exp (-(c * ∑ i, x i ^ 2))) : MemLp f 2 := by
  refine ((gauss_memLp c hc).const_mul C).mono hf.aestronglyMeasurable (ae_of_all _ fun x => ?_)
  rw [Real.norm_eq_abs, Real.norm_eq_abs]
  exact (h x).trans (le_abs_self _)

theorem prodState_memLp (n : Fin N → ℕ) : MemLp (prodState n) 2 := by
  obtain ⟨C, -, h⟩ := prodState_bound n (1 / 4) (by norm_num)
  exact memLp_of_gauss _ (prodState_continuous n) C (1 / 2 - 1 / 4) (by norm_num) h

/-! ### completeness -/

theorem linear_states (g : (Fin N → ℝ) → ℝ) (hg : MemLp g 2) (h0 : ∀ n, ∫ x, prodState n x * g x = 0) (c : Fin N → ℝ) (k : ℕ) :
    ∀ n, Integrable (fun x => (∑ i, c i * x i) ^ k * (prodState n x * g x)) ∧ ∫ x, (∑ i, c i * x i) ^ k * (prodState n x * g x) = 0 := by
  induction k with
  | zero =>
    intro n
    simp only [pow_zero, one_mul]
    exact ⟨MemLp.integrable_mul (prodState_memLp n) hg, h0 n⟩
  | succ k ih =>
    intro n
    have e : (fun x : Fin N → ℝ => (∑ i, c i * x i) ^ (k + 1) * (prodState n x * g x))
        = fun x => ∑ i, ((c i * Real.sqrt ((n i + 1) / 2)) * ((∑ i, c i * x i) ^ k * (prodState (up i n) x * g x))
          + (c i * Real.sqrt (n i / 2)) * ((∑ i, c i * x i) ^ k * (prodState (dn i n) x * g x))) := by
      funext x
      have e1 : (∑ i, c i * x i) * prodState n x
          = ∑ i, (c i * Real.sqrt ((n i + 1) / 2) * prodState (up i n) x + c i * Real.sqrt (n i / 2) * prodState (dn i n) x) := by
        rw [sum_mul]
        refine sum_congr rfl fun i _ => ?_
        rw [mul_assoc, prodState_mul]; ring
      rw [pow_succ]
      calc _ = (∑ i, c i * x i) ^ k * ((∑ i, c i * x i) * prodState n x) * g x := by ring
        _ = _ := by
          rw [e1, mul_sum, sum_mul]
          exact sum_congr rfl fun i _ => by ring
    rw [e]
    have hi : ∀ i ∈ (univ : Finset (Fin N)), Integrable fun x => (c i * Real.sqrt ((n i + 1) / 2)) * ((∑ i, c i * x i) ^ k * (prodState (up i n) x * g x))
          + (c i * Real.sqrt (n i / 2)) * ((∑ i, c i * x i) ^ k * (prodState (dn i n) x * g x)) :=
      fun i _ => ((ih (up i n)).1.const_mul _).add ((ih (dn i n)).1.const_mul _)
    refine ⟨integrable_finsetSum _ hi, ?_⟩
    rw [integral_finsetSum _ hi]
    refine sum_eq_zero fun i _ => ?_
    rw [integral_add ((ih (up i n)).1.const_mul _) ((ih (dn i n)).1.const_mul _), integral_const_mul, integral_const_mul,
      (ih (up i n)).2, (ih (dn i n)).2]
    simp

theorem abs_linear_le (c x : Fin N → ℝ) : |∑ i, c i * x i| ≤ ∑ i, c i ^ 2 + 1 / 4 * ∑ i, x i ^ 2 := by
  rw [mul_sum, ← sum_add_distrib]
  refine (abs_sum_le_sum_abs _ _).trans (sum_le_sum fun i _ => ?_)
  rw [abs_le]
  constructor <;> nlinarith [sq_nonneg (c i - x i / 2), sq_nonneg (c i + x i / 2)]

theorem wave_states (g : (Fin N → ℝ) → ℝ) (hg : MemLp g 2) (h0 : ∀ n, ∫ x, prodState n x * g x = 0) (c : Fin N → ℝ) :
    ∫ x, Complex.exp (((∑ i, c i * x i : ℝ) : ℂ) * Complex.I) * ((prodState 0 x * g x : ℝ) : ℂ) = 0 := by
  have hmeas : AEStronglyMeasurable (fun x => prodState 0 x * g x) volume :=
    (prodState_continuous 0).aestronglyMeasurable.mul hg.aestronglyMeasurable
  have hsum : HasSum (fun k : ℕ => ∫ x, ((((∑ i, c i * x i : ℝ) : ℂ) * Complex.I) ^ k / (k.factorial : ℂ)) * ((prodState 0 x * g x : ℝ) : ℂ))
      (∫ x, Complex.exp (((∑ i, c i * x i : ℝ) : ℂ) * Complex.I) * ((prodState 0 x * g x : ℝ) : ℂ)) := by
    have hs : ∀ x : Fin N → ℝ, HasSum (fun k : ℕ => |∑ i, c i * x i| ^ k / k.factorial * |prodState 0 x * g x|)
        (Real.exp |∑ i, c i * x i| * |prodState 0 x * g x|) := by
      intro x
      have := NormedSpace.expSeries_div_hasSum_exp (𝔸 := ℝ) |∑ i, c i * x i|
      rw [← Real.exp_eq_exp_ℝ] at this
      exact this.mul_right _
    refine hasSum_integral_of_dominated_convergence (fun k x => |∑ i, c i * x i| ^ k / k.factorial * |prodState 0 x * g x|) ?_ ?_ ?_ ?_ ?_
    · intro k
      refine AEStronglyMeasurable.mul ?_ (Complex.continuous_ofReal.comp_aestronglyMeasurable hmeas)
      exact Continuous.aestronglyMeasurable (by fun_prop)
    · intro k
      refine ae_of_all _ fun x => le_of_eq ?_
      rw [norm_mul, norm_div, norm_pow, norm_mul, Complex.norm_I, mul_one, Complex.norm_real, Complex.norm_real, Real.norm_eq_abs,
        Real.norm_eq_abs, Complex.norm_natCast]
    · exact ae_of_all _ fun x => (hs x).summable
    · have e : (fun x : Fin N → ℝ => ∑' k : ℕ, |∑ i, c i * x i| ^ k / k.factorial * |prodState 0 x * g x|)
          = fun x => (Real.exp |∑ i, c i * x i| * |prodState 0 x|) * |g x| := by
        funext x; rw [(hs x).tsum_eq, abs_mul, mul_assoc]
      rw [e]
      refine MemLp.integrable_mul (p := 2) (q := 2) ?_ hg.abs
      obtain ⟨C, hC, h⟩ := prodState_bound (N := N) 0 (1 / 8) (by norm_num)
      refine memLp_of_gauss _ (by have := prodState_continuous (N := N) 0; fun_prop) (Real.exp (∑ i, c i ^ 2) * C) (1 / 8) (by norm_num) fun x => ?_
      rw [abs_of_nonneg (by positivity)]
      refine (mul_le_mul (Real.exp_le_exp.mpr (abs_linear_le c x)) (h x) (abs_nonneg _) (Real.exp_pos _).le).trans (le_of_eq ?_)
      rw [Real.exp_add]
      have e2 : Real.exp (-(1 / 8 * ∑ i, x i ^ 2)) = Real.exp (1 / 4 * ∑ i, x i ^ 2) * Real.exp (-((1 / 2 - 1 / 8) * ∑ i, x i ^ 2)) := by
        rw [← Real.exp_add]; congr 1; ring
      rw [e2]; ring
    · refine ae_of_all _ fun x => HasSum.mul_right _ ?_
      have := NormedSpace.expSeries_div_hasSum_exp (𝔸 := ℂ) (((∑ i, c i * x i : ℝ) : ℂ) * Complex.I)
      rwa [← Complex.exp_eq_exp_ℂ] at this
  have hz : (fun k : ℕ => ∫ x, ((((∑ i, c i * x i : ℝ) : ℂ) * Complex.I) ^ k / (k.factorial : ℂ)) * ((prodState 0 x * g x : ℝ) : ℂ)) = fun _ => 0 := by
    funext k
    have e : (fun x : Fin N → ℝ => ((((∑ i, c i * x i : ℝ) : ℂ) * Complex.I) ^ k / (k.factorial : ℂ)) * ((prodState 0 x * g x : ℝ) : ℂ))
        = fun x => (Complex.I ^ k / (k.factorial : ℂ)) * (((∑ i, c i * x i) ^ k * (prodState 0 x * g x) : ℝ) : ℂ) := by
      funext x; push_cast; ring
    have e2 : ∫ x : Fin N → ℝ, (((∑ i, c i * x i) ^ k * (prodState 0 x * g x) : ℝ) : ℂ)
        = ((∫ x : Fin N → ℝ, (∑ i, c i * x i) ^ k * (prodState 0 x * g x) : ℝ) : ℂ) := integral_ofReal
    rw [e, integral_const_mul, e2, (linear_states g hg h0 c k 0).2]
    simp
  rw [hz] at hsum
  exact hsum.unique hasSum_zero

theorem ground_pos (x : Fin N → ℝ) : 0 < prodState 0 x := by
  unfold prodState
  refine prod_pos fun i _ => div_pos ?_ (size_pos _)
  simp only [her]
  exact Real.exp_pos _

theorem states_complete (g : (Fin N → ℝ) → ℝ) (hg : MemLp g 2) (h0 : ∀ n, ∫ x, prodState n x * g x = 0) : g =ᵐ[volume] 0 := by
  -- a measurable version
  obtain ⟨g', hg'm, hgg'⟩ : ∃ g' : (Fin N → ℝ) → ℝ, Measurable g' ∧ g =ᵐ[volume] g' :=
    ⟨_, hg.aestronglyMeasurable.stronglyMeasurable_mk.measurable, hg.aestronglyMeasurable.ae_eq_mk⟩
  have hg'2 : MemLp g' 2 := (memLp_congr_ae hgg').mp hg
  have h0' : ∀ n, ∫ x, prodState n x * g' x = 0 := by
    intro n
    rw [← h0 n]
    refine integral_congr_ae ?_
    filter_upwards [hgg'] with x hx
    rw [hx]
  set u : (Fin N → ℝ) → ℝ := fun x => prodState 0 x * g' x with hu
  have hum : Measurable u := (prodState_continuous 0).measurable.mul hg'm
  have hui : Integrable u := MemLp.integrable_mul (prodState_memLp 0) hg'2
  have hfin : ∀ v : (Fin N → ℝ) → ℝ, Integrable v → IsFiniteMeasure (volume.withDensity fun x => ((v x).toNNReal : ENNReal)) := by
    intro v hv
    exact isFiniteMeasure_withDensity_ofReal hv.2
  have := hfin u hui
  have := hfin (fun x => -u x) hui.neg
  have heq : (volume.withDensity fun x => ((u x).toNNReal : ENNReal)) = volume.withDensity fun x => ((-u x).toNNReal : ENNReal) := by
    refine Measure.ext_of_charFunDual (funext fun L => ?_)
    rw [charFunDual_apply, charFunDual_apply, integral_withDensity_eq_integral_smul hum.real_toNNReal,
      integral_withDensity_eq_integral_smul (f := fun x => (-u x).toNNReal) hum.neg.real_toNNReal, ← sub_eq_zero, ← integral_sub]
    · have hL : ∀ x, L x = ∑ i, L (Pi.single i 1) * x i := by
        intro x
        have := L.toLinearMap.pi_apply_eq_sum_univ x
        simp only [ContinuousLinearMap.coe_coe, smul_eq_mul] at this
        rw [this]
        refine sum_congr rfl fun i _ => ?_
        rw [mul_comm]
        congr 3
        funext j
        simp [Pi.single_apply, eq_comm]
      rw [← wave_states g' hg'2 h0' fun i => L (Pi.single i 1)]
      congr 1; funext x
      rw [← hL x, NNReal.smul_def, NNReal.smul_def, Real.coe_toNNReal', Real.coe_toNNReal']
      have e1 : max (u x) 0 - max (-u x) 0 = u x := by
        rcases le_total (u x) 0 with h | h
        · rw [max_eq_right h, max_eq_left (by linarith)]; ring
        · rw [max_eq_left h, max_eq_right (by linarith)]; ring
      rw [← sub_smul, e1, Complex.real_smul, mul_comm]
    all_goals
      have hb : ∀ v : (Fin N → ℝ) → ℝ, Measurable v → Integrable v → Integrable fun x => (v x).toNNReal • Complex.exp ((L x : ℂ) * Complex.I) := by
        intro v hvm hv
        have e1 : (fun x => (v x).toNNReal • Complex.exp ((L x : ℂ) * Complex.I)) = fun x => Complex.exp ((L x : ℂ) * Complex.I) * (((max (v x) 0 : ℝ)) : ℂ) := by
          funext x
          rw [NNReal.smul_def, Real.coe_toNNReal', Complex.real_smul, mul_comm]
        rw [e1]
        refine (hv.pos_part.ofReal (𝕜 := ℂ)).bdd_mul (c := 1) ?_ ?_
        · exact Continuous.aestronglyMeasurable (by fun_prop)
        · exact ae_of_all _ fun x => by rw [Complex.norm_exp_ofReal_mul_I]
    · exact hb u hum hui
    · exact hb _ hum.neg hui.neg
  rw [withDensity_eq_iff_of_sigmaFinite (by fun_prop) (by fun_prop)] at heq
  filter_upwards [hgg', heq] with x h1 h2
  have h3 : (u x).toNNReal = (-u x).toNNReal := by exact_mod_cast h2
  have h4 : u x = 0 := by
    rcases lt_trichotomy (u x) 0 with h | h | h
    · rw [Real.toNNReal_of_nonpos h.le] at h3
      have := Real.toNNReal_pos.mpr (neg_pos.mpr h)
      rw [← h3] at this
      exact absurd this (lt_irrefl _)
    · exact h
    · rw [Real.toNNReal_of_nonpos (neg_nonpos.mpr h.le)] at h3
      have := Real.toNNReal_pos.mpr h
      rw [h3] at this
      exact absurd this (lt_irrefl _)
  rw [h1, Pi.zero_apply]
  exact (mul_eq_zero.mp h4).resolve_left (ground_pos x).ne'

end

/-! ### several surfaces -/

section
variable {N A : ℕ}

local notation "⟪" x ", " y "⟫" => inner ℝ x y

/-- A point: the coordinates and the surface. -/
abbrev Pt (N A : ℕ) : Type := (Fin N → ℝ) × Fin A

/-- Integrate over the coordinates and add up the surfaces. -/
noncomputable def vol (N A : ℕ) : Measure (Pt N A) := (volume : Measure (Fin N → ℝ)).prod Measure.count

noncomputable instance : SigmaFinite (vol N A) := by unfold vol; infer_instance

theorem measurable_pt {β : Type*} [MeasurableSpace β] {f : Pt N A → β} (hf : ∀ a, Measurable fun x => f (x, a)) : Measurable f :=
  measurable_from_prod_countable_left hf

theorem integrable_pt {f : Pt N A → ℝ} (hm : ∀ a, Measurable fun x => f (x, a)) (h : ∀ a, Integrable fun x => f (x, a)) :
    Integrable f (vol N A) := by
  unfold vol
  rw [integrable_prod_iff' (measurable_pt hm).aestronglyMeasurable]
  exact ⟨ae_of_all _ h, Integrable.of_finite⟩

theorem section_integrable {f : Pt N A → ℝ} (h : Integrable f (vol N A)) (a : Fin A) : Integrable fun x => f (x, a) := by
  unfold vol at h
  have h1 := ((integrable_prod_iff' h.aestronglyMeasurable).mp h).1
  rw [Measure.ae_count_iff] at h1
  exact h1 a

theorem integral_pt {f : Pt N A → ℝ} (h : Integrable f (vol N A)) : ∫ p, f p ∂(vol N A) = ∑ a, ∫ x, f (x, a) := by
  unfold vol at h ⊢
  rw [integral_prod_symm f h, integral_fintype Integrable.of_finite]
  simp [Measure.real]

/-- The basis function with quanta `n` on surface `a`. -/
noncomputable def bf (m : (Fin N → ℕ) × Fin A) (p : Pt N A) : ℝ := if p.2 = m.2 then prodState m.1 p.1 else 0

theorem bf_section (m : (Fin N → ℕ) × Fin A) (a : Fin A) : (fun x => bf m (x, a)) = fun x => (if a = m.2 then 1 else 0) * prodState m.1 x := by
  funext x; unfold bf; simp

theorem bf_meas (m : (Fin N → ℕ) × Fin A) : Measurable (bf m) := by
  refine measurable_pt fun a => ?_
  rw [bf_section]
  exact (prodState_continuous m.1).measurable.const_mul _

theorem bf_mul_integrable (m k : (Fin N → ℕ) × Fin A) : Integrable (fun p => bf m p * bf k p) (vol N A) := by
  refine integrable_pt (fun a => ((bf_meas m).mul (bf_meas k)).comp measurable_prodMk_right) fun a => ?_
  refine ((MemLp.integrable_mul (p := 2) (q := 2) (prodState_memLp m.1) (prodState_memLp k.1)).const_mul
    ((if a = m.2 then 1 else 0) * (if a = k.2 then 1 else 0))).congr (ae_of_all _ fun x => ?_)
  simp only [bf, Pi.mul_apply]
  split_ifs <;> simp

theorem bf_memLp (m : (Fin N → ℕ) × Fin A) : MemLp (bf m) 2 (vol N A) := by
  rw [memLp_two_iff_integrable_sq (bf_meas m).aestronglyMeasurable]
  refine (bf_mul_integrable m m).congr (ae_of_all _ fun p => ?_)
  simp only; ring

theorem bf_ortho (m k : (Fin N → ℕ) × Fin A) : ∫ p, bf m p * bf k p ∂(vol N A) = if m = k then 1 else 0 := by
  rw [integral_pt (bf_mul_integrable m k)]
  have e : ∀ a : Fin A, ∫ x, bf m (x, a) * bf k (x, a)
      = (if a = m.2 then 1 else 0) * ((if a = k.2 then 1 else 0) * (if m.1 = k.1 then 1 else 0)) := by
    intro a
    rw [← prodState_ortho, ← integral_const_mul, ← integral_const_mul]
    congr 1; funext x
    unfold bf; split_ifs <;> simp
  simp only [e, ite_mul, one_mul, zero_mul, sum_ite_eq', mem_univ, if_true]
  by_cases h1 : m.1 = k.1 <;> by_cases h2 : m.2 = k.2 <;> simp [h1, h2, Prod.ext_iff]

noncomputable def bv (m : (Fin N → ℕ) × Fin A) : Lp ℝ 2 (vol N A) := (bf_memLp m).toLp (bf m)

theorem bv_coe (m : (Fin N → ℕ) × Fin A) : bv m =ᵐ[vol N A] bf m := (bf_memLp m).coeFn_toLp

theorem bv_orthonormal : Orthonormal ℝ (bv (N := N) (A := A)) := by
  rw [orthonormal_iff_ite]
  intro m k
  rw [inner_lp, ← bf_ortho m k]
  refine integral_congr_ae ?_
  filter_upwards [bv_coe m, bv_coe k] with p h1 h2
  rw [h1, h2]

theorem bv_complete : (Submodule.span ℝ (Set.range (bv (N := N) (A := A))))ᗮ = ⊥ := by
  rw [Submodule.eq_bot_iff]
  intro f hf
  have hfm : Measurable f := (Lp.stronglyMeasurable f).measurable
  have hf2 : Integrable (fun p => f p ^ 2) (vol N A) := (memLp_two_iff_integrable_sq hfm.aestronglyMeasurable).mp (Lp.memLp f)
  have hsec : ∀ a, MemLp (fun x => f (x, a)) 2 := by
    intro a
    have hm : Measurable fun x => f (x, a) := hfm.comp measurable_prodMk_right
    rw [memLp_two_iff_integrable_sq hm.aestronglyMeasurable]
    exact section_integrable hf2 a
  have h0 : ∀ a, (fun x => f (x, a)) =ᵐ[volume] 0 := by
    intro a
    refine states_complete _ (hsec a) fun n => ?_
    have h1 : ⟪bv (n, a), f⟫ = 0 := (Submodule.mem_orthogonal _ _).mp hf _ (Submodule.subset_span ⟨(n, a), rfl⟩)
    rw [inner_lp] at h1
    have h2 : ∫ p, bv (n, a) p * f p ∂(vol N A) = ∫ p, bf (n, a) p * f p ∂(vol N A) := by
      refine integral_congr_ae ?_
      filter_upwards [bv_coe (n, a)] with p hp
      rw [hp]
    have h3 : Integrable (fun p => bf (n, a) p * f p) (vol N A) :=
      MemLp.integrable_mul (p := 2) (q := 2) (bf_memLp _) (Lp.memLp f)
    rw [h2, integral_pt h3] at h1
    rw [← h1, sum_eq_single a]
    · simp [bf]
    · intro b _ hb
      simp [bf, hb]
    · simp
  have h3 : ‖f‖ ^ 2 = 0 := by
    rw [norm_sq_lp, integral_pt hf2]
    refine sum_eq_zero fun a _ => ?_
    rw [integral_eq_zero_of_ae]
    filter_upwards [h0 a] with x hx
    simp only [Pi.zero_apply] at hx ⊢
    rw [hx]; simp
  exact norm_eq_zero.mp (pow_eq_zero_iff (two_ne_zero) |>.mp h3)

/-- The oscillator functions of all modes on all surfaces. -/
noncomputable def states (N A : ℕ) : HilbertBasis ((Fin N → ℕ) × Fin A) ℝ (Lp ℝ 2 (vol N A)) :=
  HilbertBasis.mkOfOrthogonalEqBot bv_orthonormal bv_complete

theorem states_apply (m : (Fin N → ℕ) × Fin A) : states N A m = bv m := by
  unfold states
  rw [HilbertBasis.coe_mkOfOrthogonalEqBot]

theorem states_coe (m : (Fin N → ℕ) × Fin A) : states N A m =ᵐ[vol N A] bf m := by
  rw [states_apply]; exact bv_coe m

/-- The Gaussian weight. -/
noncomputable def gw (N A : ℕ) (c : ℝ) (p : Pt N A) : ℝ := Real.exp (-(c * ∑ i, p.1 i ^ 2))

theorem gw_weight (c : ℝ) (hc : 0 < c) : Weight (vol N A) (gw N A c) := by
  have hm : Measurable (gw N A c) := by
    refine measurable_pt fun a => Continuous.measurable ?_
    unfold gw; fun_prop
  refine ⟨hm, fun _ => (Real.exp_pos _).le, ?_⟩
  refine integrable_pt (fun a => (hm.pow_const 2).comp measurable_prodMk_right) fun a => ?_
  refine (gauss_integrable (2 * c) (by linarith)).congr (ae_of_all _ fun x => ?_)
  simp only [gw]
  rw [pow_two, ← Real.exp_add]; congr 1; ring

end

end Pibronic.Ritz
