import Verif.Lemmas.Trial
import Verif.Spec.Confined

set_option autoImplicit false
set_option linter.unusedSectionVars false

/-! The product of the beads of a confined system, compared with the product that uses the oscillators without
displacements. -/
namespace Pibronic.PIMC
open Finset Filter Topology Spec.PIMC MeasureTheory
open scoped Matrix.Norms.L2Operator

variable {A N : ℕ} [NeZero A]

/-! ### uniform confinement -/

theorem curvature_smul (m : Vib A N) (a b : ℝ) (x : Fin N → ℝ) (v : Fin A → ℝ) :
    curvature m (a • x) (b • v) = a ^ 2 * b ^ 2 * curvature m x v := by
  unfold curvature
  simp only [Pi.smul_apply, smul_eq_mul, mul_add, mul_sum, sum_mul]
  congr 1
  · exact sum_congr rfl fun i _ => sum_congr rfl fun j _ => by ring
  · exact sum_congr rfl fun i _ => sum_congr rfl fun j _ => sum_congr rfl fun c _ => sum_congr rfl fun d _ => by ring

theorem sum_sq_le (x : Fin N → ℝ) (c : Fin N → ℝ) (hc : ∀ i, 0 ≤ c i) : ∑ i, c i * x i ^ 2 ≤ (∑ i, c i) * ‖x‖ ^ 2 := by
  rw [sum_mul]
  refine sum_le_sum fun i _ => mul_le_mul_of_nonneg_left ?_ (hc i)
  have h := norm_le_pi_norm x i
  rw [Real.norm_eq_abs] at h
  rw [← sq_abs]
  exact pow_le_pow_left₀ (abs_nonneg _) h 2

theorem confined_uniform (m : Vib A N) (hv : ∀ i, 0 < m.omega i) (hm : Confined m) :
    ∃ δ : ℝ, 0 < δ ∧ δ ≤ 1 ∧ ∀ x v, δ * ((∑ i, m.omega i * x i ^ 2) * ∑ a, v a ^ 2) ≤ curvature m x v := by
  set S := Metric.sphere (0 : Fin N → ℝ) 1 ×ˢ Metric.sphere (0 : Fin A → ℝ) 1 with hS
  have hSc : IsCompact S := (isCompact_sphere _ _).prod (isCompact_sphere _ _)
  have hcont : Continuous fun z : (Fin N → ℝ) × (Fin A → ℝ) => curvature m z.1 z.2 := by
    unfold curvature; fun_prop
  obtain ⟨c, hc0, hc⟩ : ∃ c, 0 < c ∧ ∀ z ∈ S, c ≤ curvature m z.1 z.2 := by
    rcases S.eq_empty_or_nonempty with h | h
    · exact ⟨1, one_pos, fun z hz => by rw [h] at hz; exact hz.elim⟩
    · obtain ⟨z, hz, hmin⟩ := hSc.exists_isMinOn h hcont.continuousOn
      refine ⟨curvature m z.1 z.2, hm _ ?_ _ ?_, fun y hy => hmin hy⟩
      · intro h0
        have := hz.1
        rw [h0] at this
        simp at this
      · intro h0
        have := hz.2
        rw [h0] at this
        simp at this
  set W := (∑ i, m.omega i) * A + 1 with hW
  have hω0 : 0 ≤ ∑ i, m.omega i := sum_nonneg fun i _ => (hv i).le
  have hW0 : 0 < W := by have : (0 : ℝ) ≤ (∑ i, m.omega i) * A := by positivity
                         linarith
  refine ⟨min (c / W) 1, lt_min (div_pos hc0 hW0) one_pos, min_le_right _ _, fun x v => ?_⟩
  have hx2 : 0 ≤ ∑ i, m.omega i * x i ^ 2 := sum_nonneg fun i _ => mul_nonneg (hv i).le (sq_nonneg _)
  have hv2 : 0 ≤ ∑ a, v a ^ 2 := sum_nonneg fun a _ => sq_nonneg _
  by_cases hx : x = 0
  · subst hx; simp [curvature]
  by_cases hvv : v = 0
  · subst hvv; simp [curvature]
  have hnx : 0 < ‖x‖ := norm_pos_iff.mpr hx
  have hnv : 0 < ‖v‖ := norm_pos_iff.mpr hvv
  have h1 := hc (‖x‖⁻¹ • x, ‖v‖⁻¹ • v) ⟨by simp [norm_smul, hnx.ne'], by simp [norm_smul, hnv.ne']⟩
  rw [curvature_smul] at h1
  have h2 : c * (‖x‖ ^ 2 * ‖v‖ ^ 2) ≤ curvature m x v := by
    have h3 := mul_le_mul_of_nonneg_right h1 (by positivity : 0 ≤ ‖x‖ ^ 2 * ‖v‖ ^ 2)
    refine h3.trans (le_of_eq ?_)
    field_simp
  refine le_trans ?_ h2
  have h4 := sum_sq_le x m.omega fun i => (hv i).le
  have h5 := sum_sq_le v (fun _ => 1) fun _ => zero_le_one
  simp only [one_mul, sum_const, card_univ, Fintype.card_fin, nsmul_eq_mul, mul_one] at h5
  have h6 : (∑ i, m.omega i * x i ^ 2) * ∑ a, v a ^ 2 ≤ W * (‖x‖ ^ 2 * ‖v‖ ^ 2) := by
    refine (mul_le_mul h4 h5 hv2 (by positivity)).trans ?_
    rw [hW]
    nlinarith [mul_pos (pow_pos hnx 2) (pow_pos hnv 2)]
  calc _ ≤ c / W * ((∑ i, m.omega i * x i ^ 2) * ∑ a, v a ^ 2) :=
        mul_le_mul_of_nonneg_right (min_le_left _ _) (mul_nonneg hx2 hv2)
    _ ≤ c / W * (W * (‖x‖ ^ 2 * ‖v‖ ^ 2)) := mul_le_mul_of_nonneg_left h6 (div_pos hc0 hW0).le
    _ = _ := by field_simp

/-! ### matrices that depend on the coordinates -/

/-- Constant, linear and quadratic terms. -/
noncomputable def terms (E : Matrix (Fin A) (Fin A) ℝ) (L : Fin N → Matrix (Fin A) (Fin A) ℝ)
    (Q : Fin N → Fin N → Matrix (Fin A) (Fin A) ℝ) (x : Fin N → ℝ) : Matrix (Fin A) (Fin A) ℝ :=
  E + ∑ i, x i • L i + ∑ i, ∑ j, (x i * x j / 2) • Q i j

theorem quad_add (M M' : Matrix (Fin A) (Fin A) ℝ) (v : Fin A → ℝ) : quad (M + M') v = quad M v + quad M' v := by
  unfold quad
  simp only [Matrix.add_apply, mul_add, add_mul, sum_add_distrib]

theorem quad_sum {ι : Type*} (s : Finset ι) (M : ι → Matrix (Fin A) (Fin A) ℝ) (v : Fin A → ℝ) :
    quad (∑ i ∈ s, M i) v = ∑ i ∈ s, quad (M i) v := by
  classical
  induction s using Finset.induction_on with
  | empty => simp [quad]
  | insert a s h ih => rw [sum_insert h, sum_insert h, quad_add, ih]

/-- Linear terms are below any part of the oscillators. -/
theorem linear_le (w : Fin N → ℝ) (hw : ∀ i, 0 < w i) (B δ : ℝ) (hδ : 0 < δ) :
    ∃ C : ℝ, 0 ≤ C ∧ ∀ x : Fin N → ℝ, B * ∑ i, |x i| ≤ δ * pot w x + C := by
  refine ⟨∑ i, B ^ 2 / (2 * δ * w i), sum_nonneg fun i _ => by have := hw i; positivity, fun x => ?_⟩
  rw [mul_sum, pot, mul_sum, ← sum_add_distrib]
  refine sum_le_sum fun i _ => ?_
  have h := hw i
  have e : δ * (w i * x i ^ 2 / 2) + B ^ 2 / (2 * δ * w i) = ((δ * w i * |x i|) ^ 2 + B ^ 2) / (2 * δ * w i) := by
    rw [mul_pow, sq_abs]; field_simp
  rw [e, le_div_iff₀ (by positivity)]
  nlinarith [sq_nonneg (δ * w i * |x i| - B)]

theorem terms_form_ge (m : Vib A N) (hv : ∀ i, 0 < m.omega i) (δ : ℝ) (hδ : 0 < δ)
    (hm : ∀ x v, δ * ((∑ i, m.omega i * x i ^ 2) * ∑ a, v a ^ 2) ≤ curvature m x v)
    (E : Matrix (Fin A) (Fin A) ℝ) (L : Fin N → Matrix (Fin A) (Fin A) ℝ) :
    ∃ C : ℝ, 0 ≤ C ∧ ∀ x v, -((1 - 3 * δ / 4) * pot m.omega x + C) * ∑ a, v a ^ 2 ≤ quad (terms E L m.quadratic x) v := by
  set B := ∑ i, ∑ a, ∑ b, |L i a b| with hB
  obtain ⟨C, hC0, hC⟩ := linear_le m.omega hv B (δ / 4) (by positivity)
  set e := ∑ a, ∑ b, |E a b| with he
  have he0 : 0 ≤ e := sum_nonneg fun _ _ => sum_nonneg fun _ _ => abs_nonneg _
  refine ⟨e + C, by positivity, fun x v => ?_⟩
  set V := ∑ a, v a ^ 2 with hV
  have hV0 : 0 ≤ V := sum_nonneg fun _ _ => sq_nonneg _
  have hL0 : ∀ i, 0 ≤ ∑ a, ∑ b, |L i a b| := fun i => sum_nonneg fun _ _ => sum_nonneg fun _ _ => abs_nonneg _
  have h1 : -(e * V) ≤ quad E v := (abs_le.mp (form_ge E v)).1
  have h2 : -(B * (∑ i, |x i|) * V) ≤ ∑ i, quad (x i • L i) v := by
    have e : -(B * (∑ i, |x i|) * V) = ∑ i, -(B * |x i| * V) := by
      rw [sum_neg_distrib, ← sum_mul, ← mul_sum]
    rw [e]
    refine sum_le_sum fun i _ => ?_
    rw [quad_smul]
    have h3 : |x i * quad (L i) v| ≤ B * |x i| * V := by
      rw [abs_mul]
      have h4 := form_ge (L i) v
      have h5 : ∑ a, ∑ b, |L i a b| ≤ B := single_le_sum (f := fun i => ∑ a, ∑ b, |L i a b|) (fun i _ => hL0 i) (mem_univ i)
      calc |x i| * |quad (L i) v| ≤ |x i| * (B * V) :=
            mul_le_mul_of_nonneg_left (h4.trans (mul_le_mul_of_nonneg_right h5 hV0)) (abs_nonneg _)
        _ = _ := by ring
    exact (abs_le.mp h3).1
  have h3 : ∑ i, ∑ j, quad ((x i * x j / 2) • m.quadratic i j) v = (curvature m x v - (∑ i, m.omega i * x i ^ 2) * V) / 2 := by
    simp only [quad_smul]
    unfold curvature quad
    rw [← hV, add_sub_cancel_left, sum_div]
    refine sum_congr rfl fun i _ => ?_
    rw [sum_div]
    exact sum_congr rfl fun j _ => by ring
  have h4 := hm x v
  have h5 : ∑ i, m.omega i * x i ^ 2 = 2 * pot m.omega x := by
    rw [pot, mul_sum]; exact sum_congr rfl fun i _ => by ring
  rw [← hV, h5] at h4
  rw [h5] at h3
  have e1 : quad (terms E L m.quadratic x) v = quad E v + ∑ i, quad (x i • L i) v
      + ∑ i, ∑ j, quad ((x i * x j / 2) • m.quadratic i j) v := by
    unfold terms
    rw [quad_add, quad_add, quad_sum, quad_sum]
    simp only [quad_sum]
  rw [e1, h3]
  have h6 := mul_le_mul_of_nonneg_right (hC x) hV0
  nlinarith

theorem terms_norm_le (E : Matrix (Fin A) (Fin A) ℝ) (L : Fin N → Matrix (Fin A) (Fin A) ℝ)
    (Q : Fin N → Fin N → Matrix (Fin A) (Fin A) ℝ) : ∃ B : ℝ, 0 ≤ B ∧ ∀ x, ‖terms E L Q x‖ ≤ B * (1 + sq x) := by
  refine ⟨‖E‖ + ∑ i, ‖L i‖ + ∑ i, ∑ j, ‖Q i j‖, by positivity, fun x => ?_⟩
  have hs := sq_nonneg' x
  have hx : ∀ i, x i ^ 2 ≤ sq x := fun i => single_le_sum (f := fun i => x i ^ 2) (fun _ _ => sq_nonneg _) (mem_univ i)
  have h1 : ‖∑ i, x i • L i‖ ≤ (∑ i, ‖L i‖) * (1 + sq x) := by
    refine (norm_sum_le _ _).trans ?_
    rw [sum_mul]
    refine sum_le_sum fun i _ => ?_
    rw [norm_smul, Real.norm_eq_abs, mul_comm]
    refine mul_le_mul_of_nonneg_left ?_ (norm_nonneg _)
    have := hx i
    rw [← sq_abs] at this
    nlinarith [sq_nonneg (|x i| - 1), abs_nonneg (x i)]
  have h2 : ‖∑ i, ∑ j, (x i * x j / 2) • Q i j‖ ≤ (∑ i, ∑ j, ‖Q i j‖) * (1 + sq x) := by
    refine (norm_sum_le _ _).trans ?_
    rw [sum_mul]
    refine sum_le_sum fun i _ => (norm_sum_le _ _).trans ?_
    rw [sum_mul]
    refine sum_le_sum fun j _ => ?_
    rw [norm_smul, Real.norm_eq_abs, mul_comm]
    refine mul_le_mul_of_nonneg_left ?_ (norm_nonneg _)
    have h3 := hx i
    have h4 := hx j
    rw [abs_le]
    constructor <;> nlinarith [sq_nonneg (x i + x j), sq_nonneg (x i - x j)]
  unfold terms
  have h3 := norm_add_le (E + ∑ i, x i • L i) (∑ i, ∑ j, (x i * x j / 2) • Q i j)
  have h4 := norm_add_le E (∑ i, x i • L i)
  nlinarith [norm_nonneg E, mul_nonneg (norm_nonneg E) hs]

theorem terms_symm (E : Matrix (Fin A) (Fin A) ℝ) (L : Fin N → Matrix (Fin A) (Fin A) ℝ)
    (Q : Fin N → Fin N → Matrix (Fin A) (Fin A) ℝ) (hE : E.IsSymm) (hL : ∀ i, (L i).IsSymm) (hQ : ∀ i j, (Q i j).IsSymm)
    (x : Fin N → ℝ) : (terms E L Q x).IsSymm := by
  unfold terms Matrix.IsSymm
  simp only [Matrix.transpose_add, Matrix.transpose_sum, Matrix.transpose_smul, hE.eq, (hL _).eq, (hQ _ _).eq]

/-! ### one bead -/

/-- The matrix without its diagonal. -/
def offD (M : Matrix (Fin A) (Fin A) ℝ) : Matrix (Fin A) (Fin A) ℝ := M - Matrix.diagonal fun a => M a a

theorem offD_symm (M : Matrix (Fin A) (Fin A) ℝ) (h : M.IsSymm) : (offD M).IsSymm :=
  h.sub (Matrix.isSymm_diagonal _)

/-- What the displacements add to the oscillators of surface `a` between `x` and `y`. -/
noncomputable def tilt (m : Vib A N) (t : ℝ) (x y : Fin N → ℝ) (a : Fin A) : ℝ :=
  t * m.energy a a + ∑ i, Real.tanh (t * m.omega i / 2) / m.omega i * (x i + y i) * m.linear i a a
    + ∑ i, (Real.tanh (t * m.omega i / 2) / m.omega i ^ 2 - t / (2 * m.omega i)) * m.linear i a a ^ 2

/-- The propagators of the oscillators without displacements. -/
noncomputable def free {P : ℕ} [NeZero P] (t : ℝ) (w : Fin N → ℝ) (R : BeadPath N P) (p : Fin P) : ℝ :=
  ∏ i, propagator t (w i) (R i p) (R i (p + 1))

theorem step_free {P : ℕ} [NeZero P] (m : Vib A N) (t : ℝ) (ht : 0 < t) (hv : ∀ i, 0 < m.omega i) (R : BeadPath N P) (p : Fin P)
    (a : Fin A) : step t (m.energy a a) (fun i => m.linear i a a) m.omega R p
      = free t m.omega R p * Real.exp (-tilt m t (fun i => R i p) (fun i => R i (p + 1)) a) := by
  have hsh : ∀ i, 0 < Real.sinh (t * m.omega i) := fun i => Real.sinh_pos_iff.mpr (mul_pos ht (hv i))
  have hprop : ∀ i, propagator t (m.omega i) (R i p - centre (m.linear i a a) (m.omega i))
      (R i (p + 1) - centre (m.linear i a a) (m.omega i))
      = propagator t (m.omega i) (R i p) (R i (p + 1))
        * Real.exp (-(Real.tanh (t * m.omega i / 2) / m.omega i * (R i p + R i (p + 1)) * m.linear i a a)
          + -(Real.tanh (t * m.omega i / 2) / m.omega i ^ 2 * m.linear i a a ^ 2)) := by
    intro i
    unfold propagator centre
    rw [div_mul_eq_mul_div, ← Real.exp_add]
    congr 2
    rw [← tanh_half_eq _ (mul_pos ht (hv i))]
    have h1 := (hsh i).ne'
    have h2 := (hv i).ne'
    field_simp
    ring
  unfold step free
  simp only [hprop]
  rw [prod_mul_distrib, ← Real.exp_sum, mul_left_comm, ← Real.exp_add]
  congr 2
  unfold bottom tilt
  simp only [sub_mul, sum_add_distrib, sum_sub_distrib, sum_neg_distrib]
  have e : ∑ i, t / (2 * m.omega i) * m.linear i a a ^ 2 = t * ∑ i, m.linear i a a ^ 2 / (2 * m.omega i) := by
    rw [mul_sum]; exact sum_congr rfl fun i _ => by ring
  rw [e]
  ring

theorem remainder_terms {P : ℕ} (m : Vib A N) (hv : ∀ i, 0 < m.omega i) (R : BeadPath N P) (p : Fin P) :
    remainder m R p = terms m.energy m.linear m.quadratic (fun i => R i p)
      - Matrix.diagonal fun a => m.energy a a + ∑ i, R i p * m.linear i a a := by
  have h1 : ∀ a, oscillator m a (fun i => R i p)
      = m.energy a a + ∑ i, (m.omega i * R i p ^ 2 / 2 + R i p * m.linear i a a) := by
    intro a
    unfold oscillator bottom centre
    rw [sub_eq_add_neg, add_assoc, ← sum_neg_distrib, ← sum_add_distrib]
    congr 1
    refine sum_congr rfl fun i _ => ?_
    have := (hv i).ne'
    field_simp
    ring
  ext a b
  unfold remainder potential terms
  simp only [h1, Matrix.add_apply, Matrix.sub_apply, Matrix.smul_apply, Matrix.sum_apply, smul_eq_mul,
    Matrix.diagonal_apply, Matrix.one_apply]
  by_cases h : a = b
  · subst h
    simp only [if_true, mul_one, sum_add_distrib]
    ring
  · simp only [h, if_false, mul_zero, add_zero]

theorem terms_offD (m : Vib A N) (x : Fin N → ℝ) :
    terms m.energy m.linear m.quadratic x - (Matrix.diagonal fun a => m.energy a a + ∑ i, x i * m.linear i a a)
      = terms (offD m.energy) (fun i => offD (m.linear i)) m.quadratic x := by
  ext a b
  unfold terms offD
  simp only [Matrix.add_apply, Matrix.sub_apply, Matrix.smul_apply, Matrix.sum_apply, smul_eq_mul, Matrix.diagonal_apply]
  by_cases h : a = b
  · subst h
    simp only [if_true, sub_self, mul_zero, sum_const_zero]
    ring
  · simp only [h, if_false, sub_zero]

set_option maxHeartbeats 1000000 in
/-- What is left of the displacements to first order in the time step. -/
theorem tilt_first (m : Vib A N) (hv : ∀ i, 0 < m.omega i) : ∃ B : ℝ, 0 ≤ B ∧ ∀ t, 0 < t → t ≤ 1 → ∀ (x y : Fin N → ℝ) a,
    |tilt m t x y a - t * (m.energy a a + ∑ i, x i * m.linear i a a)|
      ≤ B * (t * ∑ i, |x i - y i| + t ^ 2 * (1 + sq x + sq y)) ∧
    |tilt m t x y a| ≤ t * B * (1 + sq x + sq y) ∧
    |tilt m t x y a| ≤ t * (B + B * (∑ i, |x i| + ∑ i, |y i|)) := by
  set l := ∑ i, ∑ a, |m.linear i a a| with hl
  have hl1 : ∀ i a, |m.linear i a a| ≤ l := fun i a =>
    (single_le_sum (f := fun a => |m.linear i a a|) (fun _ _ => abs_nonneg _) (mem_univ a)).trans
      (single_le_sum (f := fun i => ∑ a, |m.linear i a a|) (fun _ _ => sum_nonneg fun _ _ => abs_nonneg _) (mem_univ i))
  have hl0 : 0 ≤ l := sum_nonneg fun _ _ => sum_nonneg fun _ _ => abs_nonneg _
  set W := ∑ i, m.omega i with hW
  have hW0 : 0 ≤ W := sum_nonneg fun i _ => (hv i).le
  have hW1 : ∀ i, m.omega i ≤ W := fun i => single_le_sum (f := m.omega) (fun i _ => (hv i).le) (mem_univ i)
  set e := ∑ a, |m.energy a a| with he
  have he1 : ∀ a, |m.energy a a| ≤ e := fun a => single_le_sum (f := fun a => |m.energy a a|) (fun _ _ => abs_nonneg _) (mem_univ a)
  have he0 : 0 ≤ e := sum_nonneg fun _ _ => abs_nonneg _
  set B := e + l + N * l + N * (W * l) + N * l ^ 2 with hB
  have hNl : 0 ≤ N * l := by positivity
  have hNW : 0 ≤ N * (W * l) := by positivity
  have hNl2 : 0 ≤ N * l ^ 2 := by positivity
  refine ⟨B, by positivity, fun t ht ht1 x y a => ?_⟩
  clear_value l W e B
  set r := 1 + sq x + sq y with hr
  have hsx := sq_nonneg' x
  have hsy := sq_nonneg' y
  have hr1 : 1 ≤ r := by rw [hr]; linarith
  have hxr : ∀ i, |x i| + |y i| ≤ r := by
    intro i
    have h1 : x i ^ 2 ≤ sq x := single_le_sum (f := fun i => x i ^ 2) (fun _ _ => sq_nonneg _) (mem_univ i)
    have h2 : y i ^ 2 ≤ sq y := single_le_sum (f := fun i => y i ^ 2) (fun _ _ => sq_nonneg _) (mem_univ i)
    rw [← sq_abs] at h1 h2
    rw [hr]
    nlinarith [sq_nonneg (|x i| - 1), sq_nonneg (|y i| - 1)]
  -- the factors
  have hk : ∀ i, 0 ≤ Real.tanh (t * m.omega i / 2) / m.omega i ∧ Real.tanh (t * m.omega i / 2) / m.omega i ≤ t / 2 ∧
      t / 2 - Real.tanh (t * m.omega i / 2) / m.omega i ≤ t ^ 2 * (W / 4) ∧
      |Real.tanh (t * m.omega i / 2) / m.omega i ^ 2 - t / (2 * m.omega i)| ≤ t ^ 2 / 4 := by
    intro i
    have hw := hv i
    have hu : 0 < t * m.omega i / 2 := by positivity
    have h1 := (tanh_pos hu).le
    have h2 := tanh_le_self _ hu.le
    have h3 := tanh_ge _ hu.le
    refine ⟨div_nonneg h1 hw.le, ?_, ?_, ?_⟩
    · rw [div_le_iff₀ hw]; linarith
    · have h4 : t / 2 - Real.tanh (t * m.omega i / 2) / m.omega i ≤ t ^ 2 * (m.omega i / 4) := by
        rw [sub_le_comm, le_div_iff₀ hw]
        nlinarith
      have h5 := mul_le_mul_of_nonneg_left (hW1 i) (sq_nonneg t)
      nlinarith
    · have e1 : Real.tanh (t * m.omega i / 2) / m.omega i ^ 2 - t / (2 * m.omega i)
          = (Real.tanh (t * m.omega i / 2) - t * m.omega i / 2) / m.omega i ^ 2 := by field_simp
      rw [e1, abs_div, abs_of_nonpos (by linarith), abs_of_pos (pow_pos hw 2), div_le_iff₀ (pow_pos hw 2)]
      nlinarith
  have hlin : ∀ i, |m.linear i a a| ^ 2 ≤ l ^ 2 := fun i => pow_le_pow_left₀ (abs_nonneg _) (hl1 i a) 2
  have hsq2 : |∑ i, (Real.tanh (t * m.omega i / 2) / m.omega i ^ 2 - t / (2 * m.omega i)) * m.linear i a a ^ 2|
      ≤ t ^ 2 * (N * l ^ 2) := by
    refine (abs_sum_le_sum_abs _ _).trans ?_
    have h1 : ∀ i, |(Real.tanh (t * m.omega i / 2) / m.omega i ^ 2 - t / (2 * m.omega i)) * m.linear i a a ^ 2| ≤ t ^ 2 * l ^ 2 := by
      intro i
      rw [abs_mul, abs_pow]
      refine mul_le_mul ((hk i).2.2.2.trans ?_) (hlin i) (by positivity) (by positivity)
      nlinarith [sq_nonneg t]
    refine (sum_le_sum fun i _ => h1 i).trans (le_of_eq ?_)
    rw [sum_const, card_univ, Fintype.card_fin, nsmul_eq_mul]; ring
  have ht2 : t ^ 2 ≤ t := by nlinarith
  refine ⟨?_, ?_, ?_⟩
  · have e1 : tilt m t x y a - t * (m.energy a a + ∑ i, x i * m.linear i a a)
        = ∑ i, (Real.tanh (t * m.omega i / 2) / m.omega i * (x i + y i) - t * x i) * m.linear i a a
          + ∑ i, (Real.tanh (t * m.omega i / 2) / m.omega i ^ 2 - t / (2 * m.omega i)) * m.linear i a a ^ 2 := by
      unfold tilt
      have e2 : ∑ i, (Real.tanh (t * m.omega i / 2) / m.omega i * (x i + y i) - t * x i) * m.linear i a a
          = ∑ i, Real.tanh (t * m.omega i / 2) / m.omega i * (x i + y i) * m.linear i a a - t * ∑ i, x i * m.linear i a a := by
        rw [mul_sum, ← sum_sub_distrib]; exact sum_congr rfl fun i _ => by ring
      rw [e2]; ring
    rw [e1]
    have h1 : |∑ i, (Real.tanh (t * m.omega i / 2) / m.omega i * (x i + y i) - t * x i) * m.linear i a a|
        ≤ l * (t * ∑ i, |x i - y i|) + t ^ 2 * r * (N * (W * l)) := by
      refine (abs_sum_le_sum_abs _ _).trans ?_
      have h2 : ∀ i, |(Real.tanh (t * m.omega i / 2) / m.omega i * (x i + y i) - t * x i) * m.linear i a a|
          ≤ l * (t * |x i - y i|) + t ^ 2 * r * (W * l) := by
        intro i
        obtain ⟨k0, k1, k2, -⟩ := hk i
        rw [abs_mul]
        have h3 : |Real.tanh (t * m.omega i / 2) / m.omega i * (x i + y i) - t * x i| ≤ t * |x i - y i| + t ^ 2 * W * r := by
          have e3 : Real.tanh (t * m.omega i / 2) / m.omega i * (x i + y i) - t * x i
              = -(t / 2) * (x i - y i) + -((t / 2 - Real.tanh (t * m.omega i / 2) / m.omega i) * (x i + y i)) := by ring
          rw [e3]
          refine (abs_add_le _ _).trans (add_le_add ?_ ?_)
          · rw [abs_mul, abs_neg, abs_of_pos (half_pos ht)]
            nlinarith [abs_nonneg (x i - y i)]
          · rw [abs_neg, abs_mul, abs_of_nonneg (by linarith)]
            refine mul_le_mul ?_ ((abs_add_le _ _).trans (hxr i)) (abs_nonneg _) (by positivity)
            nlinarith [mul_nonneg (sq_nonneg t) hW0]
        refine (mul_le_mul h3 (hl1 i a) (abs_nonneg _) (by positivity)).trans (le_of_eq ?_)
        ring
      refine (sum_le_sum fun i _ => h2 i).trans (le_of_eq ?_)
      rw [sum_add_distrib, ← mul_sum, ← mul_sum, sum_const, card_univ, Fintype.card_fin, nsmul_eq_mul]
      ring
    refine (abs_add_le _ _).trans ((add_le_add h1 hsq2).trans ?_)
    have h4 : 0 ≤ t * ∑ i, |x i - y i| := mul_nonneg ht.le (sum_nonneg fun _ _ => abs_nonneg _)
    have h5 : 0 ≤ t ^ 2 * r := by positivity
    have h6 : t ^ 2 * (N * l ^ 2) ≤ t ^ 2 * r * (N * l ^ 2) := by
      refine mul_le_mul_of_nonneg_right ?_ hNl2
      nlinarith [sq_nonneg t]
    have h7 : l ≤ B := by rw [hB]; linarith
    have h8 : N * (W * l) + N * l ^ 2 ≤ B := by rw [hB]; linarith
    have h9 := mul_le_mul_of_nonneg_right h7 h4
    have h10 := mul_le_mul_of_nonneg_right h8 h5
    linarith
  all_goals
    have hmain : |tilt m t x y a| ≤ t * e + t * l * ∑ i, (|x i| + |y i|) + t * (N * l ^ 2) := by
      unfold tilt
      refine (abs_add_le _ _).trans (add_le_add ((abs_add_le _ _).trans (add_le_add ?_ ?_)) ?_)
      · rw [abs_mul, abs_of_pos ht]
        exact mul_le_mul_of_nonneg_left (he1 a) ht.le
      · refine (abs_sum_le_sum_abs _ _).trans ?_
        rw [mul_sum]
        refine sum_le_sum fun i _ => ?_
        obtain ⟨k0, k1, -, -⟩ := hk i
        rw [abs_mul, abs_mul, abs_of_nonneg k0]
        have h1 := abs_add_le (x i) (y i)
        have h2 : 0 ≤ |x i| + |y i| := by positivity
        calc _ ≤ t * (|x i| + |y i|) * l :=
              mul_le_mul (mul_le_mul (by linarith) h1 (abs_nonneg _) ht.le) (hl1 i a) (abs_nonneg _) (by positivity)
          _ = _ := by ring
      · exact hsq2.trans (mul_le_mul_of_nonneg_right ht2 hNl2)
  · refine hmain.trans ?_
    have h1 : ∑ i, (|x i| + |y i|) ≤ N * r := by
      refine (sum_le_sum fun i _ => hxr i).trans (le_of_eq ?_)
      rw [sum_const, card_univ, Fintype.card_fin, nsmul_eq_mul]
    have h2 := mul_le_mul_of_nonneg_left h1 (mul_nonneg ht.le hl0)
    have h3 : t * e ≤ t * e * r := le_mul_of_one_le_right (by positivity) hr1
    have h4 : t * (N * l ^ 2) ≤ t * (N * l ^ 2) * r := le_mul_of_one_le_right (by positivity) hr1
    have h5 : e + N * l + N * l ^ 2 ≤ B := by rw [hB]; linarith
    have h6 := mul_le_mul_of_nonneg_left h5 (mul_nonneg ht.le (by linarith : 0 ≤ r))
    linarith
  · refine hmain.trans ?_
    rw [sum_add_distrib]
    have h0 : 0 ≤ ∑ i, |x i| + ∑ i, |y i| := by positivity
    have h5 : e + N * l ^ 2 ≤ B := by rw [hB]; linarith
    have h6 : l ≤ B := by rw [hB]; linarith
    have h7 := mul_le_mul_of_nonneg_left h5 ht.le
    have h8 := mul_le_mul_of_nonneg_left (mul_le_mul_of_nonneg_right h6 h0) ht.le
    linarith

set_option maxHeartbeats 1000000 in
/-- The bounds for one bead: both products, and their difference. -/
theorem bead_bounds (m : Vib A N) (hv : ∀ i, 0 < m.omega i) (hs : Symmetric m) (δ : ℝ) (hδ : 0 < δ)
    (hm : ∀ x v, δ * ((∑ i, m.omega i * x i ^ 2) * ∑ a, v a ^ 2) ≤ curvature m x v) :
    ∃ C : ℝ, 0 ≤ C ∧ ∀ t, 0 < t → t ≤ 1 → ∀ x y : Fin N → ℝ,
      ‖NormedSpace.exp (-t • terms (offD m.energy) (fun i => offD (m.linear i)) m.quadratic x)
          * NormedSpace.exp (-Matrix.diagonal (tilt m t x y))‖
        ≤ Real.exp (t * ((1 - 3 * δ / 4) * pot m.omega x + δ / 8 * (pot m.omega x + pot m.omega y) + C)) ∧
      ‖NormedSpace.exp (-t • terms m.energy m.linear m.quadratic x)‖
        ≤ Real.exp (t * ((1 - 3 * δ / 4) * pot m.omega x + δ / 8 * (pot m.omega x + pot m.omega y) + C)) ∧
      ‖NormedSpace.exp (-t • terms (offD m.energy) (fun i => offD (m.linear i)) m.quadratic x)
          * NormedSpace.exp (-Matrix.diagonal (tilt m t x y)) - NormedSpace.exp (-t • terms m.energy m.linear m.quadratic x)‖
        ≤ C * (t * ∑ i, |x i - y i| + t ^ 2 * (1 + sq x + sq y) ^ 2 * Real.exp (C * (t * (1 + sq x + sq y)))) := by
  obtain ⟨hE, hL, hQ⟩ := hs
  obtain ⟨C1, hC1, h1⟩ := terms_form_ge m hv δ hδ hm (offD m.energy) (fun i => offD (m.linear i))
  obtain ⟨C2, hC2, h2⟩ := terms_form_ge m hv δ hδ hm m.energy m.linear
  obtain ⟨B1, hB1, g1⟩ := terms_norm_le (offD m.energy) (fun i => offD (m.linear i)) m.quadratic
  obtain ⟨B2, hB2, g2⟩ := terms_norm_le m.energy m.linear m.quadratic
  obtain ⟨B3, hB3, g3⟩ := tilt_first m hv
  obtain ⟨C3, hC3, h3⟩ := linear_le m.omega hv B3 (δ / 8) (by positivity)
  set C := C1 + C2 + B3 + 2 * C3 + (B1 + B2 + B3) + (B3 + 2 * (B1 + B2 + B3) ^ 2) with hC
  refine ⟨C, by positivity, fun t ht ht1 x y => ?_⟩
  set X := terms (offD m.energy) (fun i => offD (m.linear i)) m.quadratic x with hX
  set V := terms m.energy m.linear m.quadratic x with hV
  set Y := Matrix.diagonal (tilt m t x y) with hY
  have hpx : 0 ≤ pot m.omega x := sum_nonneg fun i _ => by have := hv i; positivity
  have hpy : 0 ≤ pot m.omega y := sum_nonneg fun i _ => by have := hv i; positivity
  have hexp : ∀ (M : Matrix (Fin A) (Fin A) ℝ) (c : ℝ), M.IsSymm → (∀ v, -c * ∑ a, v a ^ 2 ≤ quad M v) →
      ‖NormedSpace.exp (-t • M)‖ ≤ Real.exp (t * c) := by
    intro M c hM hc
    have h := norm_exp_neg_le (t • M) (hM.smul t) (-(t * c)) (fun v => by
      rw [quad_smul]
      have := mul_le_mul_of_nonneg_left (hc v) ht.le
      linarith)
    rwa [neg_neg, ← neg_smul] at h
  have nX := hexp X ((1 - 3 * δ / 4) * pot m.omega x + C1)
    (terms_symm _ _ _ (offD_symm _ hE) (fun i => offD_symm _ (hL i)) hQ x) (h1 x)
  have nV := hexp V ((1 - 3 * δ / 4) * pot m.omega x + C2) (terms_symm _ _ _ hE hL hQ x) (h2 x)
  have nY : ‖NormedSpace.exp (-Y)‖ ≤ Real.exp (t * (B3 + (δ / 8 * (pot m.omega x + pot m.omega y) + 2 * C3))) := by
    have e : -Y = Matrix.diagonal fun a => -tilt m t x y a := by rw [hY, ← Matrix.diagonal_neg]
    rw [e, exp_diagonal_real]
    refine diagonal_norm_le _ _ (Real.exp_pos _).le fun a => ?_
    rw [abs_of_pos (Real.exp_pos _)]
    refine Real.exp_le_exp.mpr ?_
    have h4 := (neg_le_abs (tilt m t x y a)).trans (g3 t ht ht1 x y a).2.2
    refine h4.trans (mul_le_mul_of_nonneg_left ?_ ht.le)
    have h5 := h3 x
    have h6 := h3 y
    linarith
  have hBB : 0 ≤ B1 + B2 + B3 := by positivity
  have hB2' : 0 ≤ 2 * (B1 + B2 + B3) ^ 2 := by positivity
  refine ⟨?_, ?_, ?_⟩
  · refine (norm_mul_le _ _).trans ((mul_le_mul nX nY (norm_nonneg _) (Real.exp_pos _).le).trans ?_)
    rw [← Real.exp_add, ← mul_add]
    refine Real.exp_le_exp.mpr (mul_le_mul_of_nonneg_left ?_ ht.le)
    rw [hC]
    linarith
  · refine nV.trans (Real.exp_le_exp.mpr (mul_le_mul_of_nonneg_left ?_ ht.le))
    have : 0 ≤ δ / 8 * (pot m.omega x + pot m.omega y) := by positivity
    rw [hC]
    linarith
  · set r := 1 + sq x + sq y with hr
    have hsx := sq_nonneg' x
    have hsy := sq_nonneg' y
    have hr1 : 1 ≤ r := by rw [hr]; linarith
    have hxr : 1 + sq x ≤ r := by rw [hr]; linarith
    have mX : ‖-t • X‖ ≤ t * r * B1 := by
      rw [norm_smul, norm_neg, Real.norm_eq_abs, abs_of_pos ht]
      have := mul_le_mul_of_nonneg_left ((g1 x).trans (mul_le_mul_of_nonneg_left hxr hB1)) ht.le
      linarith
    have mV : ‖-t • V‖ ≤ t * r * B2 := by
      rw [norm_smul, norm_neg, Real.norm_eq_abs, abs_of_pos ht]
      have := mul_le_mul_of_nonneg_left ((g2 x).trans (mul_le_mul_of_nonneg_left hxr hB2)) ht.le
      linarith
    have mY : ‖-Y‖ ≤ t * r * B3 := by
      rw [norm_neg]
      refine diagonal_norm_le _ _ (by positivity) fun a => ?_
      have := (g3 t ht ht1 x y a).2.1
      linarith
    have mD : ‖-t • X + -Y - -t • V‖ ≤ B3 * (t * ∑ i, |x i - y i| + t ^ 2 * r) := by
      have hD0 : 0 ≤ B3 * (t * ∑ i, |x i - y i| + t ^ 2 * r) := by positivity
      have e : -t • X + -Y - -t • V
          = Matrix.diagonal fun a => -(tilt m t x y a - t * (m.energy a a + ∑ i, x i * m.linear i a a)) := by
        rw [hX, ← terms_offD, ← hV, hY]
        ext a b
        simp only [Matrix.add_apply, Matrix.sub_apply, Matrix.smul_apply, Matrix.neg_apply, smul_eq_mul, Matrix.diagonal_apply]
        by_cases h : a = b
        · simp only [h, if_true]; ring
        · simp only [h, if_false]; ring
      rw [e]
      refine diagonal_norm_le _ _ hD0 fun a => ?_
      rw [abs_neg]
      exact (g3 t ht ht1 x y a).1
    refine (norm_exp_mul_exp_sub_le (-t • X) (-Y) (-t • V)).trans ?_
    set B := B1 + B2 + B3 with hB
    have htr : 0 ≤ t * r := by positivity
    have m1 : ‖-t • X‖ + ‖-Y‖ ≤ B * (t * r) := by
      rw [hB]; linarith [mul_nonneg htr hB2]
    have m2 : ‖-t • V‖ ≤ B * (t * r) := by
      rw [hB]; linarith [mul_nonneg htr hB1, mul_nonneg htr hB3]
    have hBC : B ≤ C := by rw [hC]; linarith
    have hE1 : Real.exp (B * (t * r)) ≤ Real.exp (C * (t * r)) := Real.exp_le_exp.mpr (mul_le_mul_of_nonneg_right hBC htr)
    have n1 : (‖-t • X‖ + ‖-Y‖) ^ 2 * Real.exp (‖-t • X‖ + ‖-Y‖) ≤ (B * (t * r)) ^ 2 * Real.exp (C * (t * r)) :=
      mul_le_mul (pow_le_pow_left₀ (by positivity) m1 2) ((Real.exp_le_exp.mpr m1).trans hE1) (Real.exp_pos _).le (by positivity)
    have n2 : ‖-t • V‖ ^ 2 * Real.exp ‖-t • V‖ ≤ (B * (t * r)) ^ 2 * Real.exp (C * (t * r)) :=
      mul_le_mul (pow_le_pow_left₀ (by positivity) m2 2) ((Real.exp_le_exp.mpr m2).trans hE1) (Real.exp_pos _).le (by positivity)
    have hE0 : 1 ≤ Real.exp (C * (t * r)) := Real.one_le_exp (mul_nonneg (hBB.trans hBC) htr)
    have hrr : t ^ 2 * r ≤ t ^ 2 * r ^ 2 * Real.exp (C * (t * r)) := by
      have : t ^ 2 * r ≤ t ^ 2 * r ^ 2 := mul_le_mul_of_nonneg_left (by nlinarith) (sq_nonneg t)
      exact this.trans (le_mul_of_one_le_right (by positivity) hE0)
    have hd0 : 0 ≤ t * ∑ i, |x i - y i| := mul_nonneg ht.le (sum_nonneg fun _ _ => abs_nonneg _)
    have k1 : B3 ≤ C := by rw [hC]; linarith
    have k2 : B3 + 2 * B ^ 2 ≤ C := by rw [hC]; linarith
    have p1 := mul_le_mul_of_nonneg_right k1 hd0
    have p2 := mul_le_mul_of_nonneg_right k2 (by positivity : 0 ≤ t ^ 2 * r ^ 2 * Real.exp (C * (t * r)))
    have p3 := mul_le_mul_of_nonneg_left hrr hB3
    have e1 : (B * (t * r)) ^ 2 * Real.exp (C * (t * r)) = B ^ 2 * (t ^ 2 * r ^ 2 * Real.exp (C * (t * r))) := by ring
    rw [e1] at n1 n2
    linarith

/-! ### the whole product -/

/-- The integrand that uses the oscillators without displacements, and everything else as potential. -/
noncomputable def gPlain {P : ℕ} [NeZero P] (t : ℝ) (m : Vib A N) (R : BeadPath N P) : ℝ :=
  Matrix.trace (List.ofFn fun p : Fin P => free t m.omega R p
    • NormedSpace.exp (-t • terms m.energy m.linear m.quadratic fun i => R i p)).prod

theorem gPlain_continuous {P : ℕ} [NeZero P] (t : ℝ) (m : Vib A N) : Continuous fun R : BeadPath N P => gPlain t m R := by
  unfold gPlain
  refine Continuous.matrix_trace (continuous_prod_ofFn _ fun p => ?_)
  have h1 : Continuous fun R : BeadPath N P => free t m.omega R p := by unfold free propagator; fun_prop
  have h2 : Continuous fun R : BeadPath N P =>
      NormedSpace.exp (-t • terms m.energy m.linear m.quadratic fun i => R i p) := by
    refine (continuous_matrix_exp A).comp ?_
    unfold terms
    fun_prop
  exact h1.smul h2

theorem gExact_beads {P : ℕ} [NeZero P] (t : ℝ) (ht : 0 < t) (m : Vib A N) (hv : ∀ i, 0 < m.omega i) (R : BeadPath N P) :
    gExact t m R = Matrix.trace (List.ofFn fun p : Fin P => free t m.omega R p
      • (NormedSpace.exp (-t • terms (offD m.energy) (fun i => offD (m.linear i)) m.quadratic fun i => R i p)
        * NormedSpace.exp (-Matrix.diagonal (tilt m t (fun i => R i p) fun i => R i (p + 1))))).prod := by
  unfold gExact gSplit
  congr 3
  funext p
  rw [remainder_terms m hv, terms_offD]
  have e : (Matrix.diagonal fun a => step t (m.energy a a) (fun i => m.linear i a a) m.omega R p)
      = free t m.omega R p • NormedSpace.exp (-Matrix.diagonal (tilt m t (fun i => R i p) fun i => R i (p + 1))) := by
    have e1 : -Matrix.diagonal (tilt m t (fun i => R i p) fun i => R i (p + 1))
        = Matrix.diagonal fun a => -tilt m t (fun i => R i p) (fun i => R i (p + 1)) a := by rw [← Matrix.diagonal_neg]
    rw [e1, exp_diagonal_real, ← Matrix.diagonal_smul]
    congr 1
    funext a
    rw [step_free m t ht hv]
    rfl
  rw [e, Matrix.mul_smul]

set_option maxHeartbeats 1000000 in
/-- Both integrands are bounded by `trial`, and their difference by the errors of the beads. -/
theorem product_bounds (m : Vib A N) (hv : ∀ i, 0 < m.omega i) (hs : Symmetric m) (δ : ℝ) (hδ : 0 < δ) (hδ1 : δ ≤ 1)
    (hm : ∀ x v, δ * ((∑ i, m.omega i * x i ^ 2) * ∑ a, v a ^ 2) ≤ curvature m x v) :
    ∃ C : ℝ, 0 ≤ C ∧ ∀ (P : ℕ) [NeZero P] (t : ℝ), 0 < t → t ≤ 1 → ∀ R : BeadPath N P,
      |gExact t m R| ≤ C * (Real.exp (P * t * C) * trial t m.omega (1 - δ / 2) R) ∧
      |gPlain t m R| ≤ C * (Real.exp (P * t * C) * trial t m.omega (1 - δ / 2) R) ∧
      |gExact t m R - gPlain t m R| ≤ C * (errorSum C t R * (Real.exp (P * t * C) * trial t m.omega (1 - δ / 2) R)) := by
  obtain ⟨C0, hC0, hb⟩ := bead_bounds m hv hs δ hδ hm
  obtain ⟨c, hc0, hc⟩ := trace_le_norm A
  refine ⟨C0 + c, by positivity, fun P _ t ht ht1 R => ?_⟩
  set C := C0 + c with hC
  have hCc : c ≤ C := by rw [hC]; linarith
  have hCC : C0 ≤ C := by rw [hC]; linarith
  have hC' : 0 ≤ C := hc0.trans hCc
  have hfree : ∀ p, 0 < free t m.omega R p := fun p => prod_pos fun i _ => propagator_pos _ _ _ _ (mul_pos ht (hv i))
  set T : Fin P → Matrix (Fin A) (Fin A) ℝ := fun p => free t m.omega R p
      • (NormedSpace.exp (-t • terms (offD m.energy) (fun i => offD (m.linear i)) m.quadratic fun i => R i p)
        * NormedSpace.exp (-Matrix.diagonal (tilt m t (fun i => R i p) fun i => R i (p + 1)))) with hT
  set S : Fin P → Matrix (Fin A) (Fin A) ℝ := fun p => free t m.omega R p
    • NormedSpace.exp (-t • terms m.energy m.linear m.quadratic fun i => R i p) with hS
  set b : Fin P → ℝ := fun p => free t m.omega R p * Real.exp (t * ((1 - 3 * δ / 4) * pot m.omega (fun i => R i p)
    + δ / 8 * (pot m.omega (fun i => R i p) + pot m.omega (fun i => R i (p + 1))) + C)) with hbd
  set d : Fin P → ℝ := fun p => C * (t * ∑ i, |R i p - R i (p + 1)| + t ^ 2 * (1 + sq (fun i => R i p)
    + sq (fun i => R i (p + 1))) ^ 2 * Real.exp (C * (t * (1 + sq (fun i => R i p) + sq (fun i => R i (p + 1)))))) with hdd
  have hpot : ∀ x, 0 ≤ pot m.omega x := fun x => sum_nonneg fun i _ => by have := hv i; positivity
  have hle : ∀ p, Real.exp (t * ((1 - 3 * δ / 4) * pot m.omega (fun i => R i p)
      + δ / 8 * (pot m.omega (fun i => R i p) + pot m.omega (fun i => R i (p + 1))) + C0))
      ≤ Real.exp (t * ((1 - 3 * δ / 4) * pot m.omega (fun i => R i p)
      + δ / 8 * (pot m.omega (fun i => R i p) + pot m.omega (fun i => R i (p + 1))) + C)) := fun p =>
    Real.exp_le_exp.mpr (mul_le_mul_of_nonneg_left (by linarith) ht.le)
  have hone : ∀ p, 1 ≤ Real.exp (t * ((1 - 3 * δ / 4) * pot m.omega (fun i => R i p)
      + δ / 8 * (pot m.omega (fun i => R i p) + pot m.omega (fun i => R i (p + 1))) + C)) := by
    intro p
    refine Real.one_le_exp (mul_nonneg ht.le ?_)
    have h1 := hpot fun i => R i p
    have h2 := hpot fun i => R i (p + 1)
    have h3 : 0 ≤ (1 - 3 * δ / 4) * pot m.omega (fun i => R i p) := mul_nonneg (by linarith) h1
    positivity
  have nT : ∀ p, ‖T p‖ ≤ b p := by
    intro p
    simp only [hT, hbd]
    rw [norm_smul, Real.norm_eq_abs, abs_of_pos (hfree p)]
    exact mul_le_mul_of_nonneg_left ((hb t ht ht1 _ _).1.trans (hle p)) (hfree p).le
  have nS : ∀ p, ‖S p‖ ≤ b p := by
    intro p
    simp only [hS, hbd]
    rw [norm_smul, Real.norm_eq_abs, abs_of_pos (hfree p)]
    exact mul_le_mul_of_nonneg_left ((hb t ht ht1 _ _).2.1.trans (hle p)) (hfree p).le
  have nd : ∀ p, ‖T p - S p‖ ≤ d p * b p := by
    intro p
    simp only [hT, hS, hbd]
    rw [← smul_sub, norm_smul, Real.norm_eq_abs, abs_of_pos (hfree p)]
    have h1 := (hb t ht ht1 (fun i => R i p) (fun i => R i (p + 1))).2.2
    set r := 1 + sq (fun i => R i p) + sq (fun i => R i (p + 1)) with hr
    have hr0 : 0 ≤ r := by
      have := sq_nonneg' fun i => R i p
      have := sq_nonneg' fun i => R i (p + 1)
      rw [hr]; linarith
    have hd0 : 0 ≤ t * ∑ i, |R i p - R i (p + 1)| := mul_nonneg ht.le (sum_nonneg fun _ _ => abs_nonneg _)
    have hE1 : Real.exp (C0 * (t * r)) ≤ Real.exp (C * (t * r)) :=
      Real.exp_le_exp.mpr (mul_le_mul_of_nonneg_right hCC (mul_nonneg ht.le hr0))
    have h2 : C0 * (t * ∑ i, |R i p - R i (p + 1)| + t ^ 2 * r ^ 2 * Real.exp (C0 * (t * r))) ≤ d p := by
      simp only [hdd]
      rw [← hr]
      refine mul_le_mul hCC (add_le_add le_rfl (mul_le_mul_of_nonneg_left hE1 (by positivity))) (by positivity) hC'
    have hdp : 0 ≤ d p := by
      simp only [hdd]
      rw [← hr]
      positivity
    calc _ ≤ free t m.omega R p * d p := mul_le_mul_of_nonneg_left (h1.trans h2) (hfree p).le
      _ ≤ free t m.omega R p * d p * _ := le_mul_of_one_le_right (mul_nonneg (hfree p).le hdp) (hone p)
      _ = _ := by ring
  have hprod : ∏ p, b p = Real.exp (P * t * C) * trial t m.omega (1 - δ / 2) R := by
    have hshift : ∑ p, pot m.omega (fun i => R i (p + 1)) = ∑ p, pot m.omega (fun i => R i p) :=
      Fintype.sum_equiv (Equiv.addRight 1) _ _ fun _ => rfl
    simp only [hbd, trial, prod_mul_distrib, ← Real.exp_sum, free]
    rw [mul_left_comm, ← Real.exp_add]
    congr 2
    simp only [← mul_sum, sum_add_distrib, hshift, sum_const, card_univ, Fintype.card_fin, nsmul_eq_mul]
    ring
  have hd : ∑ p, d p = errorSum C t R := rfl
  obtain ⟨n1, n2⟩ := norm_prod_sub_prod_le T S b d nT nS nd
  have n3 := (norm_prod_sub_prod_le S S b (fun _ => 0) nS nS (fun p => by simp)).1
  rw [hprod] at n1 n2 n3
  rw [hd] at n2
  have hpos : 0 ≤ Real.exp (P * t * C) * trial t m.omega (1 - δ / 2) R := (norm_nonneg _).trans n1
  have htr : ∀ (M : Matrix (Fin A) (Fin A) ℝ) (k : ℝ), ‖M‖ ≤ k → |M.trace| ≤ C * k := fun M k h =>
    (hc M).trans (mul_le_mul hCc h (norm_nonneg _) hC')
  rw [gExact_beads t ht m hv]
  refine ⟨htr _ _ n1, htr _ _ n3, ?_⟩
  unfold gPlain
  rw [← Matrix.trace_sub]
  exact htr _ _ n2

/-- Many beads: both integrands are integrable and their integrals agree. -/
theorem plain_limit (beta : ℝ) (hb : 0 < beta) (m : Vib A N) (hv : ∀ i, 0 < m.omega i) (hs : Symmetric m) (hm : Confined m) :
    ∃ K : ℝ, 0 ≤ K ∧ ∀ᶠ P : ℕ in atTop, ∀ [NeZero P],
      Integrable (fun R : BeadPath N P => gExact (beta / P) m R) ∧ Integrable (fun R : BeadPath N P => gPlain (beta / P) m R) ∧
      |(∫ R : BeadPath N P, gExact (beta / P) m R) - ∫ R : BeadPath N P, gPlain (beta / P) m R|
        ≤ K / Real.sqrt P * Real.sqrt (2 * Real.pi) ^ (N * P) := by
  obtain ⟨δ, hδ, hδ1, hcurv⟩ := confined_uniform m hv hm
  obtain ⟨C, hC, hprod⟩ := product_bounds m hv hs δ hδ hδ1 hcurv
  obtain ⟨ω, hω0, hω⟩ : ∃ ω, 0 < ω ∧ ∀ i, ω ≤ m.omega i := by
    rcases isEmpty_or_nonempty (Fin N) with h | h
    · exact ⟨1, one_pos, fun i => h.elim i⟩
    · obtain ⟨i, hi⟩ := Finite.exists_min m.omega
      exact ⟨m.omega i, hv i, hi⟩
  set η := min (1 / 2) (δ * ω / 16) with hη
  have hη0 : 0 < η := lt_min (by norm_num) (by positivity)
  have hη1 : 2 * η ≤ 1 := by have := min_le_left (1 / 2 : ℝ) (δ * ω / 16); rw [hη]; linarith
  have hη2 : η ≤ δ * ω / 16 := min_le_right _ _
  obtain ⟨C', hC', herr⟩ := errorSum_le beta hb m.omega hv C hC η hη0 hη1
  obtain ⟨D, hD, htri⟩ := trial_bounded beta hb m.omega hv (1 - δ / 4) (by linarith)
  set k := C * Real.exp (beta * C) with hk
  have hk0 : 0 ≤ k := by positivity
  refine ⟨k * C' * D, by positivity, ?_⟩
  filter_upwards [herr, htri, (tendsto_natCast_atTop_atTop (R := ℝ)).eventually_ge_atTop beta, eventually_ge_atTop 1]
    with P he ht hPb hP1 hne
  obtain ⟨hint, hbound⟩ := ht
  have hP0 : (0 : ℝ) < P := by exact_mod_cast hP1
  set t := beta / P with htd
  have ht0 : 0 < t := div_pos hb hP0
  have ht1 : t ≤ 1 := by rw [htd, div_le_one hP0]; exact hPb
  have htP : P * t = beta := by rw [htd]; field_simp
  have hw : ∀ i, 0 < t * m.omega i := fun i => mul_pos ht0 (hv i)
  have hpotsq : ∀ x : Fin N → ℝ, 2 * η * sq x ≤ δ / 4 * pot m.omega x := by
    intro x
    unfold sq pot
    rw [mul_sum, mul_sum]
    refine sum_le_sum fun i _ => ?_
    have h1 : 2 * η ≤ δ / 8 * m.omega i := by
      have := mul_le_mul_of_nonneg_left (hω i) (by positivity : 0 ≤ δ / 8)
      linarith
    have := mul_le_mul_of_nonneg_right h1 (sq_nonneg (x i))
    linarith
  have hweak : ∀ R : BeadPath N P, Real.exp (2 * η * (t * ∑ p, sq (fun i => R i p))) * trial t m.omega (1 - δ / 2) R
      ≤ trial t m.omega (1 - δ / 4) R := by
    intro R
    have h1 : Real.exp (2 * η * (t * ∑ p, sq (fun i => R i p))) ≤ Real.exp (∑ p, t * (δ / 4 * pot m.omega fun i => R i p)) := by
      refine Real.exp_le_exp.mpr ?_
      rw [mul_left_comm, mul_sum, mul_sum]
      exact sum_le_sum fun p _ => mul_le_mul_of_nonneg_left (hpotsq _) ht0.le
    refine (mul_le_mul_of_nonneg_right h1 (trial_pos t m.omega _ hw R).le).trans (le_of_eq ?_)
    rw [Real.exp_sum, trial, trial, ← prod_mul_distrib]
    refine prod_congr rfl fun p _ => ?_
    rw [mul_left_comm, ← Real.exp_add]
    congr 2
    ring
  have hspr : ∀ R : BeadPath N P, 1 ≤ Real.exp (spring t m.omega R / P) := fun R =>
    Real.one_le_exp (div_nonneg (spring_nonneg t m.omega hw R) hP0.le)
  set F : BeadPath N P → ℝ := fun R => trial t m.omega (1 - δ / 4) R * Real.exp (spring t m.omega R / P) with hF
  have hF0 : ∀ R, 0 ≤ F R := fun R => mul_nonneg (trial_pos t m.omega _ hw R).le (Real.exp_pos _).le
  have htrialF : ∀ R : BeadPath N P, trial t m.omega (1 - δ / 2) R ≤ F R := by
    intro R
    have h1 : trial t m.omega (1 - δ / 2) R ≤ Real.exp (2 * η * (t * ∑ p, sq (fun i => R i p))) * trial t m.omega (1 - δ / 2) R :=
      le_mul_of_one_le_left (trial_pos t m.omega _ hw R).le (Real.one_le_exp (mul_nonneg (by positivity)
        (mul_nonneg ht0.le (sum_nonneg fun p _ => sq_nonneg' _))))
    exact (h1.trans (hweak R)).trans (le_mul_of_one_le_right (trial_pos t m.omega _ hw R).le (hspr R))
  have hb1 : ∀ R : BeadPath N P, C * (Real.exp (P * t * C) * trial t m.omega (1 - δ / 2) R) ≤ k * F R := by
    intro R
    rw [htP, ← mul_assoc, ← hk]
    exact mul_le_mul_of_nonneg_left (htrialF R) hk0
  have hi1 : Integrable fun R : BeadPath N P => gExact t m R :=
    (hint.const_mul k).mono' (gSplit_continuous t t m).aestronglyMeasurable (Eventually.of_forall fun R => by
      rw [Real.norm_eq_abs]
      exact (hprod P t ht0 ht1 R).1.trans (hb1 R))
  have hi2 : Integrable fun R : BeadPath N P => gPlain t m R :=
    (hint.const_mul k).mono' (gPlain_continuous t m).aestronglyMeasurable (Eventually.of_forall fun R => by
      rw [Real.norm_eq_abs]
      exact (hprod P t ht0 ht1 R).2.1.trans (hb1 R))
  refine ⟨hi1, hi2, ?_⟩
  rw [← integral_sub hi1 hi2]
  have hdiff : ∀ R : BeadPath N P, ‖gExact t m R - gPlain t m R‖ ≤ k * (C' / Real.sqrt P) * F R := by
    intro R
    rw [Real.norm_eq_abs]
    refine (hprod P t ht0 ht1 R).2.2.trans ?_
    have h1 := he R
    have htp := (trial_pos t m.omega (1 - δ / 2) hw R).le
    have e1 : C * (errorSum C t R * (Real.exp (P * t * C) * trial t m.omega (1 - δ / 2) R))
        = k * (errorSum C t R * trial t m.omega (1 - δ / 2) R) := by rw [htP, hk]; ring
    rw [e1, mul_assoc k]
    refine mul_le_mul_of_nonneg_left ((mul_le_mul_of_nonneg_right h1 htp).trans ?_) hk0
    rw [Real.exp_add, mul_assoc]
    refine mul_le_mul_of_nonneg_left ?_ (by positivity)
    have h2 := mul_le_mul_of_nonneg_right (hweak R) (Real.exp_pos (spring t m.omega R / P)).le
    simp only [hF]
    linarith
  have h3 := norm_integral_le_of_norm_le (hint.const_mul (k * (C' / Real.sqrt P))) (Eventually.of_forall hdiff)
  rw [integral_const_mul, Real.norm_eq_abs] at h3
  refine h3.trans ((mul_le_mul_of_nonneg_left hbound (by positivity)).trans (le_of_eq ?_))
  ring

/-! ### the electronic basis -/

theorem terms_rotate (U : Matrix (Fin A) (Fin A) ℝ) (m : Vib A N) (x : Fin N → ℝ) :
    terms (rotate U m).energy (rotate U m).linear (rotate U m).quadratic x
      = U * terms m.energy m.linear m.quadratic x * U.transpose := by
  unfold terms rotate
  simp only [Matrix.mul_add, Matrix.add_mul, Matrix.mul_sum, Matrix.sum_mul, Matrix.mul_smul, Matrix.smul_mul]

theorem prod_conj {n : ℕ} (U V : Matrix (Fin A) (Fin A) ℝ) (h : V * U = 1) (T : Fin n → Matrix (Fin A) (Fin A) ℝ) :
    (List.ofFn fun p => U * T p * V).prod * U = U * (List.ofFn T).prod := by
  induction n with
  | zero => simp
  | succ n ih =>
    rw [List.ofFn_succ, List.ofFn_succ, List.prod_cons, List.prod_cons, Matrix.mul_assoc, ih (fun p => T p.succ)]
    rw [Matrix.mul_assoc, ← Matrix.mul_assoc V, h, Matrix.one_mul, Matrix.mul_assoc]

theorem gPlain_rotate {P : ℕ} [NeZero P] (U : Matrix (Fin A) (Fin A) ℝ) (hU : U.transpose * U = 1) (t : ℝ) (m : Vib A N)
    (R : BeadPath N P) : gPlain t (rotate U m) R = gPlain t m R := by
  have hU' : U * U.transpose = 1 := mul_eq_one_comm.mp hU
  have hinv : U⁻¹ = U.transpose := Matrix.inv_eq_right_inv hU'
  have hunit : IsUnit U := ⟨⟨U, U.transpose, hU', hU⟩, rfl⟩
  have hbead : ∀ p : Fin P, free t (rotate U m).omega R p
      • NormedSpace.exp (-t • terms (rotate U m).energy (rotate U m).linear (rotate U m).quadratic fun i => R i p)
      = U * (free t m.omega R p • NormedSpace.exp (-t • terms m.energy m.linear m.quadratic fun i => R i p)) * U.transpose := by
    intro p
    rw [terms_rotate, ← Matrix.smul_mul, ← Matrix.mul_smul, ← hinv, Matrix.exp_conj _ _ hunit, Matrix.mul_smul, Matrix.smul_mul]
    rfl
  unfold gPlain
  simp only [hbead]
  have h1 := prod_conj U U.transpose hU fun p : Fin P =>
    free t m.omega R p • NormedSpace.exp (-t • terms m.energy m.linear m.quadratic fun i => R i p)
  have h2 := congrArg (fun M => M * U.transpose) h1
  simp only [Matrix.mul_assoc, hU', Matrix.mul_one] at h2
  simp only [Matrix.mul_assoc]
  rw [h2, Matrix.trace_mul_comm, Matrix.mul_assoc, hU, Matrix.mul_one]

theorem rotate_symm (U : Matrix (Fin A) (Fin A) ℝ) (m : Vib A N) (hm : Symmetric m) : Symmetric (rotate U m) := by
  have h : ∀ M : Matrix (Fin A) (Fin A) ℝ, M.IsSymm → (U * M * U.transpose).IsSymm := by
    intro M hM
    unfold Matrix.IsSymm
    rw [Matrix.transpose_mul, Matrix.transpose_mul, Matrix.transpose_transpose, hM.eq, Matrix.mul_assoc]
  exact ⟨h _ hm.1, fun i => h _ (hm.2.1 i), fun i j => h _ (hm.2.2 i j)⟩

theorem rotate_confined (U : Matrix (Fin A) (Fin A) ℝ) (hU : U.transpose * U = 1) (m : Vib A N) (hm : Confined m) :
    Confined (rotate U m) := by
  intro x hx v hv
  have hU' : U * U.transpose = 1 := mul_eq_one_comm.mp hU
  have hv' : U.transpose.mulVec v ≠ 0 := by
    intro h
    have := congrArg U.mulVec h
    rw [Matrix.mulVec_mulVec, hU', Matrix.one_mulVec, Matrix.mulVec_zero] at this
    exact hv this
  have h := hm x hx _ hv'
  have e1 : ∑ a, U.transpose.mulVec v a ^ 2 = ∑ a, v a ^ 2 := by
    have h1 : ∀ u : Fin A → ℝ, ∑ a, u a ^ 2 = u ⬝ᵥ u := fun u => sum_congr rfl fun a _ => pow_two _
    rw [h1, h1, Matrix.dotProduct_mulVec, Matrix.vecMul_transpose, Matrix.mulVec_mulVec, hU', Matrix.one_mulVec]
  have e2 : ∀ (M : Matrix (Fin A) (Fin A) ℝ) (u : Fin A → ℝ), ∑ a, ∑ b, u a * M a b * u b = u ⬝ᵥ M.mulVec u := by
    intro M u
    simp only [dotProduct, Matrix.mulVec, mul_sum, mul_assoc]
  have e3 : ∀ M : Matrix (Fin A) (Fin A) ℝ, ∑ a, ∑ b, U.transpose.mulVec v a * M a b * U.transpose.mulVec v b
      = ∑ a, ∑ b, v a * (U * M * U.transpose) a b * v b := by
    intro M
    rw [e2, e2, Matrix.mulVec_mulVec, dotProduct_comm, Matrix.dotProduct_mulVec, Matrix.vecMul_transpose,
      Matrix.mulVec_mulVec, ← Matrix.mul_assoc, dotProduct_comm]
  unfold curvature at h ⊢
  simp only [e1, e3] at h
  exact h

end Pibronic.PIMC
