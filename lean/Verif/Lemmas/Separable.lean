import Verif.Lemmas.LieProduct
import Verif.Lemmas.Circulant
import Verif.Spec.Separable
import Verif.Lemmas.Integrable
import Mathlib.Analysis.SpecialFunctions.Arsinh
import Mathlib.Analysis.Calculus.DSlope

set_option autoImplicit false
set_option linter.unusedSectionVars false

/-! The discretised partition function of a separable system. -/
namespace Pibronic.PIMC
open Finset Spec.PIMC MeasureTheory Filter Topology

/-! ### one mode -/

section
variable {P : ℕ} [NeZero P]

theorem affine_preserves (V : Matrix (Fin P) (Fin P) ℝ) (hV : V.transpose * V = 1) (e : ℝ) :
    MeasurePreserving (fun x : Fin P → ℝ => Matrix.toLin' V x + fun _ => e) volume volume := by
  have hdet : |V.det| = 1 := by
    have h := congrArg Matrix.det hV
    rw [Matrix.det_mul, Matrix.det_transpose, Matrix.det_one] at h
    rcases mul_self_eq_one_iff.mp h with h | h <;> simp [h]
  have hne : V.det ≠ 0 := by intro h; simp [h] at hdet
  have h1 : MeasurePreserving (Matrix.toLin' V) (volume : Measure (Fin P → ℝ)) volume := by
    refine ⟨(LinearMap.continuous_of_finiteDimensional _).measurable, ?_⟩
    rw [Real.map_matrix_volume_pi_eq_smul_volume_pi hne, abs_inv, hdet, inv_one, ENNReal.ofReal_one,
      one_smul]
  exact (measurePreserving_add_right volume _).comp h1

/-- The closed product of propagators with an additional quadratic term, relative to the lowest point `c + d`. -/
theorem prod_propagator_quadratic (hP : 3 ≤ P) (V : Matrix (Fin P) (Fin P) ℝ) (v : Fin P → ℝ)
    (hV : V.transpose * V = 1) (hC : circulant P = V * Matrix.diagonal v * V.transpose) (t w s c d : ℝ)
    (hu : 0 < t * w)
    (hd : 2 * d * (Real.cosh (t * w) - 1) + s * (d + c) * Real.sinh (t * w) = 0) (z : Fin P → ℝ) :
    ∏ p, (propagator t w (z p + d) (z (p + 1) + d) * Real.exp (-(s / 2) * (z p + d + c) ^ 2))
      = Real.exp (-(1 / 2) * ∑ p, (2 * (Real.tanh (t * w))⁻¹ + s - (Real.sinh (t * w))⁻¹ * v p)
          * (∑ i, V i p * z i) ^ 2) / Real.sqrt (Real.sinh (t * w)) ^ P
        * Real.exp (-(P * (d ^ 2 * (Real.cosh (t * w) - 1) / Real.sinh (t * w) + s / 2 * (d + c) ^ 2))) := by
  have hs : 0 < Real.sinh (t * w) := Real.sinh_pos_iff.mpr hu
  unfold propagator
  rw [prod_mul_distrib, prod_div_distrib, prod_const, card_univ, Fintype.card_fin, ← Real.exp_sum, ← Real.exp_sum,
    div_mul_eq_mul_div, div_mul_eq_mul_div, ← Real.exp_add, ← Real.exp_add]
  congr 2
  have h1 := diag_form _ V v hC z
  rw [circulant_form P hP] at h1
  have h2 := ortho_form V hV z
  have h3 : ∑ p, z (p + 1) ^ 2 = ∑ p, z p ^ 2 :=
    Fintype.sum_equiv (Equiv.addRight 1) _ _ fun _ => rfl
  have h4 : ∑ p, z (p + 1) = ∑ p, z p :=
    Fintype.sum_equiv (Equiv.addRight 1) _ _ fun _ => rfl
  have e : ∀ p, -(((z p + d) ^ 2 + (z (p + 1) + d) ^ 2) * Real.cosh (t * w) - 2 * (z p + d) * (z (p + 1) + d))
      / (2 * Real.sinh (t * w))
      = -(Real.cosh (t * w) / (2 * Real.sinh (t * w))) * z p ^ 2
        + -(Real.cosh (t * w) / (2 * Real.sinh (t * w))) * z (p + 1) ^ 2
        + (1 / Real.sinh (t * w)) * (z p * z (p + 1))
        + -(d * (Real.cosh (t * w) - 1) / Real.sinh (t * w)) * z p
        + -(d * (Real.cosh (t * w) - 1) / Real.sinh (t * w)) * z (p + 1)
        + -(d ^ 2 * (Real.cosh (t * w) - 1) / Real.sinh (t * w)) := by
    intro p; field_simp; ring
  have e2 : ∀ p, -(s / 2) * (z p + d + c) ^ 2
      = -(s / 2) * z p ^ 2 + -(s * (d + c)) * z p + -(s / 2 * (d + c) ^ 2) := by
    intro p; ring
  simp only [e, e2, sum_add_distrib, ← mul_sum, h3, h4, sum_const, card_univ, Fintype.card_fin, nsmul_eq_mul]
  simp only [add_mul, sub_mul, sum_sub_distrib, sum_add_distrib, mul_assoc]
  rw [← mul_sum, ← mul_sum, ← mul_sum, ← mul_sum, ← h1, h2, Real.tanh_eq_sinh_div_cosh]
  generalize ∑ p, z p ^ 2 = S2
  generalize ∑ p, z p * z (p + 1) = S1
  generalize ∑ p, z p = S0
  field_simp
  linear_combination (-S0 * 2) * hd

/-- The value of the action at its lowest point. -/
theorem least_action (k s c : ℝ) (h : 2 * k + s ≠ 0) :
    (-(s * c) / (2 * k + s)) ^ 2 * k + s / 2 * (-(s * c) / (2 * k + s) + c) ^ 2 = c ^ 2 * (k * s / (2 * k + s)) := by
  field_simp
  ring

theorem tanh_half_eq (x : ℝ) (hx : 0 < x) : (Real.cosh x - 1) / Real.sinh x = Real.tanh (x / 2) := by
  have h : x = 2 * (x / 2) := by ring
  have hs : 0 < Real.sinh (x / 2) := Real.sinh_pos_iff.mpr (half_pos hx)
  have hc := Real.cosh_pos (x / 2)
  conv_lhs => rw [h]
  rw [Real.cosh_two_mul, Real.sinh_two_mul, Real.tanh_eq_sinh_div_cosh, Real.cosh_sq]
  field_simp
  ring

/-- The integral over the beads of one mode. -/
theorem mode_integral (hP : 3 ≤ P) (t w s c θ : ℝ) (hu : 0 < t * w) (hs : 0 < 2 * Real.tanh (t * w / 2) + s)
    (hθ : 0 < θ) (hc : Real.cosh θ = Real.cosh (t * w) + s / 2 * Real.sinh (t * w)) :
    ∫ x : Fin P → ℝ, ∏ p, (propagator t w (x p - c) (x (p + 1) - c) * Real.exp (-(s / 2) * x p ^ 2))
      = Real.sqrt (2 * Real.pi) ^ P * ((2 * Real.sinh (P * θ / 2))⁻¹
        * Real.exp (-(P * (c ^ 2 * (Real.tanh (t * w / 2) * s / (2 * Real.tanh (t * w / 2) + s)))))) := by
  obtain ⟨eigh, he⟩ := eigh_exists
  obtain ⟨hV, hC⟩ := he P (circulant P) (circulant_isSymm P hP)
  have hpe := prod_eigvals P hP eigh he θ
  have hle := eigval_le_two P hP eigh he
  set V := (eigh P (circulant P)).2
  set v := (eigh P (circulant P)).1
  have hsh : 0 < Real.sinh (t * w) := Real.sinh_pos_iff.mpr hu
  set k := Real.tanh (t * w / 2) with hk
  have hkd : (Real.cosh (t * w) - 1) = k * Real.sinh (t * w) := by
    rw [hk, ← tanh_half_eq _ hu]; field_simp
  set d := -(s * c) / (2 * k + s) with hd
  have hdd : 2 * d * (Real.cosh (t * w) - 1) + s * (d + c) * Real.sinh (t * w) = 0 := by
    rw [hkd, hd]; field_simp; ring
  have hT := affine_preserves V hV (d + c)
  have hcont : Continuous fun x : Fin P → ℝ => ∏ p, (propagator t w (x p - c) (x (p + 1) - c)
      * Real.exp (-(s / 2) * x p ^ 2)) := by
    unfold propagator; fun_prop
  rw [← hT.map_eq, integral_map hT.measurable.aemeasurable hcont.aestronglyMeasurable]
  have hpt : ∀ u : Fin P → ℝ, (∏ p, (propagator t w ((Matrix.toLin' V u + (fun _ => d + c) : Fin P → ℝ) p - c)
      ((Matrix.toLin' V u + (fun _ => d + c) : Fin P → ℝ) (p + 1) - c)
      * Real.exp (-(s / 2) * (Matrix.toLin' V u + (fun _ => d + c) : Fin P → ℝ) p ^ 2)))
      = (∏ p, Real.exp (-((2 * (Real.tanh (t * w))⁻¹ + s - (Real.sinh (t * w))⁻¹ * v p) / 2) * u p ^ 2))
        * ((Real.sqrt (Real.sinh (t * w)) ^ P)⁻¹
        * Real.exp (-(P * (c ^ 2 * (k * s / (2 * k + s)))))) := by
    intro u
    have h := prod_propagator_quadratic hP V v hV hC t w s c d hu hdd (Matrix.toLin' V u)
    simp only [Pi.add_apply, ← add_assoc, add_sub_cancel_right]
    rw [h]
    have hVu : ∀ p, ∑ i, V i p * Matrix.toLin' V u i = u p := by
      intro p
      have : (V.transpose).mulVec (V.mulVec u) = u := by rw [Matrix.mulVec_mulVec, hV, Matrix.one_mulVec]
      have := congrFun this p
      simpa [Matrix.mulVec, dotProduct] using this
    simp only [hVu]
    rw [← Real.exp_sum, mul_sum, div_eq_mul_inv, mul_assoc, hkd]
    congr 2
    · refine sum_congr rfl fun p _ => by ring
    · congr 3
      rw [← least_action k s c hs.ne', ← hd, ← mul_assoc, mul_div_assoc, div_self hsh.ne', mul_one]
  simp only [hpt]
  rw [integral_mul_const, integral_fintype_prod_volume_eq_prod
    (fun p (y : ℝ) => Real.exp (-((2 * (Real.tanh (t * w))⁻¹ + s - (Real.sinh (t * w))⁻¹ * v p) / 2) * y ^ 2))]
  simp only [integral_gaussian]
  have hkp : ∀ p, (2 * (Real.tanh (t * w))⁻¹ + s - (Real.sinh (t * w))⁻¹ * v p) * Real.sinh (t * w)
      = 2 * Real.cosh θ - v p := by
    intro p
    rw [Real.tanh_eq_sinh_div_cosh, hc]; field_simp
  have hkp0 : ∀ p, 0 < 2 * (Real.tanh (t * w))⁻¹ + s - (Real.sinh (t * w))⁻¹ * v p := by
    intro p
    have h1 : 0 < 2 * Real.cosh θ - v p := by
      have := Real.one_lt_cosh.mpr hθ.ne'
      linarith [hle p]
    rw [← hkp p] at h1
    exact (pos_iff_pos_of_mul_pos h1).mpr hsh
  have hS : 0 < Real.sinh (P * θ / 2) := by
    have hP0 : (0 : ℝ) < P := by exact_mod_cast Nat.pos_of_ne_zero (NeZero.ne P)
    exact Real.sinh_pos_iff.mpr (by positivity)
  rw [← mul_assoc, ← mul_assoc (Real.sqrt (2 * Real.pi) ^ P)]
  congr 1
  have h1 : ∀ p, Real.sqrt (Real.pi / ((2 * (Real.tanh (t * w))⁻¹ + s - (Real.sinh (t * w))⁻¹ * v p) / 2))
      = Real.sqrt (2 * Real.pi) * Real.sqrt (Real.sinh (t * w)) * (Real.sqrt (2 * Real.cosh θ - v p))⁻¹ := by
    intro p
    have h0 := hkp0 p
    rw [← hkp p, Real.sqrt_mul h0.le, mul_inv]
    generalize 2 * (Real.tanh (t * w))⁻¹ + s - (Real.sinh (t * w))⁻¹ * v p = x at h0 ⊢
    rw [show Real.pi / (x / 2) = (2 * Real.pi) * x⁻¹ by field_simp, Real.sqrt_mul (by positivity), Real.sqrt_inv]
    have h2 := Real.sqrt_pos.mpr h0
    have h3 := Real.sqrt_pos.mpr hsh
    field_simp
  have h2 : ∏ p, Real.sqrt (2 * Real.cosh θ - v p) = 2 * Real.sinh (P * θ / 2) := by
    rw [← sq_eq_sq₀ (prod_nonneg fun _ _ => Real.sqrt_nonneg _) (by positivity), ← prod_pow, mul_pow]
    rw [prod_congr rfl fun p _ => Real.sq_sqrt (by rw [← hkp p]; exact (mul_pos (hkp0 p) hsh).le), hpe]
    norm_num
  simp only [h1]
  rw [prod_mul_distrib, prod_const, card_univ, Fintype.card_fin, prod_inv_distrib, h2, mul_pow]
  have h3 := pow_pos (Real.sqrt_pos.mpr hsh) P
  field_simp

end

/-! ### the limit of many beads -/

/-- A function with `f 0 = 0` is linear for small arguments. -/
theorem tendsto_nat_mul (f : ℝ → ℝ) (f' L : ℝ) (h0 : f 0 = 0) (hf : HasDerivAt f f' 0) (a : ℕ → ℝ)
    (ha : Tendsto a atTop (𝓝 0)) (hL : Tendsto (fun n : ℕ => n * a n) atTop (𝓝 L)) :
    Tendsto (fun n : ℕ => n * f (a n)) atTop (𝓝 (f' * L)) := by
  have h1 : ContinuousAt (dslope f 0) 0 := continuousAt_dslope_same.mpr hf.differentiableAt
  have h2 := (h1.tendsto.comp ha).mul hL
  rw [dslope_same, hf.deriv] at h2
  refine h2.congr fun n => ?_
  have h := sub_smul_dslope f 0 (a n)
  rw [h0, sub_zero, sub_zero, smul_eq_mul] at h
  simp only [Function.comp]
  rw [← h]
  ring

theorem tendsto_div_nat (c : ℝ) : Tendsto (fun n : ℕ => c / n) atTop (𝓝 0) :=
  tendsto_const_nhds.div_atTop tendsto_natCast_atTop_atTop

theorem tendsto_nat_mul_div (c : ℝ) : Tendsto (fun n : ℕ => n * (c / n)) atTop (𝓝 c) := by
  refine tendsto_const_nhds.congr' ?_
  filter_upwards [eventually_gt_atTop 0] with n hn
  have : (n : ℝ) ≠ 0 := by exact_mod_cast hn.ne'
  field_simp

theorem hasDerivAt_tanh_zero : HasDerivAt Real.tanh 1 0 := by
  have h := (Real.hasDerivAt_sinh 0).div (Real.hasDerivAt_cosh 0) (Real.cosh_pos 0).ne'
  have e : Real.tanh = fun x => Real.sinh x / Real.cosh x := funext Real.tanh_eq_sinh_div_cosh
  rw [e]
  exact h.congr_deriv (by simp)

theorem tendsto_nat_mul_tanh (c : ℝ) : Tendsto (fun n : ℕ => n * Real.tanh (c / n)) atTop (𝓝 c) := by
  simpa using tendsto_nat_mul _ 1 c (by simp) hasDerivAt_tanh_zero _ (tendsto_div_nat c) (tendsto_nat_mul_div c)

theorem tendsto_nat_mul_sinh (c : ℝ) : Tendsto (fun n : ℕ => n * Real.sinh (c / n)) atTop (𝓝 c) := by
  have h := Real.hasDerivAt_sinh 0
  rw [Real.cosh_zero] at h
  simpa using tendsto_nat_mul _ 1 c (by simp) h _ (tendsto_div_nat c) (tendsto_nat_mul_div c)

/-- Half the angle `θ` with `cosh θ = cosh (t w) + t q / 2 * sinh (t w)`. -/
noncomputable def halfAngle (t w q : ℝ) : ℝ :=
  Real.arsinh (Real.sqrt (Real.sinh (t * w / 2) * (Real.sinh (t * w / 2) + t * q / 2 * Real.cosh (t * w / 2))))

theorem radicand_pos (t w q : ℝ) (hu : 0 < t * w) (hs : 0 < 2 * Real.tanh (t * w / 2) + t * q) :
    0 < Real.sinh (t * w / 2) * (Real.sinh (t * w / 2) + t * q / 2 * Real.cosh (t * w / 2)) := by
  have h1 : 0 < Real.sinh (t * w / 2) := Real.sinh_pos_iff.mpr (half_pos hu)
  have h2 := Real.cosh_pos (t * w / 2)
  refine mul_pos h1 ?_
  rw [Real.tanh_eq_sinh_div_cosh] at hs
  have h3 := mul_pos hs h2
  have e : (2 * (Real.sinh (t * w / 2) / Real.cosh (t * w / 2)) + t * q) * Real.cosh (t * w / 2)
    = 2 * (Real.sinh (t * w / 2) + t * q / 2 * Real.cosh (t * w / 2)) := by field_simp
  rw [e] at h3
  linarith

theorem halfAngle_pos (t w q : ℝ) (hu : 0 < t * w) (hs : 0 < 2 * Real.tanh (t * w / 2) + t * q) :
    0 < halfAngle t w q :=
  Real.arsinh_pos_iff.mpr (Real.sqrt_pos.mpr (radicand_pos t w q hu hs))

theorem cosh_halfAngle (t w q : ℝ) (hu : 0 < t * w) (hs : 0 < 2 * Real.tanh (t * w / 2) + t * q) :
    Real.cosh (2 * halfAngle t w q) = Real.cosh (t * w) + t * q / 2 * Real.sinh (t * w) := by
  have h := radicand_pos t w q hu hs
  have e : t * w = 2 * (t * w / 2) := by ring
  rw [Real.cosh_two_mul, Real.cosh_sq, halfAngle, Real.sinh_arsinh, Real.sq_sqrt h.le]
  conv_rhs => rw [e, Real.cosh_two_mul, Real.sinh_two_mul, Real.cosh_sq]
  ring

theorem tendsto_halfAngle (beta w q : ℝ) (hb : 0 < beta) :
    Tendsto (fun n : ℕ => n * halfAngle (beta / n) w q) atTop (𝓝 (beta * Real.sqrt (w * (w + q)) / 2)) := by
  have e : ∀ n : ℕ, beta / n * w / 2 = beta * w / 2 / n := fun n => by ring
  have hs := tendsto_nat_mul_sinh (beta * w / 2)
  have hc : Tendsto (fun n : ℕ => Real.cosh (beta * w / 2 / n)) atTop (𝓝 1) := by
    have := (Real.continuous_cosh.tendsto 0).comp (tendsto_div_nat (beta * w / 2))
    rwa [Real.cosh_zero] at this
  have hn : Tendsto (fun n : ℕ => Real.sqrt ((n * Real.sinh (beta * w / 2 / n))
      * (n * Real.sinh (beta * w / 2 / n) + n * (beta * q / 2 / n) * Real.cosh (beta * w / 2 / n)))) atTop
      (𝓝 (Real.sqrt (beta * w / 2 * (beta * w / 2 + beta * q / 2 * 1)))) :=
    (Real.continuous_sqrt.tendsto _).comp (hs.mul (hs.add ((tendsto_nat_mul_div _).mul hc)))
  have hn' : Tendsto (fun n : ℕ => n * Real.sqrt (Real.sinh (beta / n * w / 2) * (Real.sinh (beta / n * w / 2)
      + beta / n * q / 2 * Real.cosh (beta / n * w / 2)))) atTop (𝓝 (beta * Real.sqrt (w * (w + q)) / 2)) := by
    have e2 : Real.sqrt (beta * w / 2 * (beta * w / 2 + beta * q / 2 * 1)) = beta * Real.sqrt (w * (w + q)) / 2 := by
      rw [show beta * w / 2 * (beta * w / 2 + beta * q / 2 * 1) = (beta / 2) ^ 2 * (w * (w + q)) by ring,
        Real.sqrt_mul (by positivity), Real.sqrt_sq (by positivity)]
      ring
    rw [e2] at hn
    refine hn.congr fun n => ?_
    rw [e n, show (n : ℝ) * Real.sinh (beta * w / 2 / n) * (n * Real.sinh (beta * w / 2 / n)
      + n * (beta * q / 2 / n) * Real.cosh (beta * w / 2 / n)) = (n : ℝ) ^ 2 * (Real.sinh (beta * w / 2 / n)
      * (Real.sinh (beta * w / 2 / n) + beta / n * q / 2 * Real.cosh (beta * w / 2 / n))) by ring,
      Real.sqrt_mul (by positivity), Real.sqrt_sq (by positivity)]
  have ha : Tendsto (fun n : ℕ => Real.sqrt (Real.sinh (beta / n * w / 2) * (Real.sinh (beta / n * w / 2)
      + beta / n * q / 2 * Real.cosh (beta / n * w / 2)))) atTop (𝓝 0) := by
    have h := hn'.div_atTop (tendsto_natCast_atTop_atTop (R := ℝ))
    refine h.congr' ?_
    filter_upwards [eventually_gt_atTop 0] with n hn
    have : (n : ℝ) ≠ 0 := by exact_mod_cast hn.ne'
    field_simp
  have hd := Real.hasDerivAt_arsinh 0
  have h := tendsto_nat_mul _ 1 _ Real.arsinh_zero (by simpa using hd) _ ha hn'
  rw [one_mul] at h
  exact h

/-- The factor of one mode, for `P` beads. -/
noncomputable def modeFactor (beta w l q : ℝ) (P : ℕ) : ℝ :=
  Real.exp (beta * (l ^ 2 / (2 * w))) * ((2 * Real.sinh (P * halfAngle (beta / P) w q))⁻¹
    * Real.exp (-(P * ((-l / w) ^ 2 * (Real.tanh (beta / P * w / 2) * (beta / P * q)
      / (2 * Real.tanh (beta / P * w / 2) + beta / P * q))))))

theorem tendsto_modeFactor (beta w l q : ℝ) (hb : 0 < beta) (hw : 0 < w) (hq : 0 < w + q) :
    Tendsto (modeFactor beta w l q) atTop (𝓝 (Real.exp (beta * (l ^ 2 / (2 * (w + q))))
      * (2 * Real.sinh (beta * Real.sqrt (w * (w + q)) / 2))⁻¹)) := by
  have hS : 0 < Real.sinh (beta * Real.sqrt (w * (w + q)) / 2) :=
    Real.sinh_pos_iff.mpr (half_pos (mul_pos hb (Real.sqrt_pos.mpr (mul_pos hw hq))))
  have h1 := ((Real.continuous_sinh.tendsto _).comp (tendsto_halfAngle beta w q hb)).const_mul 2
  have h1 := h1.inv₀ (by positivity)
  have hk := tendsto_nat_mul_tanh (beta * w / 2)
  have hq' := tendsto_nat_mul_div (beta * q)
  have h2 := (hk.mul hq').div ((hk.const_mul 2).add hq') (by have := mul_pos hb hq; nlinarith)
  have h3 := (Real.continuous_exp.tendsto _).comp ((h2.const_mul ((-l / w) ^ 2)).neg)
  have h4 := (h1.mul h3).const_mul (Real.exp (beta * (l ^ 2 / (2 * w))))
  have e : Real.exp (beta * (l ^ 2 / (2 * w))) * ((2 * Real.sinh (beta * Real.sqrt (w * (w + q)) / 2))⁻¹
      * Real.exp (-((-l / w) ^ 2 * (beta * w / 2 * (beta * q) / (2 * (beta * w / 2) + beta * q)))))
      = Real.exp (beta * (l ^ 2 / (2 * (w + q)))) * (2 * Real.sinh (beta * Real.sqrt (w * (w + q)) / 2))⁻¹ := by
    rw [mul_comm (2 * _)⁻¹, ← mul_assoc, ← Real.exp_add]
    congr 2
    have h5 : 2 * (beta * w / 2) + beta * q = beta * (w + q) := by ring
    rw [h5]
    field_simp
    ring
  rw [e] at h4
  refine h4.congr' ?_
  filter_upwards [eventually_gt_atTop 0] with n hn
  have hn0 : (n : ℝ) ≠ 0 := by exact_mod_cast hn.ne'
  simp only [Function.comp, modeFactor, Pi.div_apply]
  congr 4
  rw [show beta / n * w / 2 = beta * w / 2 / n by ring]
  have e6 : (2 * ((n : ℝ) * Real.tanh (beta * w / 2 / n)) + n * (beta * q / n))
    = n * (2 * Real.tanh (beta * w / 2 / n) + beta / n * q) := by ring
  rw [e6, show (n : ℝ) * Real.tanh (beta * w / 2 / n) * (n * (beta * q / n))
    = n * (n * (Real.tanh (beta * w / 2 / n) * (beta / n * q))) by ring, mul_div_mul_left _ _ hn0]
  ring

/-! ### all modes and surfaces -/

attribute [local instance] Matrix.linftyOpNormedRing Matrix.linftyOpNormedAlgebra
  Matrix.linfty_opNormOneClass

theorem prod_ofFn_smul {A n : ℕ} (c : Fin n → ℝ) (M : Matrix (Fin A) (Fin A) ℝ) :
    (List.ofFn fun p => c p • M).prod = (∏ p, c p) • M ^ n := by
  induction n with
  | zero => simp
  | succ n ih =>
    rw [List.ofFn_succ, List.prod_cons, Fin.prod_univ_succ, ih, smul_mul_smul_comm, pow_succ']

section
variable {A N P : ℕ} [NeZero A] [NeZero P]

/-- The constants that couple different surfaces. -/
def offDiagonal (m : Vib A N) : Matrix (Fin A) (Fin A) ℝ := m.energy - Matrix.diagonal fun a => m.energy a a

theorem remainder_separable (m : Vib A N) (hw : ∀ i, 0 < m.omega i) (l q : Fin N → ℝ) (hm : Separable m l q)
    (R : BeadPath N P) (p : Fin P) :
    remainder m R p = offDiagonal m + (∑ i, q i * R i p ^ 2 / 2) • (1 : Matrix (Fin A) (Fin A) ℝ) := by
  obtain ⟨hl, hq⟩ := hm
  have h1 : ∀ a, oscillator m a (fun i => R i p)
      = m.energy a a + ∑ i, (m.omega i * R i p ^ 2 / 2 + R i p * l i) := by
    intro a
    unfold oscillator bottom centre
    rw [sub_eq_add_neg, add_assoc, ← sum_neg_distrib, ← sum_add_distrib]
    congr 1
    refine sum_congr rfl fun i _ => ?_
    have := (hw i).ne'
    simp only [hl, Matrix.smul_apply, Matrix.one_apply_eq, smul_eq_mul, mul_one]
    field_simp
    ring
  ext a b
  unfold remainder potential offDiagonal
  simp only [h1, hl, hq, Matrix.add_apply, Matrix.sub_apply, Matrix.smul_apply, Matrix.sum_apply, smul_eq_mul,
    Matrix.diagonal_apply, Matrix.one_apply]
  by_cases h : a = b
  · subst h
    simp only [if_true, mul_one, sum_add_distrib, apply_ite (fun M : Matrix (Fin A) (Fin A) ℝ => M a a), Matrix.smul_apply,
      Matrix.one_apply_eq, Matrix.zero_apply, smul_eq_mul, mul_ite, mul_zero, sum_ite_eq, mem_univ, sub_self, zero_add]
    have : ∀ i, R i p * R i p / 2 * q i = q i * R i p ^ 2 / 2 := fun i => by ring
    simp only [this]
    ring
  · simp only [h, if_false, mul_zero, sum_const_zero, add_zero, sub_zero,
      apply_ite (fun M : Matrix (Fin A) (Fin A) ℝ => M a b), Matrix.smul_apply, Matrix.one_apply_ne h,
      Matrix.zero_apply, smul_eq_mul, ite_self]

theorem exp_add_scalar (M : Matrix (Fin A) (Fin A) ℝ) (t c : ℝ) :
    NormedSpace.exp (-t • (M + c • (1 : Matrix (Fin A) (Fin A) ℝ))) = Real.exp (-t * c) • NormedSpace.exp (-t • M) := by
  rw [smul_add, smul_smul, Matrix.exp_add_of_commute _ _ ((Commute.one_right _).smul_right _)]
  rw [Matrix.smul_one_eq_diagonal, Matrix.exp_diagonal]
  have h : NormedSpace.exp (fun _ : Fin A => -t * c) = fun _ => Real.exp (-t * c) := by
    funext a
    rw [Pi.coe_exp, Real.exp_eq_exp_ℝ]
  rw [h]
  ext a b
  rw [Matrix.mul_diagonal, Matrix.smul_apply, smul_eq_mul, mul_comm]

theorem gSplit_separable (m : Vib A N) (hw : ∀ i, 0 < m.omega i) (l q : Fin N → ℝ) (hm : Separable m l q)
    (s t : ℝ) (R : BeadPath N P) :
    gSplit s t m R = (Real.exp (P * t * ∑ i, l i ^ 2 / (2 * m.omega i))
        * ((NormedSpace.exp (s • -offDiagonal m) * NormedSpace.exp (t • -(m.energy - offDiagonal m))) ^ P).trace)
      * ∏ i, ∏ p, (propagator t (m.omega i) (R i p - -l i / m.omega i) (R i (p + 1) - -l i / m.omega i)
        * Real.exp (-(s * q i / 2) * R i p ^ 2)) := by
  have hstep : ∀ p a, step t (m.energy a a) (fun i => m.linear i a a) m.omega R p
      = Real.exp (-t * m.energy a a) * (Real.exp (t * ∑ i, l i ^ 2 / (2 * m.omega i))
        * ∏ i, propagator t (m.omega i) (R i p - -l i / m.omega i) (R i (p + 1) - -l i / m.omega i)) := by
    intro p a
    unfold step bottom centre
    simp only [hm.1, Matrix.smul_apply, Matrix.one_apply_eq, smul_eq_mul, mul_one]
    rw [← mul_assoc, ← Real.exp_add]
    congr 2
    ring
  have hdiag : NormedSpace.exp (t • -(m.energy - offDiagonal m))
      = Matrix.diagonal fun a => Real.exp (-t * m.energy a a) := by
    have e : t • -(m.energy - offDiagonal m) = Matrix.diagonal fun a => -t * m.energy a a := by
      ext a b
      by_cases h : a = b
      · subst h; simp [offDiagonal]
      · simp [offDiagonal, h]
    rw [e, Matrix.exp_diagonal]
    congr 1
    funext a
    rw [Pi.coe_exp, Real.exp_eq_exp_ℝ]
  have hb : ∀ p, NormedSpace.exp (-s • remainder m R p) * (Matrix.diagonal fun a =>
      step t (m.energy a a) (fun i => m.linear i a a) m.omega R p)
      = (Real.exp (t * ∑ i, l i ^ 2 / (2 * m.omega i)) * ∏ i, (propagator t (m.omega i) (R i p - -l i / m.omega i)
          (R i (p + 1) - -l i / m.omega i) * Real.exp (-(s * q i / 2) * R i p ^ 2)))
        • (NormedSpace.exp (s • -offDiagonal m) * NormedSpace.exp (t • -(m.energy - offDiagonal m))) := by
    intro p
    rw [remainder_separable m hw l q hm, exp_add_scalar, hdiag, smul_neg, ← neg_smul]
    have e : (Matrix.diagonal fun a => step t (m.energy a a) (fun i => m.linear i a a) m.omega R p)
        = (Real.exp (t * ∑ i, l i ^ 2 / (2 * m.omega i)) * ∏ i, propagator t (m.omega i) (R i p - -l i / m.omega i)
          (R i (p + 1) - -l i / m.omega i)) • Matrix.diagonal fun a => Real.exp (-t * m.energy a a) := by
      rw [← Matrix.diagonal_smul]
      congr 1
      funext a
      rw [hstep, Pi.smul_apply, smul_eq_mul, mul_comm]
    rw [e, smul_mul_smul_comm, prod_mul_distrib, ← Real.exp_sum, mul_sum]
    congr 1
    have : ∀ i, -s * (q i * R i p ^ 2 / 2) = -(s * q i / 2) * R i p ^ 2 := fun i => by ring
    simp only [this]
    ring
  unfold gSplit
  simp only [hb]
  rw [prod_ofFn_smul, Matrix.trace_smul, smul_eq_mul, prod_mul_distrib, prod_const, card_univ, Fintype.card_fin,
    ← Real.exp_nat_mul, Finset.prod_comm, ← mul_assoc]
  ring

/-- The integral of the system integrand over all paths. -/
theorem integral_gExact_separable (hP : 3 ≤ P) (m : Vib A N) (hw : ∀ i, 0 < m.omega i) (l q : Fin N → ℝ)
    (hm : Separable m l q) (beta : ℝ) (hb : 0 < beta)
    (hs : ∀ i, 0 < 2 * Real.tanh (beta / P * m.omega i / 2) + beta / P * q i) :
    (∫ R : BeadPath N P, gExact (beta / P) m R) / Real.sqrt (2 * Real.pi) ^ (N * P)
      = ((NormedSpace.exp ((beta / P) • -offDiagonal m)
          * NormedSpace.exp ((beta / P) • -(m.energy - offDiagonal m))) ^ P).trace
        * ∏ i, modeFactor beta (m.omega i) (l i) (q i) P := by
  have hP0 : (0 : ℝ) < P := by exact_mod_cast Nat.pos_of_ne_zero (NeZero.ne P)
  have ht : 0 < beta / P := div_pos hb hP0
  simp only [gExact, gSplit_separable m hw l q hm]
  rw [integral_const_mul, integral_fintype_prod_volume_eq_prod (fun i (x : Fin P → ℝ) =>
    ∏ p, (propagator (beta / P) (m.omega i) (x p - -l i / m.omega i) (x (p + 1) - -l i / m.omega i)
        * Real.exp (-(beta / P * q i / 2) * x p ^ 2)))]
  have hmode := fun i => mode_integral hP (beta / P) (m.omega i) (beta / P * q i) (-l i / m.omega i)
    (2 * halfAngle (beta / P) (m.omega i) (q i)) (mul_pos ht (hw i)) (hs i)
    (mul_pos two_pos (halfAngle_pos _ _ _ (mul_pos ht (hw i)) (hs i)))
    (cosh_halfAngle _ _ _ (mul_pos ht (hw i)) (hs i))
  simp only [hmode]
  have e1 : (P : ℝ) * (beta / P) = beta := by field_simp
  have e2 : ∀ i, (P : ℝ) * (2 * halfAngle (beta / P) (m.omega i) (q i)) / 2
      = P * halfAngle (beta / P) (m.omega i) (q i) := fun i => by ring
  simp only [e1, e2, modeFactor]
  rw [prod_mul_distrib, prod_const, card_univ, Fintype.card_fin, ← pow_mul, mul_comm P N, prod_mul_distrib (f := fun i =>
    Real.exp (beta * (l i ^ 2 / (2 * m.omega i)))), ← Real.exp_sum, ← mul_sum]
  have h2 : (0 : ℝ) < Real.sqrt (2 * Real.pi) ^ (N * P) := pow_pos (Real.sqrt_pos.mpr (by positivity)) _
  field_simp

end

end Pibronic.PIMC
