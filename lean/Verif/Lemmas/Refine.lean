import Verif.Lemmas.Confined
import Mathlib.Analysis.SpecialFunctions.Gaussian.GaussianIntegral
import Mathlib.MeasureTheory.Integral.Pi

set_option autoImplicit false
set_option linter.unusedSectionVars false

/-! Integrating out the beads between every k-th bead. -/
namespace Pibronic.PIMC
open Finset Filter Topology Spec.PIMC MeasureTheory

/-! ### one bead between two others -/

theorem propagator_mul (t s w x y z : ℝ) (ht : 0 < t * w) (hs : 0 < s * w) :
    propagator t w x z * propagator s w z y
      = propagator (t + s) w x y * (Real.sqrt (Real.sinh ((t + s) * w)) / (Real.sqrt (Real.sinh (t * w)) * Real.sqrt (Real.sinh (s * w))))
        * Real.exp (-(Real.sinh ((t + s) * w) / (2 * Real.sinh (t * w) * Real.sinh (s * w)))
          * (z - (x * Real.sinh (s * w) + y * Real.sinh (t * w)) / Real.sinh ((t + s) * w)) ^ 2) := by
  have h1 : 0 < Real.sinh (t * w) := Real.sinh_pos_iff.mpr ht
  have h2 : 0 < Real.sinh (s * w) := Real.sinh_pos_iff.mpr hs
  have h3 : 0 < Real.sinh ((t + s) * w) := Real.sinh_pos_iff.mpr (by rw [add_mul]; exact add_pos ht hs)
  have e1 : Real.sinh ((t + s) * w) = Real.sinh (t * w) * Real.cosh (s * w) + Real.cosh (t * w) * Real.sinh (s * w) := by
    rw [add_mul, Real.sinh_add]
  have e2 : Real.cosh ((t + s) * w) = Real.cosh (t * w) * Real.cosh (s * w) + Real.sinh (t * w) * Real.sinh (s * w) := by
    rw [add_mul, Real.cosh_add]
  have e3 := Real.cosh_sq (t * w)
  have e4 := Real.cosh_sq (s * w)
  unfold propagator
  set a := Real.sinh (t * w)
  set b := Real.sinh (s * w)
  set c := Real.cosh (t * w)
  set d := Real.cosh (s * w)
  set S := Real.sinh ((t + s) * w)
  have q3 := (Real.sqrt_pos.mpr h3).ne'
  rw [div_mul_div_comm, ← Real.exp_add, div_mul_div_comm, mul_comm (Real.exp _) (Real.sqrt S), mul_div_mul_left _ _ q3,
    div_mul_eq_mul_div, ← Real.exp_add]
  congr 2
  rw [e2]
  field_simp
  have e3' : c ^ 2 = a ^ 2 + 1 := e3
  have e4' : d ^ 2 = b ^ 2 + 1 := e4
  rw [e1]
  linear_combination (-(b ^ 2 * x ^ 2)) * e3' + (-(a ^ 2 * y ^ 2)) * e4'

theorem propagator_comp (t s w x y : ℝ) (ht : 0 < t * w) (hs : 0 < s * w) :
    Integrable (fun z => propagator t w x z * propagator s w z y) ∧
    ∫ z, propagator t w x z * propagator s w z y = Real.sqrt (2 * Real.pi) * propagator (t + s) w x y := by
  have h1 : 0 < Real.sinh (t * w) := Real.sinh_pos_iff.mpr ht
  have h2 : 0 < Real.sinh (s * w) := Real.sinh_pos_iff.mpr hs
  have h3 : 0 < Real.sinh ((t + s) * w) := Real.sinh_pos_iff.mpr (by rw [add_mul]; exact add_pos ht hs)
  have hpos : 0 < Real.sinh ((t + s) * w) / (2 * Real.sinh (t * w) * Real.sinh (s * w)) := by positivity
  simp only [propagator_mul t s w x y _ ht hs]
  set a := Real.sinh ((t + s) * w) / (2 * Real.sinh (t * w) * Real.sinh (s * w)) with ha
  refine ⟨((integrable_exp_neg_mul_sq hpos).comp_sub_right _).const_mul _, ?_⟩
  rw [integral_const_mul, integral_sub_right_eq_self (fun z => Real.exp (-a * z ^ 2)), integral_gaussian, mul_assoc, mul_comm]
  congr 1
  have e : Real.pi / a = 2 * Real.pi * (Real.sinh (t * w) * Real.sinh (s * w)) / Real.sinh ((t + s) * w) := by
    rw [ha]; field_simp
  rw [e, Real.sqrt_div (by positivity), Real.sqrt_mul (by positivity), Real.sqrt_mul h1.le]
  have q1 := (Real.sqrt_pos.mpr h1).ne'
  have q2 := (Real.sqrt_pos.mpr h2).ne'
  have q3 := (Real.sqrt_pos.mpr h3).ne'
  field_simp

/-! ### an open chain of beads -/

/-- The product of the propagators from `a` over the beads `z` to `b`. -/
noncomputable def openChain {n : ℕ} (t w a b : ℝ) (z : Fin n → ℝ) : ℝ :=
  ∏ j : Fin (n + 1), propagator t w (Fin.cons (α := fun _ => ℝ) a z j) (Fin.snoc (α := fun _ => ℝ) z b j)

theorem continuous_propagator {X : Type*} [TopologicalSpace X] (t w : ℝ) {f g : X → ℝ} (hf : Continuous f) (hg : Continuous g) :
    Continuous fun u => propagator t w (f u) (g u) := by
  unfold propagator; fun_prop

theorem continuous_openChain {X : Type*} [TopologicalSpace X] {n : ℕ} (t w : ℝ) {f g : X → ℝ} {h : X → Fin n → ℝ}
    (hf : Continuous f) (hg : Continuous g) (hh : Continuous h) : Continuous fun u => openChain t w (f u) (g u) (h u) := by
  unfold openChain
  refine continuous_finsetProd _ fun j _ => continuous_propagator t w ?_ ?_
  · refine Fin.cases ?_ (fun j => ?_) j
    · simpa only [Fin.cons_zero] using hf
    · simpa only [Fin.cons_succ] using (continuous_pi_iff.mp hh) j
  · refine Fin.lastCases ?_ (fun j => ?_) j
    · simpa only [Fin.snoc_last] using hg
    · simpa only [Fin.snoc_castSucc] using (continuous_pi_iff.mp hh) j

theorem openChain_pos {n : ℕ} (t w a b : ℝ) (hw : 0 < t * w) (z : Fin n → ℝ) : 0 < openChain t w a b z :=
  prod_pos fun _ _ => propagator_pos _ _ _ _ hw

theorem openChain_cons {n : ℕ} (t w a b y : ℝ) (z : Fin n → ℝ) :
    openChain t w a b (Fin.cons (α := fun _ => ℝ) y z : Fin (n + 1) → ℝ) = propagator t w a y * openChain t w y b z := by
  unfold openChain
  rw [Fin.prod_univ_succ]
  congr 1
  · refine prod_congr rfl fun j _ => ?_
    rw [Fin.cons_succ]
    congr 1
    rw [← Fin.cons_snoc_eq_snoc_cons, Fin.cons_succ]

theorem openChain_integral (n : ℕ) (t w : ℝ) (hw : 0 < t * w) : ∀ a b : ℝ,
    Integrable (fun z : Fin n → ℝ => openChain t w a b z) ∧
    ∫ z : Fin n → ℝ, openChain t w a b z = Real.sqrt (2 * Real.pi) ^ n * propagator ((n + 1 : ℕ) * t) w a b := by
  induction n with
  | zero =>
    intro a b
    have e : ∀ z : Fin 0 → ℝ, openChain t w a b z = propagator t w a b := by
      intro z
      unfold openChain
      rw [Fin.prod_univ_one, Fin.cons_zero]
      rfl
    simp only [e]
    refine ⟨?_, ?_⟩
    · rw [volume_pi, Measure.pi_of_empty (x := fun i => i.elim0)]
      exact integrable_dirac (by simp)
    · rw [volume_pi, Measure.pi_of_empty (x := fun i => i.elim0), integral_dirac]
      simp
  | succ n ih =>
    intro a b
    have hmp := (volume_preserving_piFinSuccAbove (fun _ : Fin (n + 1) => ℝ) 0).symm
    have e : ∀ u : ℝ × (Fin n → ℝ), openChain t w a b ((MeasurableEquiv.piFinSuccAbove (fun _ : Fin (n + 1) => ℝ) 0).symm u)
        = propagator t w a u.1 * openChain t w u.1 b u.2 := by
      intro u
      rw [← openChain_cons]
      congr 1
      rw [MeasurableEquiv.piFinSuccAbove_symm_apply]
      exact Fin.insertNth_zero' _ _
    have hc : Continuous fun u : ℝ × (Fin n → ℝ) => propagator t w a u.1 * openChain t w u.1 b u.2 :=
      (continuous_propagator t w continuous_const continuous_fst).mul
        (continuous_openChain t w continuous_fst continuous_const continuous_snd)
    have hw' : 0 < ((n + 1 : ℕ) * t) * w := by
      rw [mul_assoc]; exact mul_pos (by positivity) hw
    obtain ⟨hci, hce⟩ := propagator_comp t ((n + 1 : ℕ) * t) w a b hw hw'
    have hi : Integrable (fun u : ℝ × (Fin n → ℝ) => propagator t w a u.1 * openChain t w u.1 b u.2)
        ((volume : Measure ℝ).prod (volume : Measure (Fin n → ℝ))) := by
      rw [integrable_prod_iff hc.aestronglyMeasurable]
      refine ⟨Eventually.of_forall fun y => (ih y b).1.const_mul (propagator t w a y), ?_⟩
      have e2 : ∀ y, ∫ z : Fin n → ℝ, ‖propagator t w a y * openChain t w y b z‖
          = Real.sqrt (2 * Real.pi) ^ n * (propagator t w a y * propagator ((n + 1 : ℕ) * t) w y b) := by
        intro y
        have e3 : ∀ z : Fin n → ℝ, ‖propagator t w a y * openChain t w y b z‖ = propagator t w a y * openChain t w y b z :=
          fun z => by rw [Real.norm_eq_abs, abs_of_pos (mul_pos (propagator_pos _ _ _ _ hw) (openChain_pos _ _ _ _ hw _))]
        simp only [e3]
        rw [integral_const_mul, (ih y b).2]
        ring
      simp only [e2]
      exact hci.const_mul _
    refine ⟨?_, ?_⟩
    · rw [← hmp.integrable_comp_emb (MeasurableEquiv.measurableEmbedding _)]
      simp only [Function.comp_def, e]
      exact hi
    · rw [← hmp.integral_comp']
      simp only [e]
      rw [Measure.volume_eq_prod, integral_prod _ hi]
      have e2 : ∀ y, ∫ z : Fin n → ℝ, propagator t w a y * openChain t w y b z
          = Real.sqrt (2 * Real.pi) ^ n * (propagator t w a y * propagator ((n + 1 : ℕ) * t) w y b) := by
        intro y
        rw [integral_const_mul, (ih y b).2]
        ring
      simp only [e2]
      rw [integral_const_mul, hce, ← mul_assoc, ← pow_succ]
      congr 2
      push_cast
      ring

/-! ### every k-th bead of a path -/

section
variable {N P n : ℕ} [NeZero P]

/-- The bead at position `j` of block `p`. -/
def at' (p : Fin P) (j : Fin (n + 1)) : Fin (P * (n + 1)) := finProdFinEquiv (p, j)

theorem at'_val (p : Fin P) (j : Fin (n + 1)) : (at' p j : ℕ) = j + (n + 1) * p := rfl

/-- The path with the beads `s` at the start of the blocks and the beads `z` inside them. -/
def join (u : (Fin P → ℝ) × (Fin P → Fin n → ℝ)) (q : Fin (P * (n + 1))) : ℝ :=
  Fin.cons (α := fun _ => ℝ) (u.1 (finProdFinEquiv.symm q).1) (u.2 (finProdFinEquiv.symm q).1) (finProdFinEquiv.symm q).2

theorem join_at (u : (Fin P → ℝ) × (Fin P → Fin n → ℝ)) (p : Fin P) (j : Fin (n + 1)) :
    join u (at' p j) = Fin.cons (α := fun _ => ℝ) (u.1 p) (u.2 p) j := by
  unfold join at'
  rw [Equiv.symm_apply_apply]

theorem join_next (u : (Fin P → ℝ) × (Fin P → Fin n → ℝ)) (p : Fin P) (j : Fin (n + 1)) :
    join u (at' p j + 1) = Fin.snoc (α := fun _ => ℝ) (u.2 p) (u.1 (p + 1)) j := by
  have hP : 0 < P := Nat.pos_of_ne_zero (NeZero.ne P)
  have hp := p.isLt
  refine Fin.lastCases ?_ (fun j => ?_) j
  · rw [Fin.snoc_last]
    have e : at' p (Fin.last n) + 1 = at' (p + 1) (0 : Fin (n + 1)) := by
      apply Fin.ext
      rw [Fin.val_add, at'_val, at'_val, Fin.val_last, Fin.val_zero, Fin.val_add, Fin.val_one', Fin.val_one',
        Nat.add_mod_mod, Nat.add_mod_mod, zero_add, ← Nat.mul_mod_mul_left, mul_comm P]
      congr 1
      ring
    rw [e, join_at, Fin.cons_zero]
  · rw [Fin.snoc_castSucc]
    have e : at' p (Fin.castSucc j) + 1 = at' p j.succ := by
      apply Fin.ext
      have hj := j.isLt
      have h1 : (j : ℕ) + 1 + (n + 1) * p < P * (n + 1) := by
        have : (n + 1) * (p + 1) ≤ (n + 1) * P := Nat.mul_le_mul_left _ hp
        nlinarith
      rw [Fin.val_add, at'_val, at'_val, Fin.val_castSucc, Fin.val_succ, Fin.val_one', Nat.add_mod_mod, Nat.mod_eq_of_lt (by omega)]
      omega
    rw [e, join_at, Fin.cons_succ]

theorem measurable_join : Measurable (join (P := P) (n := n)) := by
  refine measurable_pi_lambda _ fun q => ?_
  unfold join
  generalize finProdFinEquiv.symm q = r
  obtain ⟨p, j⟩ := r
  refine Fin.cases ?_ (fun j => ?_) j
  · simp only [Fin.cons_zero]; fun_prop
  · simp only [Fin.cons_succ]; fun_prop

theorem continuous_join : Continuous (join (P := P) (n := n)) := by
  refine continuous_pi fun q => ?_
  unfold join
  generalize finProdFinEquiv.symm q = r
  obtain ⟨p, j⟩ := r
  refine Fin.cases ?_ (fun j => ?_) j
  · simp only [Fin.cons_zero]; fun_prop
  · simp only [Fin.cons_succ]; fun_prop

theorem join_preserving : MeasurePreserving (join (P := P) (n := n)) := by
  refine ⟨measurable_join, ?_⟩
  rw [volume_pi, eq_comm]
  refine Measure.pi_eq fun s hs => ?_
  rw [Measure.map_apply measurable_join (MeasurableSet.univ_pi hs)]
  have e : (join (P := P) (n := n)) ⁻¹' Set.pi Set.univ s
      = (Set.pi Set.univ fun p => s (at' p 0)) ×ˢ (Set.pi Set.univ fun p => Set.pi Set.univ fun j : Fin n => s (at' p j.succ)) := by
    ext u
    simp only [Set.mem_preimage, Set.mem_pi, Set.mem_univ, true_imp_iff, Set.mem_prod]
    constructor
    · intro h
      refine ⟨fun p => ?_, fun p j => ?_⟩
      · have := h (at' p 0)
        rwa [join_at, Fin.cons_zero] at this
      · have := h (at' p j.succ)
        rwa [join_at, Fin.cons_succ] at this
    · rintro ⟨h1, h2⟩ q
      have hq : q = at' (finProdFinEquiv.symm q).1 (finProdFinEquiv.symm q).2 := (finProdFinEquiv.apply_symm_apply q).symm
      rw [hq]
      generalize finProdFinEquiv.symm q = r
      obtain ⟨p, j⟩ := r
      simp only
      rw [join_at]
      refine Fin.cases ?_ (fun j => ?_) j
      · rw [Fin.cons_zero]; exact h1 p
      · rw [Fin.cons_succ]; exact h2 p j
  rw [e, Measure.volume_eq_prod, Measure.prod_prod, volume_pi_pi, volume_pi_pi]
  simp only [volume_pi_pi]
  rw [← finProdFinEquiv.prod_comp, Fintype.prod_prod_type, ← prod_mul_distrib]
  exact prod_congr rfl fun p _ => (Fin.prod_univ_succ fun j => volume (s (at' p j))).symm

/-- The same for all modes. -/
def joinAll (u : BeadPath N P × (Fin N → Fin P → Fin n → ℝ)) : BeadPath N (P * (n + 1)) := fun i => join (u.1 i, u.2 i)

theorem joinAll_preserving : MeasurePreserving (joinAll (N := N) (P := P) (n := n)) :=
  (volume_preserving_pi fun _ : Fin N => join_preserving (P := P) (n := n)).comp
    (volume_measurePreserving_arrowProdEquivProdArrow (Fin P → ℝ) (Fin P → Fin n → ℝ) (Fin N)).symm

theorem joinAll_free (t : ℝ) (w : Fin N → ℝ) (u : BeadPath N P × (Fin N → Fin P → Fin n → ℝ)) :
    ∏ q, free t w (joinAll u) q = ∏ i, ∏ p, openChain t (w i) (u.1 i p) (u.1 i (p + 1)) (u.2 i p) := by
  unfold free
  rw [Finset.prod_comm]
  refine prod_congr rfl fun i _ => ?_
  rw [← finProdFinEquiv.prod_comp, Fintype.prod_prod_type]
  refine prod_congr rfl fun p _ => ?_
  unfold openChain
  refine prod_congr rfl fun j _ => ?_
  have h1 := join_at (u.1 i, u.2 i) p j
  have h2 := join_next (u.1 i, u.2 i) p j
  unfold at' at h1 h2
  unfold joinAll
  rw [h1, h2]

/-- The beads inside the blocks can be integrated out. -/
theorem integrate_out (t : ℝ) (w : Fin N → ℝ) (hw : ∀ i, 0 < t * w i) (F : BeadPath N P → ℝ)
    (G : BeadPath N (P * (n + 1)) → ℝ) (hG : ∀ u : BeadPath N P × (Fin N → Fin P → Fin n → ℝ), G (joinAll u) = F u.1)
    (hGc : Continuous G) (hi : Integrable fun R : BeadPath N (P * (n + 1)) => (∏ q, free t w R q) * G R) :
    ∫ R : BeadPath N (P * (n + 1)), (∏ q, free t w R q) * G R
      = Real.sqrt (2 * Real.pi) ^ (N * (P * n)) * ∫ S : BeadPath N P, (∏ p, free ((n + 1 : ℕ) * t) w S p) * F S := by
  have hmp := joinAll_preserving (N := N) (P := P) (n := n)
  have hcont : Continuous fun R : BeadPath N (P * (n + 1)) => (∏ q, free t w R q) * G R := by
    refine Continuous.mul ?_ hGc
    unfold free propagator
    fun_prop
  have e : ∀ u : BeadPath N P × (Fin N → Fin P → Fin n → ℝ), (∏ q, free t w (joinAll u) q) * G (joinAll u)
      = F u.1 * ∏ i, ∏ p, openChain t (w i) (u.1 i p) (u.1 i (p + 1)) (u.2 i p) := by
    intro u
    rw [joinAll_free, hG, mul_comm]
  have hi2 := (hmp.integrable_comp hcont.aestronglyMeasurable).mpr hi
  simp only [Function.comp_def, e] at hi2
  rw [← hmp.map_eq, integral_map hmp.measurable.aemeasurable hcont.aestronglyMeasurable]
  simp only [e]
  rw [Measure.volume_eq_prod] at hi2 ⊢
  rw [integral_prod _ hi2, ← integral_const_mul]
  congr 1
  funext S
  simp only
  rw [integral_const_mul, integral_fintype_prod_volume_eq_prod (fun i (z : Fin P → Fin n → ℝ) =>
    ∏ p, openChain t (w i) (S i p) (S i (p + 1)) (z p))]
  have e2 : ∀ i, ∫ z : Fin P → Fin n → ℝ, ∏ p, openChain t (w i) (S i p) (S i (p + 1)) (z p)
      = ∏ p, (Real.sqrt (2 * Real.pi) ^ n * propagator ((n + 1 : ℕ) * t) (w i) (S i p) (S i (p + 1))) := by
    intro i
    rw [integral_fintype_prod_volume_eq_prod (fun p (z : Fin n → ℝ) => openChain t (w i) (S i p) (S i (p + 1)) z)]
    exact prod_congr rfl fun p _ => (openChain_integral n t (w i) (hw i) _ _).2
  simp only [e2]
  unfold free
  rw [Finset.prod_comm (f := fun p i => propagator ((n + 1 : ℕ) * t) (w i) (S i p) (S i (p + 1)))]
  simp only [prod_mul_distrib, prod_const, card_univ, Fintype.card_fin, ← pow_mul]
  rw [show n * P * N = N * (P * n) by ring]
  ring

end

end Pibronic.PIMC
