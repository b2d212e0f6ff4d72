import Verif.Lemmas.RefineBounds
import Mathlib.Analysis.SpecificLimits.Basic

set_option autoImplicit false
set_option linter.unusedSectionVars false

/-! The discretised partition function of a confined system has a limit. -/
namespace Pibronic.PIMC
open Finset Filter Topology Spec.PIMC MeasureTheory

variable {A N : ℕ} [NeZero A]

/-! ### the first bead of every block -/

section
variable {P n : ℕ} [NeZero P]

/-- The first bead of the block of a bead. -/
def blockStart (q : Fin (P * (n + 1))) : Fin (P * (n + 1)) := at' (finProdFinEquiv.symm q).1 0

theorem blockStart_at (p : Fin P) (j : Fin (n + 1)) : blockStart (at' p j) = at' p 0 := by
  unfold blockStart
  have : finProdFinEquiv.symm (at' p j) = (p, j) := finProdFinEquiv.symm_apply_apply _
  rw [this]

theorem sum_at (f : Fin (P * (n + 1)) → ℝ) : ∑ q, f q = ∑ p : Fin P, ∑ j : Fin (n + 1), f (at' p j) := by
  rw [← finProdFinEquiv.sum_comp, Fintype.sum_prod_type]
  rfl

theorem at_next (p : Fin P) (j : ℕ) (hj : j + 1 < n + 1) : at' p ⟨j, by omega⟩ + 1 = at' (n := n) p ⟨j + 1, hj⟩ := by
  apply Fin.ext
  have hp := p.isLt
  have h1 : j + 1 + (n + 1) * p < P * (n + 1) := by
    have : (n + 1) * (p + 1) ≤ (n + 1) * P := Nat.mul_le_mul_left _ hp
    nlinarith
  rw [Fin.val_add, at'_val, at'_val, Fin.val_one', Nat.add_mod_mod, Nat.mod_eq_of_lt (by simp only; omega)]
  simp only
  omega

/-- The distance from the first bead of the block. -/
theorem block_step (f : Fin (P * (n + 1)) → ℝ) (p : Fin P) (j : Fin (n + 1)) :
    (f (at' p j) - f (at' p 0)) ^ 2 ≤ (n + 1 : ℕ) * ∑ j : Fin (n + 1), (f (at' p j) - f (at' p j + 1)) ^ 2 := by
  have key : ∀ i : ℕ, ∀ hi : i < n + 1, (f (at' p ⟨i, hi⟩) - f (at' p 0)) ^ 2
      ≤ i * ∑ j ∈ univ.filter fun j : Fin (n + 1) => (j : ℕ) < i, (f (at' p j) - f (at' p j + 1)) ^ 2 := by
    intro i
    induction i with
    | zero =>
      intro hi
      have : (⟨0, hi⟩ : Fin (n + 1)) = 0 := rfl
      rw [this]
      simp
    | succ i ih =>
      intro hi
      have h1 := ih (by omega)
      have e : (univ.filter fun j : Fin (n + 1) => (j : ℕ) < i + 1)
          = insert ⟨i, by omega⟩ (univ.filter fun j : Fin (n + 1) => (j : ℕ) < i) := by
        ext j
        simp only [mem_filter, mem_univ, true_and, mem_insert, Fin.ext_iff]
        omega
      rw [e, sum_insert (by simp), at_next p i hi]
      set S := ∑ j ∈ univ.filter fun j : Fin (n + 1) => (j : ℕ) < i, (f (at' p j) - f (at' p j + 1)) ^ 2 with hS
      have hS0 : 0 ≤ S := sum_nonneg fun _ _ => sq_nonneg _
      set a := f (at' p ⟨i, by omega⟩) - f (at' p 0)
      set b := f (at' p ⟨i, by omega⟩) - f (at' p ⟨i + 1, hi⟩)
      have e2 : f (at' p ⟨i + 1, hi⟩) - f (at' p 0) = a - b := by simp only [a, b]; ring
      rw [e2]
      push_cast
      rcases Nat.eq_zero_or_pos i with h0 | h0
      · subst h0
        have ha : a = 0 := by
          have h2 : a ^ 2 ≤ 0 := by simpa using h1
          exact pow_eq_zero_iff two_ne_zero |>.mp (le_antisymm h2 (sq_nonneg a))
        rw [ha]
        push_cast
        nlinarith
      · have hi0 : (0 : ℝ) < i := by exact_mod_cast h0
        -- `(a - b)² ≤ (1 + 1/i) a² + (1 + i) b²`
        have h3 : (a - b) ^ 2 ≤ (1 + 1 / i) * a ^ 2 + (1 + i) * b ^ 2 := by
          have e3 : (1 + 1 / (i : ℝ)) * a ^ 2 + (1 + i) * b ^ 2 - (a - b) ^ 2 = (a + i * b) ^ 2 / i := by
            field_simp
            ring
          have : 0 ≤ (a + i * b) ^ 2 / i := by positivity
          linarith
        have h4 : (1 + 1 / (i : ℝ)) * a ^ 2 ≤ (1 + 1 / i) * (i * S) := mul_le_mul_of_nonneg_left h1 (by positivity)
        have e4 : (1 + 1 / (i : ℝ)) * (i * S) = (i + 1) * S := by field_simp
        nlinarith
  have h := key j j.isLt
  refine h.trans (mul_le_mul ?_ ?_ (sum_nonneg fun _ _ => sq_nonneg _) (by positivity))
  · exact_mod_cast j.isLt.le
  · exact sum_le_sum_of_subset_of_nonneg (subset_univ _) fun _ _ _ => sq_nonneg _

theorem near_block (R : BeadPath N (P * (n + 1))) : Near (((n + 1 : ℕ) : ℝ) ^ 2) blockStart R := by
  have hn : (1 : ℝ) ≤ (n + 1 : ℕ) := by exact_mod_cast Nat.succ_pos n
  constructor
  · rw [sum_at, sum_at]
    simp only [blockStart_at, sum_const, card_univ, Fintype.card_fin, nsmul_eq_mul]
    rw [mul_sum]
    refine sum_le_sum fun p _ => ?_
    have h1 : sq (fun i => R i (at' p 0)) ≤ ∑ j : Fin (n + 1), sq (fun i => R i (at' p j)) :=
      single_le_sum (f := fun j : Fin (n + 1) => sq (fun i => R i (at' p j))) (fun _ _ => sq_nonneg' _) (mem_univ 0)
    have h0 := sq_nonneg' fun i => R i (at' p (0 : Fin (n + 1)))
    calc _ ≤ ((n + 1 : ℕ) : ℝ) ^ 2 * sq (fun i => R i (at' p 0)) := mul_le_mul_of_nonneg_right (by nlinarith) h0
      _ ≤ _ := mul_le_mul_of_nonneg_left h1 (by positivity)
  · rw [sum_at, sum_at]
    simp only [blockStart_at]
    rw [mul_sum]
    refine sum_le_sum fun p _ => ?_
    have h1 : ∀ j : Fin (n + 1), sq (fun i => R i (at' p j) - R i (at' p 0))
        ≤ (n + 1 : ℕ) * ∑ j : Fin (n + 1), ∑ i, (R i (at' p j) - R i (at' p j + 1)) ^ 2 := by
      intro j
      unfold sq
      rw [sum_comm, mul_sum]
      exact sum_le_sum fun i _ => block_step (fun q => R i q) p j
    refine (sum_le_sum fun j _ => h1 j).trans (le_of_eq ?_)
    rw [sum_const, card_univ, Fintype.card_fin, nsmul_eq_mul]
    ring

theorem prod_smul_list {k : ℕ} (a : Fin k → ℝ) (M : Fin k → Matrix (Fin A) (Fin A) ℝ) :
    (List.ofFn fun q => a q • M q).prod = (∏ q, a q) • (List.ofFn M).prod := by
  induction k with
  | zero => simp
  | succ k ih =>
    rw [List.ofFn_succ, List.ofFn_succ, List.prod_cons, List.prod_cons, Fin.prod_univ_succ, ih (fun q => a q.succ) fun q => M q.succ,
      smul_mul_smul_comm]

theorem gShift_eq {Q : ℕ} [NeZero Q] (t : ℝ) (m : Vib A N) (c : Fin Q → Fin Q) (R : BeadPath N Q) :
    gShift t m c R = (∏ q, free t m.omega R q)
      * Matrix.trace (List.ofFn fun q => NormedSpace.exp (-t • terms m.energy m.linear m.quadratic fun i => R i (c q))).prod := by
  unfold gShift
  rw [prod_smul_list, Matrix.trace_smul, smul_eq_mul]

theorem joinAll_at (u : BeadPath N P × (Fin N → Fin P → Fin n → ℝ)) (p : Fin P) (i : Fin N) :
    joinAll u i (at' p 0) = u.1 i p := by
  unfold joinAll
  rw [join_at, Fin.cons_zero]

theorem trace_block (t : ℝ) (m : Vib A N) (u : BeadPath N P × (Fin N → Fin P → Fin n → ℝ)) :
    Matrix.trace (List.ofFn fun q => NormedSpace.exp
        (-t • terms m.energy m.linear m.quadratic fun i => joinAll u i (blockStart q))).prod
      = Matrix.trace (List.ofFn fun p => NormedSpace.exp
        (-((n + 1 : ℕ) * t) • terms m.energy m.linear m.quadratic fun i => u.1 i p)).prod := by
  rw [List.ofFn_mul]
  have e : ∀ (p : Fin P) (j : Fin (n + 1)) (h : (p : ℕ) * (n + 1) + j < P * (n + 1)), (⟨p * (n + 1) + j, h⟩ : Fin (P * (n + 1))) = at' p j := by
    intro p j h
    apply Fin.ext
    rw [at'_val]
    simp only
    ring
  simp only [e, blockStart_at, joinAll_at]
  rw [List.prod_flatten, List.map_ofFn]
  congr 3
  funext p
  simp only [Function.comp, List.ofFn_const, List.prod_replicate]
  rw [← Matrix.exp_nsmul]
  congr 1
  rw [← Nat.cast_smul_eq_nsmul ℝ, smul_smul]
  congr 1
  ring

end

/-! ### more beads -/

/-- The discretised partition function with `P` beads, without displacements. -/
noncomputable def plainZ (beta : ℝ) (m : Vib A N) (P : ℕ) : ℝ :=
  if h : P = 0 then 0 else
    haveI : NeZero P := ⟨h⟩
    (∫ R : BeadPath N P, gPlain (beta / P) m R) / Real.sqrt (2 * Real.pi) ^ (N * P)

theorem plainZ_eq (beta : ℝ) (m : Vib A N) (P : ℕ) [h : NeZero P] :
    plainZ beta m P = (∫ R : BeadPath N P, gPlain (beta / P) m R) / Real.sqrt (2 * Real.pi) ^ (N * P) := by
  unfold plainZ
  rw [dif_neg h.out]

theorem plain_refine (beta : ℝ) (hb : 0 < beta) (m : Vib A N) (hv : ∀ i, 0 < m.omega i) (hs : Symmetric m) (hm : Confined m) (n : ℕ) :
    ∃ K : ℝ, 0 ≤ K ∧ ∀ᶠ P : ℕ in atTop, |plainZ beta m P - plainZ beta m (P * (n + 1))| ≤ K / Real.sqrt P := by
  obtain ⟨K, hK, h⟩ := shift_limit beta hb m hv hs hm (((n + 1 : ℕ) : ℝ) ^ 2) (by positivity)
  refine ⟨K, hK, ?_⟩
  have hlarge : Tendsto (fun P : ℕ => P * (n + 1)) atTop atTop :=
    tendsto_atTop_mono (fun P => Nat.le_mul_of_pos_right P (Nat.succ_pos n)) tendsto_id
  filter_upwards [hlarge.eventually h, eventually_ge_atTop 1] with P hP hP1
  haveI : NeZero P := ⟨by omega⟩
  obtain ⟨hi, hd⟩ := @hP _ (blockStart (P := P) (n := n)) (fun R => near_block R)
  have hP0 : (0 : ℝ) < P := by exact_mod_cast hP1
  have hn0 : (0 : ℝ) < (n + 1 : ℕ) := by positivity
  set t := beta / ((P * (n + 1) : ℕ) : ℝ) with ht
  have ht0 : 0 < t := by rw [ht]; push_cast; positivity
  have htk : (n + 1 : ℕ) * t = beta / P := by rw [ht]; push_cast; field_simp
  have hpi : (0 : ℝ) < Real.sqrt (2 * Real.pi) := Real.sqrt_pos.mpr (by positivity)
  have key : ∫ R : BeadPath N (P * (n + 1)), gShift t m blockStart R
      = Real.sqrt (2 * Real.pi) ^ (N * (P * n)) * ∫ S : BeadPath N P, gPlain (beta / P) m S := by
    have hcont : Continuous fun R : BeadPath N (P * (n + 1)) => Matrix.trace (List.ofFn fun q =>
        NormedSpace.exp (-t • terms m.energy m.linear m.quadratic fun i => R i (blockStart q))).prod := by
      refine Continuous.matrix_trace (continuous_prod_ofFn _ fun p => (continuous_matrix_exp A).comp ?_)
      unfold terms
      fun_prop
    simp only [gShift_eq] at hi ⊢
    rw [integrate_out t m.omega (fun i => mul_pos ht0 (hv i)) (fun S : BeadPath N P => Matrix.trace (List.ofFn fun p =>
      NormedSpace.exp (-((n + 1 : ℕ) * t) • terms m.energy m.linear m.quadratic fun i => S i p)).prod) _
      (fun u => trace_block t m u) hcont hi, htk]
    congr 2
    funext S
    exact (gShift_eq (beta / P) m id S).symm
  rw [plainZ_eq, plainZ_eq]
  have e1 : (∫ R : BeadPath N P, gPlain (beta / P) m R) / Real.sqrt (2 * Real.pi) ^ (N * P)
      = (∫ R : BeadPath N (P * (n + 1)), gShift t m blockStart R) / Real.sqrt (2 * Real.pi) ^ (N * (P * (n + 1))) := by
    rw [key, show N * (P * (n + 1)) = N * (P * n) + N * P by ring, pow_add, mul_div_mul_left _ _ (pow_pos hpi _).ne']
  rw [e1, ← sub_div, abs_div, abs_of_pos (pow_pos hpi _), div_le_iff₀ (pow_pos hpi _)]
  refine hd.trans (mul_le_mul_of_nonneg_right ?_ (pow_pos hpi _).le)
  refine div_le_div_of_nonneg_left hK (Real.sqrt_pos.mpr hP0) (Real.sqrt_le_sqrt ?_)
  push_cast
  nlinarith [mul_nonneg hP0.le (Nat.cast_nonneg (α := ℝ) n)]

/-! ### a sequence that multiples leave almost unchanged converges -/

theorem converges_of_multiples (u : ℕ → ℝ)
    (h : ∀ n : ℕ, ∃ K : ℝ, 0 ≤ K ∧ ∀ᶠ P : ℕ in atTop, |u P - u (P * (n + 1))| ≤ K / Real.sqrt P) :
    ∃ L K : ℝ, 0 ≤ K ∧ ∀ᶠ P : ℕ in atTop, |u P - L| ≤ K / Real.sqrt P := by
  obtain ⟨K, hK, h2⟩ := h 1
  obtain ⟨M, hM⟩ := eventually_atTop.mp h2
  set r := (Real.sqrt 2)⁻¹ with hr
  have hs2 : 1 < Real.sqrt 2 := Real.lt_sqrt_of_sq_lt (by norm_num)
  have hr0 : 0 < r := by positivity
  have hr1 : r < 1 := inv_lt_one_of_one_lt₀ hs2
  set M' := max M 1 with hM'
  have hdist : ∀ P, M' ≤ P → ∀ j, dist (u (P * 2 ^ j)) (u (P * 2 ^ (j + 1))) ≤ K / Real.sqrt P * r ^ j := by
    intro P hP j
    have hP1 : 1 ≤ P := (le_max_right _ _).trans hP
    have h1 : M ≤ P * 2 ^ j := ((le_max_left _ _).trans hP).trans (Nat.le_mul_of_pos_right _ (by positivity))
    have h3 := hM _ h1
    rw [Real.dist_eq, pow_succ, ← mul_assoc]
    refine h3.trans (le_of_eq ?_)
    have e : Real.sqrt ((P * 2 ^ j : ℕ) : ℝ) = Real.sqrt P * Real.sqrt 2 ^ j := by
      push_cast
      rw [Real.sqrt_mul (by positivity)]
      congr 1
      rw [Real.sqrt_eq_iff_mul_self_eq (by positivity) (by positivity), ← mul_pow, Real.mul_self_sqrt (by norm_num)]
    rw [e, hr, inv_pow, div_mul_eq_div_div]
    rfl
  have hlim : ∀ P, M' ≤ P → ∃ L, Tendsto (fun j => u (P * 2 ^ j)) atTop (𝓝 L) := fun P hP =>
    cauchySeq_tendsto_of_complete (cauchySeq_of_le_geometric r _ hr1 (hdist P hP))
  choose! L hL using hlim
  have hmul : ∀ P n, M' ≤ P → L (P * (n + 1)) = L P := by
    intro P n hP
    have hP1 : 1 ≤ P := (le_max_right _ _).trans hP
    have hP' : M' ≤ P * (n + 1) := hP.trans (Nat.le_mul_of_pos_right _ (by positivity))
    obtain ⟨K', -, h'⟩ := h n
    have hpow : Tendsto (fun j : ℕ => P * 2 ^ j) atTop atTop := by
      refine tendsto_atTop_mono (fun j => ?_) (tendsto_pow_atTop_atTop_of_one_lt (one_lt_two (α := ℕ)))
      exact Nat.le_mul_of_pos_left _ hP1
    have hsm : Tendsto (fun P : ℕ => K' / Real.sqrt P) atTop (𝓝 0) :=
      Tendsto.const_div_atTop (Real.tendsto_sqrt_atTop.comp tendsto_natCast_atTop_atTop) K'
    have h0 : Tendsto (fun j => u (P * 2 ^ j) - u (P * 2 ^ j * (n + 1))) atTop (𝓝 0) := by
      refine squeeze_zero_norm' ?_ (hsm.comp hpow)
      filter_upwards [hpow.eventually h'] with j hj
      rw [Real.norm_eq_abs]
      exact hj
    have h1 := (hL P hP).sub (hL (P * (n + 1)) hP')
    have e : (fun j => u (P * 2 ^ j) - u (P * (n + 1) * 2 ^ j)) = fun j => u (P * 2 ^ j) - u (P * 2 ^ j * (n + 1)) := by
      funext j
      rw [show P * (n + 1) * 2 ^ j = P * 2 ^ j * (n + 1) by ring]
    rw [e] at h1
    have := tendsto_nhds_unique h1 h0
    linarith
  have hM'1 : 1 ≤ M' := le_max_right _ _
  refine ⟨L M', K / (1 - r), div_nonneg hK (by linarith), ?_⟩
  filter_upwards [eventually_ge_atTop M'] with P hP
  have e1 : L P = L M' := by
    have a1 := hmul P (M' - 1) hP
    have a2 := hmul M' (P - 1) le_rfl
    rw [Nat.sub_add_cancel hM'1] at a1
    rw [Nat.sub_add_cancel (hM'1.trans hP)] at a2
    rw [← a1, ← a2, mul_comm]
  have h1 := dist_le_of_le_geometric_of_tendsto₀ r _ hr1 (hdist P hP) (hL P hP)
  rw [pow_zero, mul_one, Real.dist_eq, e1] at h1
  refine h1.trans (le_of_eq ?_)
  rw [div_right_comm]

theorem plain_converges (beta : ℝ) (hb : 0 < beta) (m : Vib A N) (hv : ∀ i, 0 < m.omega i) (hs : Symmetric m) (hm : Confined m) :
    ∃ Z K : ℝ, 0 ≤ K ∧ ∀ᶠ P : ℕ in atTop, |plainZ beta m P - Z| ≤ K / Real.sqrt P :=
  converges_of_multiples _ fun n => plain_refine beta hb m hv hs hm n

/-- The integral of the code's integrand converges. -/
theorem exact_converges (beta : ℝ) (hb : 0 < beta) (m : Vib A N) (hv : ∀ i, 0 < m.omega i) (hs : Symmetric m) (hm : Confined m) :
    ∃ Z K : ℝ, 0 ≤ K ∧ ∀ᶠ P : ℕ in atTop, ∀ [NeZero P], Integrable (fun R : BeadPath N P => gExact (beta / P) m R) ∧
      |(∫ R : BeadPath N P, gExact (beta / P) m R) / Real.sqrt (2 * Real.pi) ^ (N * P) - Z| ≤ K / Real.sqrt P := by
  obtain ⟨Z, K, hK, h⟩ := plain_converges beta hb m hv hs hm
  obtain ⟨K', hK', h'⟩ := plain_limit beta hb m hv hs hm
  refine ⟨Z, K + K', by positivity, ?_⟩
  filter_upwards [h, h'] with P h1 h2 hne
  obtain ⟨i1, -, d⟩ := @h2 hne
  have hpi : (0 : ℝ) < Real.sqrt (2 * Real.pi) ^ (N * P) := pow_pos (Real.sqrt_pos.mpr (by positivity)) _
  refine ⟨i1, ?_⟩
  rw [plainZ_eq] at h1
  have h3 : |(∫ R : BeadPath N P, gExact (beta / P) m R) / Real.sqrt (2 * Real.pi) ^ (N * P)
      - (∫ R : BeadPath N P, gPlain (beta / P) m R) / Real.sqrt (2 * Real.pi) ^ (N * P)| ≤ K' / Real.sqrt P := by
    rw [← sub_div, abs_div, abs_of_pos hpi, div_le_iff₀ hpi]
    exact d
  have := abs_sub_le ((∫ R : BeadPath N P, gExact (beta / P) m R) / Real.sqrt (2 * Real.pi) ^ (N * P))
    ((∫ R : BeadPath N P, gPlain (beta / P) m R) / Real.sqrt (2 * Real.pi) ^ (N * P)) Z
  rw [add_div]
  linarith

end Pibronic.PIMC
