import Verif.Lemmas.TracePath

set_option autoImplicit false

/-! The integrals over closed paths approach the partition function of the Hamiltonian. -/
namespace Pibronic.Ritz
open Finset Filter Topology MeasureTheory Pibronic.PIMC Pibronic.Spec.PIMC
open scoped Matrix.Norms.L2Operator

variable {N A : ℕ}

theorem trace_exp_submatrix {m n : Type*} [Fintype m] [Fintype n] [DecidableEq m] [DecidableEq n] (e : n ≃ m) (M : Matrix m m ℝ) :
    (NormedSpace.exp (M.submatrix e e)).trace = (NormedSpace.exp M).trace := by
  have h : (NormedSpace.exp M).submatrix e e = NormedSpace.exp (M.submatrix e e) := by
    letI : NormedAlgebra ℚ (Matrix m m ℝ) := NormedAlgebra.restrictScalars ℚ ℝ _
    have := NormedSpace.map_exp (Matrix.reindexAlgEquiv ℝ ℝ e.symm)
      (by
        show Continuous fun M : Matrix m m ℝ => M.submatrix _ _
        fun_prop) M
    simpa [Matrix.coe_reindexAlgEquiv, Matrix.reindex_apply] using this
  rw [← h]
  simp only [Matrix.trace, Matrix.diag, Matrix.submatrix_apply]
  exact e.sum_comp (fun i => NormedSpace.exp M i i)

theorem plain_trace [NeZero A] (v : Vib A N) {κ θ C : ℝ} (H : Below (coup v) v.omega κ θ C) (β τ : ℝ) (k : ℕ) (hk : 0 < k)
    (hτ : τ = β / ((2 * k : ℕ) : ℝ)) (h : Short θ v.omega (τ / 2)) :
    HasSum (fun m => ‖(Ritz.step H τ ^ k) (states N A m)‖ ^ 2) (plainZ β v (2 * k)) := by
  obtain ⟨n, rfl⟩ : ∃ n, k = n + 1 := ⟨k - 1, by omega⟩
  have := step_traces v H τ h n
  have e : plainZ β v (2 * (n + 1)) = plainZ β v (2 * n + 1 + 1) := by congr 1
  rw [e, plainZ_eq]
  have e' : β / ((2 * n + 1 + 1 : ℕ) : ℝ) = τ := by rw [hτ]; congr 2
  rw [e']
  exact this

theorem plain_tendsto [NeZero A] (beta : ℝ) (hb : 0 < beta) (v : Vib A N) (hv : ∀ i, 0 < v.omega i) (hs : Symmetric v) (hm : Confined v) :
    ∃ Z, Tendsto (plainZ beta v) atTop (𝓝 Z) := by
  obtain ⟨Z, K, hK, h⟩ := plain_converges beta hb v hv hs hm
  refine ⟨Z, tendsto_iff_norm_sub_tendsto_zero.mpr (squeeze_zero' (Eventually.of_forall fun _ => norm_nonneg _) h ?_)⟩
  exact tendsto_const_nhds.div_atTop (Real.tendsto_sqrt_atTop.comp tendsto_natCast_atTop_atTop)

/-- The partition functions of the Hamiltonian in larger and larger bases approach the limit of the path integrals. -/
theorem truncated_tendsto [NeZero A] (beta : ℝ) (hb : 0 < beta) (v : Vib A N) (hv : ∀ i, 0 < v.omega i) (hs : Symmetric v)
    (hm : Confined v) (Z : ℝ) (hZ : Tendsto (plainZ beta v) atTop (𝓝 Z)) : Tendsto (truncatedZ beta v) atTop (𝓝 Z) := by
  obtain ⟨κ, θ, C, H⟩ := model_below v hv hs hm
  obtain ⟨T, S⟩ := model_steps v hs H
  obtain ⟨Z', hZ'⟩ := plain_tendsto (beta / 2) (half_pos hb) v hv hs hm
  have t4 : Tendsto (fun i : ℕ => 2 * (2 * i)) atTop atTop := tendsto_atTop_mono (fun i => by simp only [id]; omega) tendsto_id
  have t2 : Tendsto (fun i : ℕ => 2 * i) atTop atTop := tendsto_atTop_mono (fun i => by simp only [id]; omega) tendsto_id
  have hsh := (step_tendsto beta hb).eventually (short_half v.omega hv θ H.θ1)
  refine Metric.tendsto_atTop.mpr fun ε hε => ?_
  have : Nonempty ((Fin N → ℕ) × Fin A) := ⟨(fun _ => 0, ⟨0, Nat.pos_of_ne_zero (NeZero.ne A)⟩)⟩
  obtain ⟨R, hR⟩ := S.ritz beta hb (fun i => plainZ beta v (2 * (2 * i))) (fun i => plainZ (beta / 2) v (2 * i))
    (by
      filter_upwards [hsh, eventually_gt_atTop 0] with i h hi
      refine plain_trace v H beta _ (2 * i) (by omega) ?_ h
      push_cast; ring_nf)
    (by
      filter_upwards [hsh, eventually_gt_atTop 0] with i h hi
      refine plain_trace v H (beta / 2) _ i hi ?_ h
      push_cast
      have : (i : ℝ) ≠ 0 := by exact_mod_cast hi.ne'
      field_simp; norm_num)
    Z (hZ.comp t4) (Z' + 1) ((hZ'.comp t2).eventually (Iic_mem_nhds (by linarith))) ε hε
  refine ⟨R + 1, fun B hB => ?_⟩
  have : NeZero B := ⟨by omega⟩
  have : Nonempty ((Fin N → Fin B) × Fin A) := ⟨(fun _ => 0, ⟨0, Nat.pos_of_ne_zero (NeZero.ne A)⟩)⟩
  have : NeZero (Fintype.card ((Fin N → Fin B) × Fin A)) := ⟨Fintype.card_ne_zero⟩
  let q := (Fintype.equivFin ((Fin N → Fin B) × Fin A)).symm
  let e : Fin (Fintype.card ((Fin N → Fin B) × Fin A)) → (Fin N → ℕ) × Fin A := fun p => (fun i => ((q p).1 i).1, (q p).2)
  have h1 := hR _ e ?_ ?_
  · have e1 : -(beta • (ladder v hs).part e) = (-(beta • truncated v B)).submatrix q q := by
      ext a b
      rfl
    rw [e1, trace_exp_submatrix] at h1
    exact h1
  · intro a b h
    apply q.injective
    have h' := Prod.ext_iff.mp h
    refine Prod.ext (funext fun i => Fin.ext (congrFun h'.1 i)) h'.2
  · intro m hm'
    have hm2 : total m.1 ≤ R := hm'
    have hlt : ∀ i, m.1 i < B := fun i => by
      have h3 : m.1 i ≤ total m.1 := by exact_mod_cast le_total i m.1
      omega
    exact ⟨q.symm (fun i => ⟨m.1 i, hlt i⟩, m.2), by simp [e]⟩

/-- The same with the rate at which the integrals of the code's integrand converge. -/
theorem exact_truncated [NeZero A] (beta : ℝ) (hb : 0 < beta) (v : Vib A N) (hv : ∀ i, 0 < v.omega i) (hs : Symmetric v)
    (hm : Confined v) :
    ∃ Z K : ℝ, 0 ≤ K ∧ Tendsto (truncatedZ beta v) atTop (𝓝 Z) ∧
      ∀ᶠ P : ℕ in atTop, ∀ [NeZero P], Integrable (fun R : BeadPath N P => gExact (beta / P) v R) ∧
      |(∫ R : BeadPath N P, gExact (beta / P) v R) / Real.sqrt (2 * Real.pi) ^ (N * P) - Z| ≤ K / Real.sqrt P := by
  obtain ⟨Z, K, hK, h⟩ := exact_converges beta hb v hv hs hm
  obtain ⟨K', hK', h'⟩ := plain_limit beta hb v hv hs hm
  refine ⟨Z, K, hK, ?_, h⟩
  refine truncated_tendsto beta hb v hv hs hm Z (tendsto_iff_norm_sub_tendsto_zero.mpr
    (squeeze_zero' (g := fun P : ℕ => (K + K') / Real.sqrt P) (Eventually.of_forall fun _ => norm_nonneg _) ?_
      (tendsto_const_nhds.div_atTop (Real.tendsto_sqrt_atTop.comp tendsto_natCast_atTop_atTop))))
  filter_upwards [h, h', eventually_gt_atTop 0] with P h1 h2 hP
  have hne : NeZero P := ⟨hP.ne'⟩
  obtain ⟨-, d1⟩ := @h1 hne
  obtain ⟨-, -, d⟩ := @h2 hne
  have hpi : (0 : ℝ) < Real.sqrt (2 * Real.pi) ^ (N * P) := pow_pos (Real.sqrt_pos.mpr (by positivity)) _
  rw [plainZ_eq, Real.norm_eq_abs]
  have h3 : |(∫ R : BeadPath N P, gPlain (beta / P) v R) / Real.sqrt (2 * Real.pi) ^ (N * P)
      - (∫ R : BeadPath N P, gExact (beta / P) v R) / Real.sqrt (2 * Real.pi) ^ (N * P)| ≤ K' / Real.sqrt P := by
    rw [← sub_div, abs_div, abs_of_pos hpi, div_le_iff₀ hpi, abs_sub_comm]
    exact d
  have := abs_sub_le ((∫ R : BeadPath N P, gPlain (beta / P) v R) / Real.sqrt (2 * Real.pi) ^ (N * P))
    ((∫ R : BeadPath N P, gExact (beta / P) v R) / Real.sqrt (2 * Real.pi) ^ (N * P)) Z
  rw [add_div]
  linarith

end Pibronic.Ritz
