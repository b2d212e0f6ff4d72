import Verif.Model.Orthonormal
import Verif.Spec.Orthonormal
import Mathlib.Analysis.Matrix.Spectrum
import Mathlib.Analysis.SpecialFunctions.Trigonometric.Bounds
import Mathlib.Analysis.Real.Pi.Bounds
import Mathlib.Tactic.Linarith
import Mathlib.Tactic.Ring
import Mathlib.Tactic.NormNum
import Mathlib.Tactic.Positivity
import Mathlib.Tactic.FieldSimp

set_option autoImplicit false
set_option linter.unusedSectionVars false

namespace Pibronic.Orthonormal

open Pibronic.Py Pibronic.Spec.Orthonormal

section lookup

variable {K : Type} [Field K] [LinearOrder K] [IsStrictOrderedRing K]

/-- the tolerance of `isclose` around a non-negative number -/
def tol (d : K) : K := 1 / 10 ^ 8 + 1 / 10 ^ 5 * d

theorem tol_nonneg {d : K} (h : 0 ≤ d) : 0 ≤ tol d := by unfold tol; positivity

theorem tol_mono {d e : K} (h : d ≤ e) : tol d ≤ tol e := by
  have : (0 : K) < 1 / 10 ^ 5 := by positivity
  unfold tol; nlinarith

theorem sub_tol_mono {d e : K} (h : d ≤ e) : d - tol d ≤ e - tol e := by
  have : (1 : K) / 10 ^ 5 ≤ 1 := by
    rw [div_le_one (by positivity)]
    norm_num
  unfold tol; nlinarith

theorem isclose_iff {a d : K} (h : 0 ≤ d) : isclose a d ↔ d - tol d ≤ a ∧ a ≤ d + tol d := by
  unfold isclose tol
  rw [abs_of_nonneg h, abs_le]
  constructor
  · rintro ⟨h1, h2⟩; constructor <;> linarith
  · rintro ⟨h1, h2⟩; constructor <;> linarith

/-- The loop in terms of the bounds. -/
theorem selectLoop_cons {d : K} (hd : 0 ≤ d) (prev s : K × K) (rest : List (K × K)) :
    selectLoop d prev (s :: rest) = if s.1 < d - tol d then selectLoop d s rest
      else if s.1 ≤ d + tol d then .ok ⟨s.2, s.1⟩ else .ok ⟨prev.2, prev.1⟩ := by
  have ht := tol_nonneg hd
  rw [selectLoop]
  by_cases h1 : s.1 < d - tol d
  · rw [if_neg, if_neg, if_pos h1]
    · intro h; linarith
    · rw [isclose_iff hd]; rintro ⟨h, -⟩; linarith
  · by_cases h2 : s.1 ≤ d + tol d
    · rw [if_pos, if_neg h1, if_pos h2]
      rw [isclose_iff hd]; exact ⟨le_of_not_gt h1, h2⟩
    · rw [if_neg, if_pos, if_neg h1, if_neg h2]
      · push_neg at h2; linarith
      · rw [isclose_iff hd]; rintro ⟨-, h⟩; exact h2 h

/-- The loop finds a row as soon as one is large enough, and the row found is the previous one or
one of the rows. -/
theorem selectLoop_found {d : K} (hd : 0 ≤ d) (prev : K × K) (rows : List (K × K))
    (hp : prev.1 ≤ d) (hex : ∃ r ∈ rows, d ≤ r.1) (hs : (prev :: rows).Pairwise fun a b => a.1 < b.1) :
    ∃ r ∈ prev :: rows, selectLoop d prev rows = .ok ⟨r.2, r.1⟩ ∧
      (isclose r.1 d ∨ r.1 ≤ d ∧ ∀ q ∈ prev :: rows, q.1 ≤ d → q.1 ≤ r.1) := by
  have ht := tol_nonneg hd
  induction rows generalizing prev with
  | nil => obtain ⟨r, hr, -⟩ := hex; cases hr
  | cons s rest ih =>
    rw [selectLoop_cons hd]
    by_cases h1 : s.1 < d - tol d
    · rw [if_pos h1]
      have hex' : ∃ r ∈ rest, d ≤ r.1 := by
        obtain ⟨r, hr, h⟩ := hex
        rcases List.mem_cons.mp hr with rfl | hr
        · linarith
        · exact ⟨r, hr, h⟩
      obtain ⟨r, hr, h, hc⟩ := ih s (by linarith) hex' (List.pairwise_cons.mp hs).2
      refine ⟨r, List.mem_cons_of_mem _ hr, h, hc.imp id fun hc => ⟨hc.1, fun q hq hqd => ?_⟩⟩
      rcases List.mem_cons.mp hq with rfl | hq
      · have h3 := (List.pairwise_cons.mp hs).1 s (List.mem_cons_self ..)
        exact (le_of_lt h3).trans (hc.2 s (List.mem_cons_self ..) (by linarith))
      · exact hc.2 q hq hqd
    · rw [if_neg h1]
      by_cases h2 : s.1 ≤ d + tol d
      · rw [if_pos h2]
        exact ⟨s, by simp, rfl, .inl ((isclose_iff hd).mpr ⟨le_of_not_gt h1, h2⟩)⟩
      · rw [if_neg h2]
        refine ⟨prev, by simp, rfl, .inr ⟨hp, fun q hq hqd => ?_⟩⟩
        push_neg at h2
        rcases List.mem_cons.mp hq with rfl | hq
        · exact le_rfl
        · exfalso
          rcases List.mem_cons.mp hq with rfl | hq
          · linarith
          · have := (List.pairwise_cons.mp (List.pairwise_cons.mp hs).2).1 q hq
            linarith

theorem selectLoop_ge {e : K} (he : 0 ≤ e) (prev : K × K) (rows : List (K × K)) (q : Pair K)
    (hs : (prev :: rows).Pairwise fun a b => a.1 < b.1)
    (hq : selectLoop e prev rows = .ok q) : prev.1 ≤ q.y := by
  induction rows generalizing prev with
  | nil => cases hq
  | cons r rest ih =>
    have hsr := (List.pairwise_cons.mp hs).1 r (List.mem_cons_self ..)
    rw [selectLoop_cons he] at hq
    split at hq
    · exact (le_of_lt hsr).trans (ih r (List.pairwise_cons.mp hs).2 hq)
    · split at hq <;> cases hq
      · exact le_of_lt hsr
      · exact le_rfl

/-- A row found for a smaller distance is not farther out. -/
theorem selectLoop_mono {d e : K} (hd : 0 ≤ d) (hde : d ≤ e) (prev : K × K) (rows : List (K × K))
    (p q : Pair K) (hs : (prev :: rows).Pairwise fun a b => a.1 < b.1)
    (hp : selectLoop d prev rows = .ok p) (hq : selectLoop e prev rows = .ok q) : p.y ≤ q.y := by
  have he : 0 ≤ e := hd.trans hde
  induction rows generalizing prev with
  | nil => cases hp
  | cons s rest ih =>
    have hps := (List.pairwise_cons.mp hs).1 s (List.mem_cons_self ..)
    have hs' := (List.pairwise_cons.mp hs).2
    rw [selectLoop_cons hd] at hp
    rw [selectLoop_cons he] at hq
    have h1 := sub_tol_mono hde
    have h2 := tol_mono hde
    by_cases ha : s.1 < d - tol d
    · rw [if_pos ha] at hp
      rw [if_pos (by linarith)] at hq
      exact ih s hs' hp hq
    · rw [if_neg ha] at hp
      have hpy : p.y ≤ s.1 := by
        split at hp <;> cases hp
        · exact le_rfl
        · exact le_of_lt hps
      by_cases hb : s.1 < e - tol e
      · rw [if_pos hb] at hq
        exact hpy.trans (selectLoop_ge he s rest q hs' hq)
      · rw [if_neg hb] at hq
        by_cases hc : s.1 ≤ d + tol d
        · rw [if_pos hc] at hp
          rw [if_pos (by linarith)] at hq
          cases hp; cases hq; exact le_rfl
        · rw [if_neg hc] at hp
          cases hp
          split at hq <;> cases hq
          · exact le_of_lt hps
          · exact le_rfl

end lookup

section matrices

open Matrix NormedSpace

theorem sksm_transpose (n : ℕ) : (sksm n)ᵀ = - sksm n := by
  unfold sksm
  rw [transpose_sub, transpose_transpose, neg_sub]

theorem exp_sksm_transpose (n : ℕ) (x : ℝ) : (exp (x • sksm n))ᵀ = exp (-(x • sksm n)) := by
  rw [← exp_transpose, transpose_smul, sksm_transpose, smul_neg]

theorem exp_sksm_orthonormal (n : ℕ) (x : ℝ) :
    exp (x • sksm n) * (exp (x • sksm n))ᵀ = 1 := by
  have hc : Commute (x • sksm n) (-(x • sksm n)) := Commute.neg_right (Commute.refl _)
  rw [exp_sksm_transpose, ← Matrix.exp_add_of_commute _ _ hc, add_neg_cancel, NormedSpace.exp_zero]

theorem exp_sksm_close (n : ℕ) (x : ℝ) (a b : Fin n) :
    isclose ((exp (x • sksm n) * (exp (x • sksm n))ᵀ) a b) ((1 : Matrix _ _ ℝ) a b) := by
  rw [exp_sksm_orthonormal]
  unfold isclose
  rw [sub_self, abs_zero]
  positivity

theorem distance_eq (n : ℕ) (x : ℝ) : distance n x = fromIdentity (exp (x • sksm n)) := by
  unfold distance fromIdentity
  rfl

theorem fromIdentity_one (n : ℕ) : fromIdentity (1 : Matrix (Fin n) (Fin n) ℝ) = 0 := by
  unfold fromIdentity
  rw [Finset.sum_eq_zero, Real.sqrt_zero]
  intro i _
  refine Finset.sum_eq_zero fun j _ => ?_
  rw [Matrix.one_apply, sub_self]
  norm_num

/-- The skew symmetric matrix times the imaginary unit, a Hermitian matrix. -/
noncomputable def herm (n : ℕ) : Matrix (Fin n) (Fin n) ℂ :=
  Complex.I • (sksm n).map Complex.ofReal

theorem herm_isHermitian (n : ℕ) : (herm n).IsHermitian := by
  ext i j
  have h := congrFun (congrFun (sksm_transpose n) j) i
  simp only [Matrix.transpose_apply, Matrix.neg_apply] at h
  simp only [herm, Matrix.conjTranspose_apply, Matrix.smul_apply, Matrix.map_apply, smul_eq_mul,
    star_mul', Complex.star_def, Complex.conj_I, Complex.conj_ofReal]
  rw [show sksm n j i = - sksm n i j by linarith]
  push_cast
  ring

/-- The angles of rotation. -/
noncomputable def angle (n : ℕ) : Fin n → ℝ := (herm_isHermitian n).eigenvalues

section
open scoped Norms.Operator

theorem exp_map (n : ℕ) (M : Matrix (Fin n) (Fin n) ℝ) :
    (exp M).map Complex.ofReal = exp (M.map Complex.ofReal) := by
  have hc : Continuous (Complex.ofRealHom.mapMatrix : Matrix (Fin n) (Fin n) ℝ →+* _) :=
    continuous_id.matrix_map Complex.continuous_ofReal
  exact NormedSpace.map_exp _ hc M

end

theorem trace_exp (n : ℕ) (x : ℝ) : (exp (x • sksm n)).trace = ∑ k, Real.cos (x * angle n k) := by
  have hspec := (herm_isHermitian n).spectral_theorem
  rw [Unitary.conjStarAlgAut_apply] at hspec
  set U : Matrix (Fin n) (Fin n) ℂ := ((herm_isHermitian n).eigenvectorUnitary).1 with hU
  have hUU : U * star U = 1 := Unitary.coe_mul_star_self _
  have hUU' : star U * U = 1 := Unitary.coe_star_mul_self _
  have hinv : U⁻¹ = star U := Matrix.inv_eq_right_inv hUU
  have hunit : IsUnit U := ⟨⟨U, star U, hUU, hUU'⟩, rfl⟩
  have hS : (x • sksm n).map Complex.ofReal
      = U * diagonal (fun k => (-(x * angle n k : ℝ) * Complex.I : ℂ)) * U⁻¹ := by
    have h1 : (x • sksm n).map Complex.ofReal = (-(x : ℂ) * Complex.I) • herm n := by
      ext i j
      simp only [herm, Matrix.map_apply, Matrix.smul_apply, smul_eq_mul, Complex.ofReal_mul]
      linear_combination ((x : ℂ) * (sksm n i j : ℂ)) * Complex.I_mul_I
    have h2 : diagonal (fun k => (-(x * angle n k : ℝ) * Complex.I : ℂ))
        = (-(x : ℂ) * Complex.I) • diagonal (RCLike.ofReal ∘ (herm_isHermitian n).eigenvalues) := by
      rw [← Matrix.diagonal_smul]
      congr 1
      ext k
      simp [angle]
      ring
    rw [h1, h2, hinv, Matrix.mul_smul, Matrix.smul_mul]
    congr 1
  have h3 : ((exp (x • sksm n)).trace : ℂ) = ∑ k, Complex.exp (-(x * angle n k : ℝ) * Complex.I) := by
    have h4 : ((exp (x • sksm n)).trace : ℂ) = ((exp (x • sksm n)).map Complex.ofReal).trace := by
      simp [Matrix.trace]
    rw [h4, exp_map, hS, Matrix.exp_conj _ _ hunit, Matrix.trace_mul_cycle, hinv, hUU', Matrix.one_mul,
      Matrix.exp_diagonal, Matrix.trace_diagonal]
    refine Finset.sum_congr rfl fun k _ => ?_
    rw [Pi.coe_exp, Complex.exp_eq_exp_ℂ]
  have h5 := congrArg Complex.re h3
  rw [Complex.ofReal_re, Complex.re_sum] at h5
  rw [h5]
  refine Finset.sum_congr rfl fun k _ => ?_
  rw [← Complex.ofReal_neg, Complex.exp_ofReal_mul_I_re, Real.cos_neg]

theorem distance_sq_trace (n : ℕ) (x : ℝ) :
    distance n x ^ 2 = 2 * n - 2 * (exp (x • sksm n)).trace := by
  unfold distance
  refine (Real.sq_sqrt (Finset.sum_nonneg fun i _ => Finset.sum_nonneg fun j _ => sq_nonneg _)).trans ?_
  have h1 : ∑ i, ∑ j, (exp (x • sksm n) - 1) i j ^ 2
      = ((exp (x • sksm n) - 1) * (exp (x • sksm n) - 1)ᵀ).trace := by
    simp only [Matrix.trace, Matrix.diag, Matrix.mul_apply, Matrix.transpose_apply, sq]
  rw [h1, transpose_sub, transpose_one, sub_mul, mul_sub, mul_sub, exp_sksm_orthonormal, one_mul,
    one_mul, mul_one]
  simp only [trace_sub, trace_transpose, trace_one, Fintype.card_fin]
  ring

theorem distance_sq (n : ℕ) (x : ℝ) :
    distance n x ^ 2 = ∑ k, 4 * Real.sin (x * angle n k / 2) ^ 2 := by
  rw [distance_sq_trace, trace_exp]
  have h : ∀ k, 4 * Real.sin (x * angle n k / 2) ^ 2 = 2 - 2 * Real.cos (x * angle n k) := by
    intro k
    have := Real.cos_sq_add_sin_sq (x * angle n k / 2)
    have h2 := Real.cos_two_mul (x * angle n k / 2)
    rw [show 2 * (x * angle n k / 2) = x * angle n k by ring] at h2
    linarith
  rw [Finset.sum_congr rfl fun k _ => h k, Finset.sum_sub_distrib, ← Finset.mul_sum]
  simp
  ring

theorem angle_sq (n : ℕ) : ∑ k, angle n k ^ 2 = ∑ i, ∑ j, sksm n i j ^ 2 := by
  have hspec := (herm_isHermitian n).spectral_theorem
  rw [Unitary.conjStarAlgAut_apply] at hspec
  set U : Matrix (Fin n) (Fin n) ℂ := ((herm_isHermitian n).eigenvectorUnitary).1 with hU
  have hUU' : star U * U = 1 := Unitary.coe_star_mul_self _
  set D := diagonal (RCLike.ofReal ∘ (herm_isHermitian n).eigenvalues : Fin n → ℂ) with hD
  have h1 : (herm n * herm n).trace = (D * D).trace := by
    conv_lhs => rw [hspec]
    rw [show U * D * star U * (U * D * star U) = U * (D * D) * star U by
      rw [Matrix.mul_assoc (U * D), ← Matrix.mul_assoc (star U), ← Matrix.mul_assoc (star U), hUU',
        Matrix.one_mul, ← Matrix.mul_assoc, ← Matrix.mul_assoc]]
    rw [Matrix.trace_mul_cycle, hUU', Matrix.one_mul]
  have h2 : (D * D).trace = ((∑ k, angle n k ^ 2 : ℝ) : ℂ) := by
    rw [hD, Matrix.diagonal_mul_diagonal, Matrix.trace_diagonal]
    push_cast
    refine Finset.sum_congr rfl fun k _ => ?_
    simp [angle, sq]
  have h3 : (herm n * herm n).trace = ((∑ i, ∑ j, sksm n i j ^ 2 : ℝ) : ℂ) := by
    simp only [Matrix.trace, Matrix.diag, Matrix.mul_apply]
    push_cast
    refine Finset.sum_congr rfl fun i _ => Finset.sum_congr rfl fun j _ => ?_
    have h := congrFun (congrFun (sksm_transpose n) i) j
    simp only [Matrix.transpose_apply, Matrix.neg_apply] at h
    simp only [herm, Matrix.smul_apply, Matrix.map_apply, smul_eq_mul]
    rw [h]
    push_cast
    linear_combination (-(sksm n i j : ℂ) ^ 2) * Complex.I_mul_I
  rw [h2, h3] at h1
  exact_mod_cast h1.symm

theorem sksm_apply (n : ℕ) (i j : Fin n) : sksm n i j = if i = j then 0 else if i < j then 1 else -1 := by
  unfold sksm upperTri
  simp only [Matrix.sub_apply, Matrix.transpose_apply, Matrix.of_apply]
  rcases lt_trichotomy i j with h | h | h
  · rw [if_pos (le_of_lt h), if_neg (not_le.mpr h), if_neg (ne_of_lt h), if_pos h, sub_zero]
  · subst h; simp
  · rw [if_neg (not_le.mpr h), if_pos (le_of_lt h), if_neg (ne_of_gt h), if_neg (not_lt.mpr (le_of_lt h)),
      zero_sub]

theorem angle_sq_eq (n : ℕ) : ∑ k, angle n k ^ 2 = n * (n - 1) := by
  rw [angle_sq]
  have h : ∀ i j : Fin n, sksm n i j ^ 2 = 1 - if i = j then 1 else 0 := by
    intro i j
    rw [sksm_apply]
    split
    · norm_num
    · split <;> norm_num
  simp only [h, Finset.sum_sub_distrib, Finset.sum_ite_eq, Finset.mem_univ, if_true]
  simp
  ring

theorem distance_nonneg (n : ℕ) (x : ℝ) : 0 ≤ distance n x := Real.sqrt_nonneg _

theorem distance_zero (n : ℕ) : distance n 0 = 0 := by
  have h := distance_sq n 0
  simpa using h

theorem sin_sq_le {a b : ℝ} (hab : |a| ≤ |b|) (hb : |b| ≤ Real.pi / 2) :
    Real.sin a ^ 2 ≤ Real.sin b ^ 2 := by
  rw [← (by rw [← Real.abs_sin_eq_sin_abs_of_abs_le_pi (by linarith [Real.pi_pos] : |a| ≤ Real.pi), sq_abs] :
      Real.sin |a| ^ 2 = Real.sin a ^ 2),
    ← (by rw [← Real.abs_sin_eq_sin_abs_of_abs_le_pi (by linarith [Real.pi_pos] : |b| ≤ Real.pi), sq_abs] :
      Real.sin |b| ^ 2 = Real.sin b ^ 2)]
  have h0 : 0 ≤ Real.sin |a| :=
    Real.sin_nonneg_of_nonneg_of_le_pi (abs_nonneg a) (by linarith [Real.pi_pos])
  exact pow_le_pow_left₀ h0 (Real.sin_le_sin_of_le_of_le_pi_div_two
    (by linarith [abs_nonneg a, Real.pi_pos]) hb hab) 2

theorem sin_sq_lt {a b : ℝ} (hab : |a| < |b|) (hb : |b| ≤ Real.pi / 2) :
    Real.sin a ^ 2 < Real.sin b ^ 2 := by
  rw [← (by rw [← Real.abs_sin_eq_sin_abs_of_abs_le_pi (by linarith [Real.pi_pos] : |a| ≤ Real.pi), sq_abs] :
      Real.sin |a| ^ 2 = Real.sin a ^ 2),
    ← (by rw [← Real.abs_sin_eq_sin_abs_of_abs_le_pi (by linarith [Real.pi_pos] : |b| ≤ Real.pi), sq_abs] :
      Real.sin |b| ^ 2 = Real.sin b ^ 2)]
  have h0 : 0 ≤ Real.sin |a| :=
    Real.sin_nonneg_of_nonneg_of_le_pi (abs_nonneg a) (by linarith [Real.pi_pos])
  exact pow_lt_pow_left₀ (Real.sin_lt_sin_of_lt_of_le_pi_div_two
    (by linarith [abs_nonneg a, Real.pi_pos]) hb hab) h0 (by norm_num)

theorem exists_angle {n : ℕ} (hn : 2 ≤ n) : ∃ k, angle n k ≠ 0 := by
  by_contra h
  push_neg at h
  have h1 := angle_sq_eq n
  rw [Finset.sum_eq_zero fun k _ => by rw [h k]; norm_num] at h1
  have h2 : (2 : ℝ) ≤ n := by exact_mod_cast hn
  nlinarith

/-- As long as no rotation has gone through half a turn, the distance grows. -/
theorem distance_lt {n : ℕ} (hn : 2 ≤ n) {x y : ℝ} (hx : 0 ≤ x) (hxy : x < y)
    (hy : ∀ k, y * |angle n k| ≤ Real.pi) : distance n x < distance n y := by
  have habs : ∀ z, 0 ≤ z → ∀ k, |z * angle n k / 2| = z * |angle n k| / 2 := by
    intro z hz k
    rw [abs_div, abs_mul, abs_of_nonneg hz, abs_two]
  have hy0 : 0 ≤ y := by linarith
  have hle : ∀ k, 4 * Real.sin (x * angle n k / 2) ^ 2 ≤ 4 * Real.sin (y * angle n k / 2) ^ 2 := by
    intro k
    have := sin_sq_le (a := x * angle n k / 2) (b := y * angle n k / 2)
      (by rw [habs x hx, habs y hy0]; nlinarith [abs_nonneg (angle n k)])
      (by rw [habs y hy0]; linarith [hy k])
    linarith
  have hlt : distance n x ^ 2 < distance n y ^ 2 := by
    rw [distance_sq, distance_sq]
    obtain ⟨k, hk⟩ := exists_angle hn
    refine Finset.sum_lt_sum (fun k _ => hle k) ⟨k, Finset.mem_univ k, ?_⟩
    have := sin_sq_lt (a := x * angle n k / 2) (b := y * angle n k / 2)
      (by rw [habs x hx, habs y hy0]; nlinarith [abs_pos.mpr hk])
      (by rw [habs y hy0]; linarith [hy k])
    linarith
  exact lt_of_pow_lt_pow_left₀ 2 (distance_nonneg n y) hlt

theorem distance_sq_ge (n : ℕ) (x : ℝ) (k : Fin n) :
    4 * Real.sin (x * |angle n k| / 2) ^ 2 ≤ distance n x ^ 2 := by
  rw [distance_sq]
  have h : Real.sin (x * |angle n k| / 2) ^ 2 = Real.sin (x * angle n k / 2) ^ 2 := by
    rcases abs_choice (angle n k) with h | h
    · rw [h]
    · rw [h, mul_neg, neg_div, Real.sin_neg, neg_sq]
  rw [h]
  exact Finset.single_le_sum (f := fun k => 4 * Real.sin (x * angle n k / 2) ^ 2)
    (fun k _ => by positivity) (Finset.mem_univ k)

theorem distance_sq_le (n : ℕ) (x : ℝ) : distance n x ^ 2 ≤ x ^ 2 * (n * (n - 1)) := by
  rw [distance_sq, ← angle_sq_eq, Finset.mul_sum]
  refine Finset.sum_le_sum fun k _ => ?_
  have h := Real.abs_sin_le_abs (x := x * angle n k / 2)
  have h2 := sq_le_sq.mpr h
  nlinarith

theorem angle_le (n : ℕ) (k : Fin n) : |angle n k| ^ 2 ≤ n * (n - 1) := by
  rw [sq_abs, ← angle_sq_eq]
  exact Finset.single_le_sum (f := fun k => angle n k ^ 2) (fun k _ => sq_nonneg _) (Finset.mem_univ k)

end matrices

section generation

open Classical

/-! ### the samples -/

/-- the samples, starting at zero -/
theorem linspace_zero (b : ℝ) (n : ℕ) :
    linspace 0 b n = (List.range n).map fun i : ℕ => (i : ℝ) * (b / (n - 1)) := by
  unfold linspace
  simp

theorem linspace_pairwise {b : ℝ} {n : ℕ} (hb : 0 < b) (hn : 2 ≤ n) :
    (linspace 0 b n).Pairwise (· < ·) := by
  rw [linspace_zero, List.pairwise_map]
  have h2 : (2 : ℝ) ≤ n := by exact_mod_cast hn
  have hc : 0 < b / ((n : ℝ) - 1) := div_pos hb (by linarith)
  refine (List.pairwise_lt_range (n := n)).imp fun {i j} h => ?_
  exact mul_lt_mul_of_pos_right (by exact_mod_cast h) hc

theorem linspace_head (b : ℝ) {n : ℕ} (hn : 1 ≤ n) : ∃ t, linspace 0 b n = 0 :: t := by
  obtain ⟨m, rfl⟩ := Nat.exists_eq_add_of_le' hn
  rw [linspace_zero, List.range_succ_eq_map, List.map_cons]
  exact ⟨_, by simp; rfl⟩

theorem mem_linspace {b : ℝ} {n : ℕ} (hn : 2 ≤ n) (hb : 0 ≤ b) {x : ℝ} (h : x ∈ linspace 0 b n) :
    0 ≤ x ∧ x ≤ b := by
  rw [linspace_zero, List.mem_map] at h
  obtain ⟨i, hi, rfl⟩ := h
  have hi' : (i : ℝ) + 1 ≤ n := by exact_mod_cast List.mem_range.mp hi
  have h2 : (2 : ℝ) ≤ n := by exact_mod_cast hn
  have hn' : (0 : ℝ) < (n : ℝ) - 1 := by linarith
  refine ⟨by positivity, ?_⟩
  rw [mul_div_assoc', div_le_iff₀ hn']
  nlinarith

/-! ### turning points -/

/-- Alternating order of the arguments of the turning points. -/
def Alt : Bool → ℝ → List (Pair ℝ) → Prop
  | _, _, [] => True
  | strict, x, p :: rest => (if strict then x < p.x else x ≤ p.x) ∧ Alt (!strict) p.x rest

/-- the last argument -/
def lastX : ℝ → List (Pair ℝ) → ℝ
  | x, [] => x
  | _, p :: rest => lastX p.x rest

/-- strictness after the list -/
def parity : Bool → List (Pair ℝ) → Bool
  | b, [] => b
  | b, _ :: rest => parity (!b) rest

theorem alt_append (b : Bool) (x : ℝ) (l : List (Pair ℝ)) (q : Pair ℝ) (h : Alt b x l)
    (hq : if parity b l then lastX x l < q.x else lastX x l ≤ q.x) : Alt b x (l ++ [q]) := by
  induction l generalizing b x with
  | nil => exact ⟨hq, trivial⟩
  | cons p rest ih => exact ⟨h.1, ih _ _ h.2 hq⟩

theorem lastX_append (x : ℝ) (l : List (Pair ℝ)) (q : Pair ℝ) : lastX x (l ++ [q]) = q.x := by
  induction l generalizing x with
  | nil => rfl
  | cons p rest ih => exact ih p.x

theorem parity_append (b : Bool) (l : List (Pair ℝ)) (q : Pair ℝ) : parity b (l ++ [q]) = !parity b l := by
  induction l generalizing b with
  | nil => rfl
  | cons p rest ih => exact ih (!b)

/-- The invariant of the loop that looks for turning points. -/
structure TurnInv (s : Turn) : Prop where
  alt : Alt false 0 s.found
  par : parity false s.found = s.descending
  lt : s.descending = true → lastX 0 s.found < s.oldX
  le : lastX 0 s.found ≤ s.oldX

theorem turnStep_inv (dist : ℝ → ℝ) (s : Turn) (x : ℝ) (hx : s.oldX < x) (h : TurnInv s) :
    TurnInv (turnStep dist s x) ∧ (turnStep dist s x).oldX = x := by
  unfold turnStep
  simp only
  split
  · next hc =>
    have hd : s.descending = false := by simpa using hc.1
    have hp := h.par
    rw [hd] at hp
    refine ⟨⟨alt_append _ _ _ _ h.alt (by rw [hp]; exact h.le), ?_, ?_, ?_⟩, rfl⟩
    · simp [parity_append, hp]
    · intro _; simpa [lastX_append] using hx
    · simpa [lastX_append] using hx.le
  · split
    · next hc =>
      have hd : s.descending = true := by simpa using hc.1
      have hp := h.par
      rw [hd] at hp
      refine ⟨⟨alt_append _ _ _ _ h.alt (by rw [hp]; exact (h.lt hd).trans hx), ?_, ?_, ?_⟩, rfl⟩
      · simp [parity_append, hp]
      · intro h; cases h
      · simp [lastX_append]
    · exact ⟨⟨h.alt, h.par, fun hd => (h.lt hd).trans hx, h.le.trans hx.le⟩, rfl⟩

theorem fold_inv (dist : ℝ → ℝ) (xs : List ℝ) (s : Turn) (hx : (s.oldX :: xs).Pairwise (· < ·))
    (h : TurnInv s) : TurnInv (xs.foldl (turnStep dist) s) := by
  induction xs generalizing s with
  | nil => exact h
  | cons x xs ih =>
    have h1 := turnStep_inv dist s x ((List.pairwise_cons.mp hx).1 x (by simp)) h
    exact ih _ (by rw [h1.2]; exact (List.pairwise_cons.mp hx).2) h1.1

theorem turningPoints_cons (dist : ℝ → ℝ) (hd : ∀ x, 0 ≤ dist x) (t : List ℝ) :
    turningPoints dist (0 :: t) = (t.foldl (turnStep dist) ⟨false, 0, dist 0, 0, []⟩).found := by
  unfold turningPoints
  rw [List.foldl_cons]
  congr 2
  unfold turnStep
  simp [not_lt.mpr (hd 0)]

theorem alt_turningPoints (dist : ℝ → ℝ) (hd : ∀ x, 0 ≤ dist x) {n : ℕ} (hn : 2 ≤ n) :
    Alt false 0 (turningPoints dist (linspace 0 100 n)) := by
  obtain ⟨t, ht⟩ := linspace_head 100 (n := n) (by omega)
  have hp := linspace_pairwise (b := 100) (n := n) (by norm_num) hn
  rw [ht] at hp ⊢
  rw [turningPoints_cons dist hd]
  refine (fold_inv dist t ⟨false, 0, dist 0, 0, []⟩ hp ⟨trivial, rfl, fun h => ?_, le_rfl⟩).alt
  cases h

/-! ### intervals -/

theorem pairUp_ordered (x : ℝ) (l : List (Pair ℝ)) (I : List (ℝ × ℝ)) (ha : Alt true x l)
    (h : pairUp l = .ok I) :
    (∀ J ∈ I, x < J.1 ∧ J.1 ≤ J.2) ∧ I.Pairwise fun J J' => J.2 < J'.1 := by
  induction l using pairUp.induct generalizing x I with
  | case1 => cases h; exact ⟨by simp, List.Pairwise.nil⟩
  | case2 => cases h
  | case3 p q rest ih =>
    simp only [pairUp, bind, Except.bind] at h
    split at h
    · cases h
    · next J hJ =>
      cases h
      obtain ⟨h1, h2, h3⟩ := ha
      obtain ⟨hm, hp⟩ := ih q.x J h3 hJ
      simp only [if_true] at h1
      simp at h2
      constructor
      · intro K hK
        rcases List.mem_cons.mp hK with rfl | hK
        · exact ⟨h1, h2⟩
        · exact ⟨(h1.trans_le h2).trans (hm K hK).1, (hm K hK).2⟩
      · exact List.pairwise_cons.mpr ⟨fun K hK => (hm K hK).1, hp⟩

theorem xPairs_ordered (l : List (Pair ℝ)) (I : List (ℝ × ℝ)) (ha : Alt false 0 l)
    (h : xPairs l = .ok I) :
    (∃ b rest, I = (0, b) :: rest ∧ 0 ≤ b ∧ ∃ p r, l = p :: r ∧ p.x = b) ∧
      I.Pairwise fun J J' => J.2 < J'.1 := by
  unfold xPairs at h
  cases l with
  | nil => cases h
  | cons p rest =>
    simp only [bind, Except.bind] at h
    split at h
    · cases h
    · next J hJ =>
      cases h
      obtain ⟨h1, h2⟩ := ha
      simp at h1
      obtain ⟨hm, hp⟩ := pairUp_ordered p.x rest J h2 hJ
      exact ⟨⟨p.x, J, rfl, h1, p, rest, rfl, rfl⟩, List.pairwise_cons.mpr ⟨fun K hK => (hm K hK).1, hp⟩⟩

theorem prune_ordered (I : List (ℝ × ℝ)) (full : List (ℝ × ℝ)) (hI : I.Pairwise fun J J' => J.2 < J'.1)
    (hf : full.Pairwise fun a b => a.2 < b.2) : (prune I full).Pairwise fun a b => a.2 < b.2 := by
  unfold prune
  rw [List.pairwise_flatMap]
  refine ⟨fun J _ => hf.filter _, hI.imp fun {J J'} h a ha b hb => ?_⟩
  have h1 := (List.mem_filter.mp ha).2
  have h2 := (List.mem_filter.mp hb).2
  simp only [decide_eq_true_eq] at h1 h2
  linarith [h1.2, h2.1]

theorem mem_prune {I : List (ℝ × ℝ)} {full : List (ℝ × ℝ)} {r : ℝ × ℝ} (h : r ∈ prune I full) :
    r ∈ full := by
  unfold prune at h
  obtain ⟨J, -, h⟩ := List.mem_flatMap.mp h
  exact (List.mem_filter.mp h).1

/-! ### the largest argument -/

theorem findBest_spec (dist : ℝ → ℝ) (best step : ℝ) (xs : List ℝ) (b : ℝ)
    (h : findBest dist best step xs = .ok b) :
    ∃ pre x post, xs = pre ++ x :: post ∧ (∀ p ∈ pre, dist p ≤ best) ∧ best < dist x ∧ b = x - step := by
  induction xs with
  | nil => cases h
  | cons x rest ih =>
    unfold findBest at h
    split at h
    · split at h
      · cases h; exact ⟨[], x, rest, rfl, by simp, ‹_›, rfl⟩
      · cases h
    · obtain ⟨pre, y, post, rfl, h1, h2, h3⟩ := ih h
      refine ⟨x :: pre, y, post, rfl, fun p hp => ?_, h2, h3⟩
      rcases List.mem_cons.mp hp with rfl | hp
      · exact le_of_not_gt ‹_›
      · exact h1 p hp

/-- In terms of the samples `0, h, 2h, …`. -/
theorem findBest_linspace (dist : ℝ → ℝ) (best b maxX : ℝ) (n : ℕ)
    (h : findBest dist best (maxX / (n - 1)) (linspace 0 maxX n) = .ok b) :
    ∃ k : ℕ, k < n ∧ (∀ i : ℕ, i < k → dist (i * (maxX / (n - 1))) ≤ best) ∧
      best < dist (k * (maxX / (n - 1))) ∧ b = k * (maxX / (n - 1)) - maxX / (n - 1) := by
  obtain ⟨pre, x, post, hx, h1, h2, h3⟩ := findBest_spec _ _ _ _ _ h
  rw [linspace_zero] at hx
  have hl : pre.length < n := by
    have := congrArg List.length hx
    simp at this
    omega
  have hg : ∀ i : ℕ, i < n → ((List.range n).map fun i : ℕ => (i : ℝ) * (maxX / (n - 1)))[i]?
      = some ((i : ℝ) * (maxX / (n - 1))) := by
    intro i hi
    simp [hi]
  refine ⟨pre.length, hl, fun i hi => h1 _ ?_, ?_, ?_⟩
  · have := hg i (by omega)
    rw [hx, List.getElem?_append_left hi] at this
    exact List.mem_of_getElem? this
  · have := hg pre.length hl
    rw [hx] at this
    simp at this
    rw [← this]; exact h2
  · have := hg pre.length hl
    rw [hx] at this
    simp at this
    rw [← this]; exact h3

/-- The largest argument lies before the first half turn, for matrices of order up to fifteen and
samples at most 100/9999 apart. -/
theorem best_before_half_turn {n : ℕ} (hn : n ≤ 15) (h : ℝ) (hh : 0 ≤ h) (hh' : h ≤ 100 / 9999)
    (k : ℕ) (hk : ∀ i : ℕ, i < k → distance n (i * h) ≤ 2 * Real.sqrt n / 4) (j : Fin n) :
    (k * h - h) * |angle n j| ≤ Real.pi := by
  by_contra hc
  push_neg at hc
  set m := |angle n j| with hm
  have hm0 : 0 ≤ m := abs_nonneg _
  have hpi := Real.pi_pos
  have hmpos : 0 < m := by
    rcases hm0.lt_or_eq with h0 | h0
    · exact h0
    · rw [← h0, mul_zero] at hc; linarith
  have hhpos : 0 < h := by
    rcases hh.lt_or_eq with h0 | h0
    · exact h0
    · rw [← h0] at hc; simp at hc; linarith
  have hmh : 0 < m * h := by positivity
  have hn15 : (n : ℝ) ≤ 15 := by exact_mod_cast hn
  have hn0 : (0 : ℝ) ≤ n := by positivity
  have hm2 : m ^ 2 ≤ 210 := (angle_le n j).trans (by nlinarith)
  -- the sample just before half a turn
  set i := ⌊Real.pi / (m * h)⌋₊ with hi
  have hi1 : (i : ℝ) * (m * h) ≤ Real.pi := by
    have := Nat.floor_le (show 0 ≤ Real.pi / (m * h) by positivity)
    rwa [le_div_iff₀ hmh] at this
  have hi2 : Real.pi < ((i : ℝ) + 1) * (m * h) := by
    have := Nat.lt_floor_add_one (Real.pi / (m * h))
    rwa [div_lt_iff₀ hmh] at this
  have hik : i < k := by
    have h1 : (i : ℝ) * (m * h) < (k - 1) * (m * h) := by nlinarith
    have h2 := lt_of_mul_lt_mul_right h1 hmh.le
    have h3 : (i : ℝ) < k := by linarith
    exact_mod_cast h3
  have hd := hk i hik
  have hge := distance_sq_ge n (i * h) j
  rw [← hm] at hge
  set u := Real.pi / 2 - i * h * m / 2 with hu
  have hu0 : 0 ≤ u := by rw [hu]; nlinarith
  have hu1 : u ≤ m * h / 2 := by rw [hu]; nlinarith
  have hu2 : u ^ 2 ≤ 1 / 100 := by
    have h1 : u ^ 2 ≤ (m * h / 2) ^ 2 := pow_le_pow_left₀ hu0 hu1 2
    have h2 : h ^ 2 ≤ (100 / 9999) ^ 2 := pow_le_pow_left₀ hh hh' 2
    have h3 : (m * h / 2) ^ 2 = m ^ 2 * h ^ 2 / 4 := by ring
    have h4 : m ^ 2 * h ^ 2 ≤ 210 * (100 / 9999) ^ 2 :=
      mul_le_mul hm2 h2 (sq_nonneg h) (by norm_num)
    rw [h3] at h1
    refine h1.trans ?_
    norm_num at h4
    linarith
  have hsin : Real.sin (i * h * m / 2) = Real.cos u := by
    rw [hu, Real.cos_pi_div_two_sub]
  have hcos := Real.one_sub_sq_div_two_le_cos (x := u)
  rw [hsin] at hge
  have h5 : (199 / 200 : ℝ) ≤ Real.cos u := by linarith
  have h6 : (199 / 200 : ℝ) ^ 2 ≤ Real.cos u ^ 2 := pow_le_pow_left₀ (by norm_num) h5 2
  have h7 : distance n (i * h) ^ 2 ≤ (2 * Real.sqrt n / 4) ^ 2 :=
    pow_le_pow_left₀ (distance_nonneg _ _) hd 2
  have h8 : (2 * Real.sqrt n / 4) ^ 2 = n / 4 := by
    rw [div_pow, mul_pow, Real.sq_sqrt hn0]; ring
  rw [h8] at h7
  norm_num at h6
  linarith

/-- The largest argument is positive. -/
theorem best_pos {n : ℕ} (hn1 : 1 ≤ n) (hn : n ≤ 15) (h : ℝ) (hh : 0 ≤ h) (hh' : h ≤ 100 / 9999) (k : ℕ)
    (hk : 2 * Real.sqrt n / 4 < distance n (k * h)) : 0 < k * h - h := by
  have hn15 : (n : ℝ) ≤ 15 := by exact_mod_cast hn
  have hn1' : (1 : ℝ) ≤ n := by exact_mod_cast hn1
  have h8 : (2 * Real.sqrt n / 4) ^ 2 = n / 4 := by
    rw [div_pow, mul_pow, Real.sq_sqrt (by linarith)]; ring
  have h0 : 0 ≤ 2 * Real.sqrt n / 4 := by positivity
  have h1 := pow_lt_pow_left₀ hk h0 (two_ne_zero)
  rw [h8] at h1
  have h2 := h1.trans_le (distance_sq_le n (k * h))
  have hk2 : 2 ≤ k := by
    by_contra hc
    push_neg at hc
    have hk1 : (k : ℝ) ≤ 1 := by exact_mod_cast (show k ≤ 1 by omega)
    have hk0 : (0 : ℝ) ≤ k := by positivity
    have h3 : (k * h) ^ 2 ≤ (100 / 9999) ^ 2 := by
      refine pow_le_pow_left₀ (by positivity) ?_ 2
      nlinarith
    have h4 : (n : ℝ) * (n - 1) ≤ n * 14 := by nlinarith
    have h5 : (k * h) ^ 2 * (n * (n - 1)) ≤ (100 / 9999) ^ 2 * (n * 14) :=
      mul_le_mul h3 h4 (by nlinarith) (by norm_num)
    norm_num at h5
    linarith
  have hk2' : (2 : ℝ) ≤ k := by exact_mod_cast hk2
  rcases hh.lt_or_eq with h0 | h0
  · nlinarith
  · exfalso
    rw [← h0] at h2
    simp at h2
    linarith

theorem alt_bounds (dist : ℝ → ℝ) (xs : List ℝ) (s : Turn) (B : ℝ) (hx : ∀ x ∈ xs, x ≤ B)
    (hs : s.oldX ≤ B) (hf : ∀ p ∈ s.found, p.x ≤ B) :
    ∀ p ∈ (xs.foldl (turnStep dist) s).found, p.x ≤ B := by
  induction xs generalizing s with
  | nil => exact hf
  | cons x xs ih =>
    refine ih _ (fun y hy => hx y (List.mem_cons_of_mem _ hy)) ?_ ?_
    · unfold turnStep
      simp only
      split
      · exact hx x (by simp)
      · split <;> exact hx x (by simp)
    · unfold turnStep
      simp only
      intro p hp
      split at hp
      · rcases List.mem_append.mp hp with hp | hp
        · exact hf p hp
        · simp at hp; subst hp; exact hs
      · split at hp
        · rcases List.mem_append.mp hp with hp | hp
          · exact hf p hp
          · simp at hp; subst hp; exact hx x (by simp)
        · exact hf p hp

theorem alt_nonneg (b : Bool) (x : ℝ) (l : List (Pair ℝ)) (h : Alt b x l) : ∀ p ∈ l, x ≤ p.x := by
  induction l generalizing b x with
  | nil => simp
  | cons p rest ih =>
    have h1 : x ≤ p.x := by
      have := h.1
      split at this
      · exact this.le
      · exact this
    intro q hq
    rcases List.mem_cons.mp hq with rfl | hq
    · exact h1
    · exact h1.trans (ih _ _ h.2 q hq)

/-- The steps of a successful generation. -/
theorem generate_ok {dist : ℝ → ℝ} {n bins : ℕ} {rows : List (ℝ × ℝ)}
    (h : generate dist n bins = .ok rows) :
    ∃ I b, xPairs (turningPoints dist (linspace 0 100 bins)) = .ok I ∧
      findBest dist (2 * Real.sqrt n / 4)
        (((turningPoints dist (linspace 0 100 bins)).getLast?.getD ⟨0, 0⟩).x / (bins - 1))
        (linspace 0 ((turningPoints dist (linspace 0 100 bins)).getLast?.getD ⟨0, 0⟩).x bins) = .ok b ∧
      rows = prune I ((linspace 0 b bins).map fun x => (dist x, x)) ∧ 50 ≤ rows.length := by
  unfold generate at h
  simp only [bind, Except.bind, sub_zero] at h
  split at h
  · cases h
  · next I hI =>
    split at h
    · cases h
    · next b hb =>
      unfold saveSequence at h
      split at h
      · cases h; exact ⟨I, b, hI, hb, rfl, ‹_›⟩
      · cases h

theorem maxX_bounds (dist : ℝ → ℝ) (hd : ∀ x, 0 ≤ dist x) {n : ℕ} (hn : 2 ≤ n) :
    0 ≤ ((turningPoints dist (linspace 0 100 n)).getLast?.getD ⟨0, 0⟩).x ∧
      ((turningPoints dist (linspace 0 100 n)).getLast?.getD ⟨0, 0⟩).x ≤ 100 := by
  have ha := alt_turningPoints dist hd hn
  have hb : ∀ p ∈ turningPoints dist (linspace 0 100 n), p.x ≤ 100 := by
    unfold turningPoints
    exact alt_bounds dist _ ⟨false, 0, 0, 0, []⟩ 100
      (fun x hx => (mem_linspace hn (by norm_num) hx).2) (by norm_num) (by simp)
  cases hl : (turningPoints dist (linspace 0 100 n)).getLast? with
  | none => simp
  | some p =>
    have hm := List.mem_of_getLast? hl
    exact ⟨alt_nonneg _ _ _ ha p hm, hb p hm⟩

/-- The rows of a generated file. -/
theorem generate_proper {n : ℕ} (hn1 : 2 ≤ n) (hn : n ≤ 15) {rows : List (ℝ × ℝ)}
    (h : generate (distance n) n 10000 = .ok rows) :
    Proper rows ∧ (∀ r ∈ rows, r.1 = distance n r.2) ∧ 50 ≤ rows.length := by
  obtain ⟨I, b, hI, hb, rfl, hlen⟩ := generate_ok h
  have hd := distance_nonneg n
  obtain ⟨hm0, hm1⟩ := maxX_bounds (distance n) hd (n := 10000) (by norm_num)
  set M := ((turningPoints (distance n) (linspace 0 100 10000)).getLast?.getD ⟨0, 0⟩).x with hM
  obtain ⟨k, -, hk1, hk2, hk3⟩ := findBest_linspace _ _ _ _ _ hb
  set st : ℝ := M / (((10000 : ℕ) : ℝ) - 1) with hst
  have hs0 : 0 ≤ st := by rw [hst]; apply div_nonneg hm0; norm_num
  have hs1 : st ≤ 100 / 9999 := by
    rw [hst, div_le_div_iff₀ (by norm_num) (by norm_num)]
    norm_num
    linarith
  have hhalf : ∀ j, b * |angle n j| ≤ Real.pi := by
    intro j
    rw [hk3]
    exact best_before_half_turn hn st hs0 hs1 k hk1 j
  have hbpos : 0 < b := by
    rw [hk3]
    exact best_pos (by omega) hn st hs0 hs1 k hk2
  obtain ⟨⟨c, rest, rfl, hc, -⟩, hord⟩ := xPairs_ordered _ _ (alt_turningPoints _ hd (by norm_num)) hI
  have hfull : ((linspace 0 b 10000).map fun x => (distance n x, x)).Pairwise fun a b => a.2 < b.2 := by
    rw [List.pairwise_map]
    exact linspace_pairwise hbpos (by norm_num)
  have hpr := prune_ordered _ _ hord hfull
  have hmem : ∀ r ∈ prune ((0, c) :: rest) ((linspace 0 b 10000).map fun x => (distance n x, x)),
      r.1 = distance n r.2 ∧ 0 ≤ r.2 ∧ r.2 ≤ b := by
    intro r hr
    obtain ⟨x, hx, rfl⟩ := List.mem_map.mp (mem_prune hr)
    exact ⟨rfl, mem_linspace (by norm_num) hbpos.le hx⟩
  refine ⟨⟨?_, ?_⟩, fun r hr => (hmem r hr).1, hlen⟩
  · obtain ⟨t, ht⟩ := linspace_head b (n := 10000) (by norm_num)
    rw [ht]
    unfold prune
    rw [List.map_cons, List.flatMap_cons, List.filter_cons_of_pos (by simp [hc]), distance_zero]
    rfl
  · refine hpr.imp_of_mem fun {x y} hx hy hxy => ?_
    obtain ⟨hx1, hx2, -⟩ := hmem x hx
    obtain ⟨hy1, -, hy2⟩ := hmem y hy
    rw [hx1, hy1]
    exact distance_lt hn1 hx2 hxy fun j =>
      (mul_le_mul_of_nonneg_right hy2 (abs_nonneg _)).trans (hhalf j)

/-! ### order two -/

theorem angle_two (k : Fin 2) : |angle 2 k| = 1 := by
  have h1 : angle 2 0 + angle 2 1 = 0 := by
    have h := (herm_isHermitian 2).trace_eq_sum_eigenvalues
    rw [Fin.sum_univ_two, Matrix.trace_fin_two] at h
    have h2 : herm 2 0 0 + herm 2 1 1 = 0 := by
      simp [herm, sksm_apply]
    rw [h2] at h
    have := congrArg Complex.re h
    simpa [angle] using this.symm
  have h2 := angle_sq_eq 2
  rw [Fin.sum_univ_two] at h2
  norm_num at h2
  have h3 : angle 2 1 = - angle 2 0 := by linarith
  rw [h3] at h2
  have h4 : angle 2 0 ^ 2 = 1 := by nlinarith
  have h5 : |angle 2 0| = 1 := by
    rw [← sq_abs] at h4
    nlinarith [abs_nonneg (angle 2 0)]
  fin_cases k
  · exact h5
  · show |angle 2 1| = 1
    rw [h3, abs_neg, h5]

theorem distance_two_sq (x : ℝ) : distance 2 x ^ 2 = 8 * Real.sin (x / 2) ^ 2 := by
  rw [distance_sq, Fin.sum_univ_two]
  have h : ∀ k : Fin 2, Real.sin (x * angle 2 k / 2) ^ 2 = Real.sin (x / 2) ^ 2 := by
    intro k
    rcases abs_choice (angle 2 k) with h | h
    · rw [← h, angle_two, mul_one]
    · have : angle 2 k = -1 := by have := angle_two k; linarith
      rw [this, mul_neg, mul_one, neg_div, Real.sin_neg, neg_sq]
  rw [h, h]; ring

theorem distance_two_lt {x y : ℝ} (hx : 0 ≤ x) (hxy : x < y) (hy : y ≤ Real.pi) :
    distance 2 x < distance 2 y :=
  distance_lt le_rfl hx hxy fun k => by rw [angle_two, mul_one]; exact hy

theorem distance_two_large {x : ℝ} (h1 : 3 ≤ x) (h2 : x ≤ Real.pi) : 1 ≤ distance 2 x := by
  have hpi := Real.pi_lt_d2
  have hs : Real.sin (x / 2) = Real.cos (Real.pi / 2 - x / 2) := (Real.cos_pi_div_two_sub _).symm
  have hc := Real.one_sub_sq_div_two_le_cos (x := Real.pi / 2 - x / 2)
  have h3 : (Real.pi / 2 - x / 2) ^ 2 ≤ (3 / 40) ^ 2 := by
    refine pow_le_pow_left₀ (by linarith) (by linarith) 2
  have h4 : (1 / 2 : ℝ) ≤ Real.sin (x / 2) := by rw [hs]; norm_num at h3; linarith
  have h5 := distance_two_sq x
  have h6 : (1 / 2 : ℝ) ^ 2 ≤ Real.sin (x / 2) ^ 2 := pow_le_pow_left₀ (by norm_num) h4 2
  nlinarith [distance_nonneg 2 x]

theorem distance_two_shift (x : ℝ) : distance 2 x ^ 2 = 8 * Real.sin (16 * Real.pi - x / 2) ^ 2 := by
  rw [distance_two_sq]
  congr 1
  rw [show 16 * Real.pi - x / 2 = -(x / 2) + (8 : ℕ) * (2 * Real.pi) by push_cast; ring,
    Real.sin_add_nat_mul_two_pi, Real.sin_neg, neg_sq]

theorem distance_two_end : distance 2 100 < 1 := by
  have h1 := Real.pi_gt_d4
  have h2 := Real.pi_lt_d4
  have h := distance_two_shift 100
  have h3 := sq_le_sq.mpr (Real.abs_sin_le_abs (x := 16 * Real.pi - 100 / 2))
  have h4 : (16 * Real.pi - 100 / 2) ^ 2 ≤ (3 / 10) ^ 2 :=
    pow_le_pow_left₀ (by linarith) (by linarith) 2
  norm_num at h4
  nlinarith [distance_nonneg 2 100]

theorem distance_two_falls {x : ℝ} (hx1 : 99 ≤ x) (hx2 : x < 100) : distance 2 100 < distance 2 x := by
  have h1 := Real.pi_gt_d4
  have h2 := Real.pi_lt_d4
  have h : distance 2 100 ^ 2 < distance 2 x ^ 2 := by
    rw [distance_two_shift, distance_two_shift]
    have := sin_sq_lt (a := 16 * Real.pi - 100 / 2) (b := 16 * Real.pi - x / 2)
      (by rw [abs_of_pos (by linarith), abs_of_pos (by linarith)]; linarith)
      (by rw [abs_of_pos (by linarith)]; linarith)
    linarith
  exact lt_of_pow_lt_pow_left₀ 2 (distance_nonneg 2 x) h

/-- The state of the search for turning points after `k` samples. -/
noncomputable def stateAfter (k : ℕ) : Turn :=
  ((List.range k).map fun i : ℕ => (i : ℝ) * (100 / 9999)).foldl (turnStep (distance 2)) ⟨false, 0, 0, 0, []⟩

theorem stateAfter_succ (k : ℕ) :
    stateAfter (k + 1) = turnStep (distance 2) (stateAfter k) (k * (100 / 9999)) := by
  unfold stateAfter
  rw [List.range_succ, List.map_append, List.foldl_append]
  rfl

structure TwoInv (s : Turn) (x : ℝ) : Prop where
  turn : TurnInv s
  x_eq : s.oldX = x
  d_eq : s.oldDistance = distance 2 x
  down : s.descending = true → 1 ≤ s.previous ∧ 3 ≤ x
  up : s.descending = false → x ≤ Real.pi ∨ 1 ≤ distance 2 x ∧ 3 ≤ x
  found : ∀ p ∈ s.found, 1 ≤ distance 2 p.x ∧ 3 ≤ p.x

theorem twoInv_step (s : Turn) (x y : ℝ) (hx : 0 ≤ x) (hxy : x < y) (hy : y ≤ x + 100 / 9999)
    (h : TwoInv s x) : TwoInv (turnStep (distance 2) s y) y := by
  have ht := turnStep_inv (distance 2) s y (by rw [h.x_eq]; exact hxy) h.turn
  have hpi := Real.pi_gt_d2
  refine ⟨ht.1, ht.2, ?_, ?_, ?_, ?_⟩
  · unfold turnStep; simp only; split
    · rfl
    · split <;> rfl
  all_goals
    unfold turnStep
    simp only [h.x_eq, h.d_eq]
    split
    · next hc =>
      have hd : s.descending = false := by simpa using hc.1
      have hold : 1 ≤ distance 2 x ∧ 3 ≤ x := by
        rcases h.up hd with h1 | h1
        · have h2 : Real.pi < y := by
            by_contra hn
            exact absurd hc.2 (not_lt.mpr (distance_two_lt hx hxy (le_of_not_gt hn)).le)
          have h3 : 3 ≤ x := by norm_num at hy; linarith
          exact ⟨distance_two_large h3 h1, h3⟩
        · exact h1
      first
        | (intro _; exact ⟨hold.1, by linarith [hold.2]⟩)
        | (intro hf; cases hf; done)
        | (intro p hp
           rcases List.mem_append.mp hp with hp | hp
           · exact h.found p hp
           · simp at hp; subst hp; exact hold)
    · next hn =>
      split
      · next hc =>
        have hd : s.descending = true := by simpa using hc.1
        obtain ⟨h1, h2⟩ := h.down hd
        first
          | (intro hf; cases hf; done)
          | (intro _; exact .inr ⟨h1.trans hc.2, by linarith⟩)
          | (intro p hp
             rcases List.mem_append.mp hp with hp | hp
             · exact h.found p hp
             · simp at hp; subst hp; exact ⟨h1.trans hc.2, by linarith⟩)
      · next hm =>
        first
          | exact h.found
          | (intro hd; obtain ⟨h1, h2⟩ := h.down hd; exact ⟨h1, by linarith⟩)
          | (intro hd
             have hge : distance 2 x ≤ distance 2 y := by
               by_contra hl
               exact hn ⟨by simpa using hd, lt_of_not_ge hl⟩
             rcases h.up hd with h1 | h1
             · by_cases h2 : y ≤ Real.pi
               · exact .inl h2
               · have h3 : 3 ≤ x := by norm_num at hy; linarith
                 exact .inr ⟨(distance_two_large h3 h1).trans hge, by linarith⟩
             · exact .inr ⟨h1.1.trans hge, by linarith [h1.2]⟩)

theorem twoInv (k : ℕ) : TwoInv (stateAfter (k + 1)) (k * (100 / 9999)) := by
  induction k with
  | zero =>
    have h : stateAfter 1 = ⟨false, 0, 0, 0, []⟩ := by
      rw [stateAfter_succ]
      simp [stateAfter, turnStep, distance_zero]
    rw [h]
    refine ⟨⟨trivial, rfl, fun h => ?_, le_rfl⟩, by simp, by simp [distance_zero], fun h => ?_,
      fun _ => .inl (by simpa using Real.pi_pos.le), by simp⟩
    · cases h
    · cases h
  | succ k ih =>
    rw [stateAfter_succ]
    refine twoInv_step _ _ _ (by positivity) ?_ ?_ ih
    · push_cast; linarith
    · push_cast; linarith

theorem pairUp_of_parity (b : Bool) (l : List (Pair ℝ)) (h : parity b l = b) : ∃ I, pairUp l = .ok I := by
  induction l using pairUp.induct with
  | case1 => exact ⟨[], rfl⟩
  | case2 => cases b <;> cases h
  | case3 p q rest ih =>
    simp only [parity, Bool.not_not] at h
    obtain ⟨I, hI⟩ := ih h
    exact ⟨(p.x, q.x) :: I, by simp [pairUp, hI, bind, Except.bind]⟩

theorem findBest_succeeds (dist : ℝ → ℝ) (best st : ℝ) (k m : ℕ) (hk : dist (k * st) ≤ best)
    (hex : ∃ i, k < i ∧ i < k + 1 + m ∧ best < dist (i * st)) :
    ∃ b, findBest dist best st ((List.range' (k + 1) m).map fun i : ℕ => (i : ℝ) * st) = .ok b := by
  induction m generalizing k with
  | zero => obtain ⟨i, h1, h2, -⟩ := hex; omega
  | succ m ih =>
    rw [List.range'_succ, List.map_cons, findBest]
    split
    · rw [if_pos]
      · exact ⟨_, rfl⟩
      · rw [show ((k + 1 : ℕ) : ℝ) * st - st = k * st by push_cast; ring]
        exact hk
    · next hn =>
      refine ih (k + 1) (le_of_not_gt hn) ?_
      obtain ⟨i, h1, h2, h3⟩ := hex
      refine ⟨i, ?_, by omega, h3⟩
      rcases Nat.lt_or_ge (k + 1) i with h | h
      · exact h
      · have : i = k + 1 := by omega
        subst this
        exact absurd h3 hn

/-- Generation succeeds for matrices of order two. -/
theorem generate_two_aux (m : ℕ) (hm : (m : ℝ) = 9998) :
    ∃ rows, generate (distance 2) 2 (m + 2) = .ok rows := by
  have hm0 : 50 ≤ m := by
    have : (50 : ℝ) ≤ m := by rw [hm]; norm_num
    exact_mod_cast this
  have hm1 : ((m + 1 : ℕ) : ℝ) = 9999 := by push_cast; rw [hm]; norm_num
  have hm2 : ((m + 2 : ℕ) : ℝ) - 1 = 9999 := by push_cast; rw [hm]; norm_num
  have hinv := twoInv (m + 1)
  have hprev := twoInv m
  have hT : turningPoints (distance 2) (linspace 0 100 (m + 2)) = (stateAfter (m + 2)).found := by
    unfold turningPoints stateAfter
    rw [linspace_zero, hm2]
  have hdesc : (stateAfter (m + 2)).descending = true := by
    have h1 : ((m + 1 : ℕ) : ℝ) * (100 / 9999) = 100 := by rw [hm1]; norm_num
    rw [stateAfter_succ, h1]
    have hfall : distance 2 100 < distance 2 ((m : ℝ) * (100 / 9999)) := by
      rw [hm]
      exact distance_two_falls (by norm_num) (by norm_num)
    unfold turnStep
    simp only
    split
    · rfl
    · next hn =>
      have hd : (stateAfter (m + 1)).descending = true := by
        by_contra hf
        refine hn ⟨hf, ?_⟩
        rw [hprev.d_eq]
        exact hfall
      split
      · next hc =>
        exfalso
        have := (hprev.down hd).1
        linarith [distance_two_end, hc.2]
      · exact hd
  have hpar := hinv.turn.par
  rw [hdesc] at hpar
  generalize hp : (stateAfter (m + 2)).found = found at hT hpar
  have hf := hinv.found
  rw [hp] at hf
  cases found with
  | nil => cases hpar
  | cons p rest =>
    obtain ⟨J, hJ⟩ := pairUp_of_parity true rest hpar
    have hlast : ∃ q ∈ p :: rest, (p :: rest).getLast?.getD ⟨0, 0⟩ = q := by
      refine ⟨(p :: rest).getLast (by simp), List.getLast_mem _, ?_⟩
      rw [List.getLast?_eq_some_getLast (by simp)]
      rfl
    obtain ⟨q, hq, hq'⟩ := hlast
    have hq1 := hf q hq
    set st : ℝ := q.x / 9999 with hst
    have hbest : 2 * Real.sqrt (2 : ℕ) / 4 < 1 := by
      have : Real.sqrt (2 : ℕ) < 2 := by
        rw [Real.sqrt_lt' (by norm_num)]; norm_num
      rw [Nat.cast_ofNat] at this ⊢
      linarith
    have hbest0 : 0 ≤ 2 * Real.sqrt (2 : ℕ) / 4 := by positivity
    have hlin : linspace 0 q.x (m + 2)
        = (0 : ℝ) :: (List.range' 1 (m + 1)).map fun i : ℕ => (i : ℝ) * st := by
      rw [linspace_zero, List.range_eq_range', List.range'_succ, List.map_cons]
      rw [hm2]
      simp [hst]
    obtain ⟨b, hb⟩ := findBest_succeeds (distance 2) (2 * Real.sqrt (2 : ℕ) / 4) st 0 (m + 1)
      (by simpa [distance_zero] using hbest0)
      ⟨m + 1, by omega, by omega, by
        rw [hst, hm1, show (9999 : ℝ) * (q.x / 9999) = q.x by ring]
        linarith [hq1.1]⟩
    have hb' : findBest (distance 2) (2 * Real.sqrt (2 : ℕ) / 4) (q.x / (((m + 2 : ℕ) : ℝ) - 1))
        (linspace 0 q.x (m + 2)) = .ok b := by
      rw [hlin, findBest, if_neg (by rw [distance_zero]; exact not_lt.mpr hbest0)]
      rw [hm2]
      exact hb
    obtain ⟨hx0, hx1⟩ := maxX_bounds (distance 2) (distance_nonneg 2) (n := m + 2) (by omega)
    rw [hT, hq'] at hx0 hx1
    obtain ⟨k, -, hk1, hk2, hk3⟩ := findBest_linspace _ _ _ _ _ hb'
    have hs0 : 0 ≤ q.x / (((m + 2 : ℕ) : ℝ) - 1) := by rw [hm2]; apply div_nonneg hx0; norm_num
    have hs1 : q.x / (((m + 2 : ℕ) : ℝ) - 1) ≤ 100 / 9999 := by
      rw [hm2]
      apply div_le_div_of_nonneg_right hx1; norm_num
    have hbpi : b ≤ Real.pi := by
      have := best_before_half_turn (n := 2) (by norm_num) _ hs0 hs1 k hk1 0
      rw [angle_two, mul_one, ← hk3] at this
      exact this
    have hbpos : 0 < b := by
      rw [hk3]
      exact best_pos (by norm_num) (by norm_num) _ hs0 hs1 k hk2
    have hpx := hf p (by simp)
    unfold generate
    simp only [bind, Except.bind, hT, xPairs, hJ, hq', sub_zero, hb']
    unfold saveSequence
    rw [if_pos]
    · exact ⟨_, rfl⟩
    · unfold prune
      rw [List.flatMap_cons, List.length_append]
      refine le_trans ?_ (Nat.le_add_right _ _)
      have hsub : List.Sublist ((List.range 50).map fun i : ℕ => (distance 2 ((i : ℝ) * (b / 9999)),
          (i : ℝ) * (b / 9999))) ((linspace 0 b (m + 2)).map fun x => (distance 2 x, x)) := by
        rw [linspace_zero, List.map_map]
        have h1 : List.range 50 = (List.range (m + 2)).take 50 := by
          rw [List.take_range, min_eq_left (by omega)]
        rw [h1, List.map_take]
        refine (List.take_sublist _ _).trans ?_
        rw [hm2]
        exact List.Sublist.refl _
      have hfil := (hsub.filter fun r => decide ((0, p.x).1 ≤ r.2 ∧ r.2 ≤ (0, p.x).2)).length_le
      refine le_trans ?_ hfil
      rw [List.filter_eq_self.mpr, List.length_map, List.length_range]
      intro r hr
      obtain ⟨i, hi, rfl⟩ := List.mem_map.mp hr
      have hi50 : (i : ℝ) ≤ 50 := by exact_mod_cast (List.mem_range.mp hi).le
      have hpi := Real.pi_lt_d2
      simp only [decide_eq_true_eq]
      refine ⟨by positivity, ?_⟩
      have h1 : (i : ℝ) * (b / 9999) ≤ 50 * (4 / 9999) :=
        mul_le_mul hi50 (by apply div_le_div_of_nonneg_right <;> linarith) (by positivity) (by norm_num)
      norm_num at h1
      linarith [hpx.2]

theorem generate_two : ∃ rows, generate (distance 2) 2 10000 = .ok rows :=
  generate_two_aux 9998 (by norm_num)

end generation

end Pibronic.Orthonormal
