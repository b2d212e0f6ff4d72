import Verif.Lemmas.ExpBounds
import Mathlib.Analysis.InnerProductSpace.l2Space
import Mathlib.Analysis.SpecialFunctions.Complex.LogBounds

set_option autoImplicit false
set_option linter.unusedSectionVars false

/-! Powers of one operator, compared with the exponential of a matrix that is a finite part of its generator. -/
namespace Pibronic.Ritz
open Finset Filter Topology Pibronic.PIMC Spec.PIMC
open scoped Matrix.Norms.L2Operator

/-! ### one step of the comparison -/

section
variable {ι : Type*}

theorem cut_identity (F : Finset ι) (h : ι → ι → ℝ) (hsymm : ∀ m n, h m n = h n m) (χ w : ι → ℝ) :
    ∑ m ∈ F, χ m ^ 2 * w m * ∑ n ∈ F, h m n * w n
      = ∑ m ∈ F, ∑ n ∈ F, (χ m * w m) * h m n * (χ n * w n)
        + (∑ m ∈ F, ∑ n ∈ F, (χ m - χ n) ^ 2 * (w m * h m n * w n)) / 2 := by
  have h1 : ∑ m ∈ F, χ m ^ 2 * w m * ∑ n ∈ F, h m n * w n = ∑ m ∈ F, ∑ n ∈ F, χ m ^ 2 * (w m * h m n * w n) := by
    refine sum_congr rfl fun m _ => ?_
    rw [mul_sum]
    exact sum_congr rfl fun n _ => by ring
  have h2 : ∑ m ∈ F, ∑ n ∈ F, χ m ^ 2 * (w m * h m n * w n) = ∑ m ∈ F, ∑ n ∈ F, χ n ^ 2 * (w m * h m n * w n) := by
    rw [sum_comm]
    refine sum_congr rfl fun m _ => sum_congr rfl fun n _ => ?_
    rw [hsymm n m]; ring
  have h3 : ∑ m ∈ F, ∑ n ∈ F, (χ m - χ n) ^ 2 * (w m * h m n * w n)
      = ∑ m ∈ F, ∑ n ∈ F, χ m ^ 2 * (w m * h m n * w n) + ∑ m ∈ F, ∑ n ∈ F, χ n ^ 2 * (w m * h m n * w n)
        - 2 * ∑ m ∈ F, ∑ n ∈ F, (χ m * w m) * h m n * (χ n * w n) := by
    simp only [mul_sum, ← sum_add_distrib, ← sum_sub_distrib]
    exact sum_congr rfl fun m _ => sum_congr rfl fun n _ => by ring
  rw [h1, h3, ← h2]
  ring

theorem cut_step (F : Finset ι) (h : ι → ι → ℝ) (hsymm : ∀ m n, h m n = h n m) (χ w w' r : ι → ℝ) (τ c Δ : ℝ) (hτ : 0 ≤ τ)
    (hw : ∀ m ∈ F, χ m ≠ 0 → w' m = w m - τ * ∑ n ∈ F, h m n * w n + r m)
    (hform : ∀ u : ι → ℝ, -c * ∑ m ∈ F, u m ^ 2 ≤ ∑ m ∈ F, ∑ n ∈ F, u m * h m n * u n)
    (hcut : ∀ n ∈ F, ∑ m ∈ F, (χ m - χ n) ^ 2 * |h m n| ≤ Δ) :
    ∑ m ∈ F, χ m ^ 2 * w' m ^ 2 ≤ (1 + 2 * c * τ) * ∑ m ∈ F, χ m ^ 2 * w m ^ 2 + τ * Δ * ∑ m ∈ F, w m ^ 2
      + ∑ m ∈ F, χ m ^ 2 * (2 * w m * r m + (τ * ∑ n ∈ F, h m n * w n - r m) ^ 2) := by
  have e : ∑ m ∈ F, χ m ^ 2 * w' m ^ 2 = ∑ m ∈ F, χ m ^ 2 * w m ^ 2
      - 2 * τ * ∑ m ∈ F, χ m ^ 2 * w m * ∑ n ∈ F, h m n * w n
      + ∑ m ∈ F, χ m ^ 2 * (2 * w m * r m + (τ * ∑ n ∈ F, h m n * w n - r m) ^ 2) := by
    rw [mul_sum, ← sum_sub_distrib, ← sum_add_distrib]
    refine sum_congr rfl fun m hm => ?_
    by_cases h0 : χ m = 0
    · simp [h0]
    · rw [hw m hm h0]; ring
  rw [e, cut_identity F h hsymm χ w]
  have h1 := hform fun m => χ m * w m
  have h2 : -(Δ * ∑ m ∈ F, w m ^ 2) ≤ ∑ m ∈ F, ∑ n ∈ F, (χ m - χ n) ^ 2 * (w m * h m n * w n) := by
    have h3 : ∀ m n, -((χ m - χ n) ^ 2 * |h m n| * w m ^ 2 / 2 + (χ m - χ n) ^ 2 * |h m n| * w n ^ 2 / 2)
        ≤ (χ m - χ n) ^ 2 * (w m * h m n * w n) := by
      intro m n
      have h4 : -(|h m n| * ((w m ^ 2 + w n ^ 2) / 2)) ≤ w m * h m n * w n := by
        have h5 : |w m * h m n * w n| ≤ |h m n| * ((w m ^ 2 + w n ^ 2) / 2) := by
          rw [abs_mul, abs_mul, mul_comm |w m|, mul_assoc]
          refine mul_le_mul_of_nonneg_left ?_ (abs_nonneg _)
          nlinarith [sq_nonneg (|w m| - |w n|), sq_abs (w m), sq_abs (w n)]
        exact (neg_le_neg h5).trans (neg_abs_le _)
      nlinarith [mul_le_mul_of_nonneg_left h4 (sq_nonneg (χ m - χ n))]
    have h6 : ∑ m ∈ F, ∑ n ∈ F, (χ m - χ n) ^ 2 * |h m n| * w n ^ 2 ≤ Δ * ∑ n ∈ F, w n ^ 2 := by
      rw [sum_comm, mul_sum]
      refine sum_le_sum fun n hn => ?_
      rw [← sum_mul]
      exact mul_le_mul_of_nonneg_right (hcut n hn) (sq_nonneg _)
    have h7 : ∑ m ∈ F, ∑ n ∈ F, (χ m - χ n) ^ 2 * |h m n| * w m ^ 2 = ∑ m ∈ F, ∑ n ∈ F, (χ m - χ n) ^ 2 * |h m n| * w n ^ 2 := by
      rw [sum_comm]
      refine sum_congr rfl fun m _ => sum_congr rfl fun n _ => ?_
      rw [hsymm n m]; ring
    refine le_trans ?_ (sum_le_sum fun m _ => sum_le_sum fun n _ => h3 m n)
    simp only [sum_neg_distrib, sum_add_distrib, ← sum_div]
    rw [h7]
    linarith
  have e2 : ∑ m ∈ F, (χ m * w m) ^ 2 = ∑ m ∈ F, χ m ^ 2 * w m ^ 2 := sum_congr rfl fun m _ => by ring
  rw [e2] at h1
  nlinarith [mul_le_mul_of_nonneg_left h1 hτ, mul_le_mul_of_nonneg_left h2 hτ]

theorem rest_term (χ w r s τ W ρ Q : ℝ) (hW : 0 ≤ W) (hρ : 0 ≤ ρ) (hτ : 0 < τ) (hτ1 : τ ≤ 1) (h0 : 0 ≤ χ) (h1 : χ ≤ 1)
    (hw : |w| ≤ 2 * W) (hr : |r| ≤ ρ * τ ^ 2) (hs : |s| ≤ Q * (2 * W)) :
    χ ^ 2 * (2 * w * r + (τ * s - r) ^ 2) ≤ τ ^ 2 * (4 * W * ρ + 2 * (Q * (2 * W)) ^ 2 + 2 * ρ ^ 2) := by
  have t1 : 2 * w * r ≤ τ ^ 2 * (4 * W * ρ) := by
    have : |w * r| ≤ 2 * W * (ρ * τ ^ 2) := by
      rw [abs_mul]; exact mul_le_mul hw hr (abs_nonneg _) (by positivity)
    linarith [le_abs_self (w * r)]
  have t2 : s ^ 2 ≤ (Q * (2 * W)) ^ 2 := by
    rw [← sq_abs s]; exact pow_le_pow_left₀ (abs_nonneg _) hs 2
  have t3 : r ^ 2 ≤ τ ^ 2 * ρ ^ 2 := by
    rw [← sq_abs r]
    refine (pow_le_pow_left₀ (abs_nonneg _) hr 2).trans ?_
    have : τ ^ 2 ≤ 1 := pow_le_one₀ hτ.le hτ1
    calc (ρ * τ ^ 2) ^ 2 = τ ^ 2 * ρ ^ 2 * τ ^ 2 := by ring
      _ ≤ τ ^ 2 * ρ ^ 2 * 1 := mul_le_mul_of_nonneg_left this (by positivity)
      _ = _ := mul_one _
  have t4 : (τ * s - r) ^ 2 ≤ 2 * (τ ^ 2 * s ^ 2) + 2 * r ^ 2 := by nlinarith [sq_nonneg (τ * s + r)]
  have t4' := mul_le_mul_of_nonneg_left t2 (sq_nonneg τ)
  have t5 : 2 * w * r + (τ * s - r) ^ 2 ≤ τ ^ 2 * (4 * W * ρ + 2 * (Q * (2 * W)) ^ 2 + 2 * ρ ^ 2) := by linarith
  have t6 : χ ^ 2 ≤ 1 := pow_le_one₀ h0 h1
  have t7 : 0 ≤ τ ^ 2 * (4 * W * ρ + 2 * (Q * (2 * W)) ^ 2 + 2 * ρ ^ 2) := by positivity
  exact (mul_le_mul_of_nonneg_left t5 (sq_nonneg _)).trans (mul_le_of_le_one_left t7 t6)

theorem gronwall (Y : ℕ → ℝ) (a d : ℝ) (ha : 0 ≤ a) (hd : 0 ≤ d) (h0 : Y 0 ≤ 0) (k : ℕ)
    (h : ∀ j < k, Y (j + 1) ≤ (1 + a) * Y j + d) : Y k ≤ k * d * Real.exp (a * k) := by
  have key : ∀ j ≤ k, Y j ≤ j * d * Real.exp (a * j) := by
    intro j
    induction j with
    | zero => intro _; simpa using h0
    | succ j ih =>
      intro hj
      have h1 := h j (by omega)
      have h2 := ih (by omega)
      have h3 : 1 + a ≤ Real.exp a := by have := Real.add_one_le_exp a; linarith
      have e : Real.exp (a * (j + 1 : ℕ)) = Real.exp a * Real.exp (a * j) := by
        rw [← Real.exp_add]; congr 1; push_cast; ring
      have h4 : 1 ≤ Real.exp (a * (j + 1 : ℕ)) := Real.one_le_exp (by positivity)
      have h5 : (1 + a) * Y j ≤ j * d * Real.exp (a * (j + 1 : ℕ)) := by
        refine (mul_le_mul_of_nonneg_left h2 (by positivity)).trans ?_
        rw [e]
        have h6 : 0 ≤ j * d * Real.exp (a * j) := by positivity
        nlinarith
      push_cast at h4 h5 ⊢
      nlinarith
  exact key k le_rfl

end

/-! ### the setting -/

section
variable {ι E : Type*} [NormedAddCommGroup E] [InnerProductSpace ℝ E] [CompleteSpace E]

local notation "⟪" x ", " y "⟫" => inner ℝ x y

/-- A symmetric matrix that only couples levels two apart, with entries that grow with the level. -/
structure Ladder (ι : Type*) where
  level : ι → ℕ
  h : ι → ι → ℝ
  C : ℝ
  symm : ∀ m n, h m n = h n m
  finite : ∀ R, {n | level n ≤ R}.Finite
  band : ∀ m n, h m n ≠ 0 → level m ≤ level n + 2
  nonneg : 0 ≤ C
  row : ∀ n (s : Finset ι), ∑ m ∈ s, |h m n| ≤ C * (level n + 1)

namespace Ladder

/-- The indices up to a level. -/
noncomputable def upto (L : Ladder ι) (R : ℕ) : Finset ι := (L.finite R).toFinset

theorem mem_upto (L : Ladder ι) (R : ℕ) (n : ι) : n ∈ L.upto R ↔ L.level n ≤ R := by
  simp [upto]

/-- The part of the matrix on a finite family of indices. -/
def part {n : ℕ} (L : Ladder ι) (e : Fin n → ι) : Matrix (Fin n) (Fin n) ℝ := Matrix.of fun p q => L.h (e p) (e q)

theorem part_symm {n : ℕ} (L : Ladder ι) (e : Fin n → ι) : (L.part e).IsSymm := by
  ext p q; simp [part, L.symm]

end Ladder

/-- The operators of one step: self-adjoint, not much longer than one, with the matrix as generator, and such that a
vector that is hardly shortened has small coefficients at high levels. -/
structure Steps (b : HilbertBasis ι ℝ E) (L : Ladder ι) (K : ℝ → E →L[ℝ] E) (c T : ℝ) : Prop where
  self : ∀ τ f g, ⟪K τ f, g⟫ = ⟪f, K τ g⟫
  c_nonneg : 0 ≤ c
  T_nonneg : 0 ≤ T
  norm : ∀ᶠ τ in 𝓝[>] (0 : ℝ), ‖K τ‖ ≤ 1 + c * τ
  cons : ∀ n, ∃ C, ∀ᶠ τ in 𝓝[>] (0 : ℝ), ‖K τ (b n) - b n + τ • ∑ m ∈ L.upto (L.level n + 2), L.h m n • b m‖ ≤ C * τ ^ 2
  tight : ∀ M : ℕ, 0 < M → ∀ᶠ τ in 𝓝[>] (0 : ℝ), ∀ g,
    ‖g‖ ^ 2 - ∑ m ∈ L.upto M, ⟪b m, g⟫ ^ 2 ≤ T / M * ((‖g‖ ^ 2 - ‖K τ g‖ ^ 2) / τ + c * ‖g‖ ^ 2)

variable {b : HilbertBasis ι ℝ E} {L : Ladder ι} {K : ℝ → E →L[ℝ] E} {c T : ℝ}

theorem eventually_pos : ∀ᶠ τ in 𝓝[>] (0 : ℝ), 0 < τ := eventually_mem_nhdsWithin

theorem eventually_small (a : ℝ) (ha : 0 < a) : ∀ᶠ τ in 𝓝[>] (0 : ℝ), τ ≤ a :=
  (Ioo_mem_nhdsGT ha |> Filter.Eventually.mono <| fun _ h => h.2.le)

/-- what the generator does to a finite combination -/
noncomputable def gen (b : HilbertBasis ι ℝ E) (L : Ladder ι) (n : ι) : E := ∑ m ∈ L.upto (L.level n + 2), L.h m n • b m

theorem inner_gen (n m : ι) : ⟪b m, gen b L n⟫ = L.h m n := by
  classical
  unfold gen
  rw [inner_sum]
  simp only [inner_smul_right, orthonormal_iff_ite.mp b.orthonormal, mul_ite, mul_one, mul_zero]
  rw [sum_ite_eq]
  by_cases h : m ∈ L.upto (L.level n + 2)
  · rw [if_pos h]
  · rw [if_neg h]
    by_contra h0
    exact h ((L.mem_upto _ _).mpr (L.band m n (Ne.symm h0)))

theorem Steps.cons_sum (S : Steps b L K c T) (F : Finset ι) (u : ι → ℝ) :
    ∃ C, ∀ᶠ τ in 𝓝[>] (0 : ℝ), ‖K τ (∑ n ∈ F, u n • b n) - ∑ n ∈ F, u n • b n + τ • ∑ n ∈ F, u n • gen b L n‖ ≤ C * τ ^ 2 := by
  classical
  induction F using Finset.induction_on with
  | empty => exact ⟨0, Eventually.of_forall fun τ => by simp⟩
  | insert n F hn ih =>
    obtain ⟨C1, h1⟩ := ih
    obtain ⟨C2, h2⟩ := S.cons n
    refine ⟨|u n| * C2 + C1, ?_⟩
    filter_upwards [h1, h2] with τ h1 h2
    rw [sum_insert hn, sum_insert hn, map_add, map_smul]
    have e : u n • K τ (b n) + K τ (∑ n ∈ F, u n • b n) - (u n • b n + ∑ n ∈ F, u n • b n)
        + τ • (u n • gen b L n + ∑ n ∈ F, u n • gen b L n)
        = u n • (K τ (b n) - b n + τ • gen b L n)
          + (K τ (∑ n ∈ F, u n • b n) - ∑ n ∈ F, u n • b n + τ • ∑ n ∈ F, u n • gen b L n) := by
      simp only [smul_add, smul_sub, smul_comm τ (u n)]
      abel
    rw [e]
    refine (norm_add_le _ _).trans ?_
    rw [norm_smul, Real.norm_eq_abs, add_mul, mul_assoc]
    exact add_le_add (mul_le_mul_of_nonneg_left h2 (abs_nonneg _)) h1

theorem norm_sq_sum (F : Finset ι) (u : ι → ℝ) : ‖∑ n ∈ F, u n • b n‖ ^ 2 = ∑ n ∈ F, u n ^ 2 := by
  rw [← real_inner_self_eq_norm_sq, b.orthonormal.inner_sum]
  exact sum_congr rfl fun n _ => by simp [sq]

theorem inner_sum_gen (F : Finset ι) (u : ι → ℝ) :
    ⟪∑ m ∈ F, u m • b m, ∑ n ∈ F, u n • gen b L n⟫ = ∑ m ∈ F, ∑ n ∈ F, u m * L.h m n * u n := by
  rw [sum_inner]
  refine sum_congr rfl fun m _ => ?_
  rw [inner_sum]
  refine sum_congr rfl fun n _ => ?_
  rw [inner_smul_left, inner_smul_right, inner_gen]
  simp; ring

/-- The matrix is bounded below. -/
theorem Steps.form (S : Steps b L K c T) (F : Finset ι) (u : ι → ℝ) :
    -c * ∑ m ∈ F, u m ^ 2 ≤ ∑ m ∈ F, ∑ n ∈ F, u m * L.h m n * u n := by
  set f := ∑ n ∈ F, u n • b n with hf
  set g := ∑ n ∈ F, u n • gen b L n with hg
  obtain ⟨C, hC⟩ := S.cons_sum F u
  have hlim : Tendsto (fun τ : ℝ => -c * ‖f‖ ^ 2 - ‖f‖ * C * τ) (𝓝[>] 0) (𝓝 (-c * ‖f‖ ^ 2 - ‖f‖ * C * 0)) :=
    ((continuous_const.sub (continuous_const.mul continuous_id)).tendsto 0).mono_left nhdsWithin_le_nhds
  rw [mul_zero, sub_zero] at hlim
  rw [← inner_sum_gen (b := b), ← norm_sq_sum (b := b), ← hf, ← hg]
  refine le_of_tendsto hlim ?_
  filter_upwards [hC, S.norm, eventually_pos] with τ h1 h2 h3
  have h4 : ⟪f, K τ f⟫ ≤ (1 + c * τ) * ‖f‖ ^ 2 := by
    refine (real_inner_le_norm _ _).trans ?_
    have := (K τ).le_of_opNorm_le h2 f
    nlinarith [norm_nonneg f]
  have h5 : -(‖f‖ * (C * τ ^ 2)) ≤ ⟪f, K τ f - f + τ • g⟫ := by
    have h6 := abs_real_inner_le_norm f (K τ f - f + τ • g)
    have h7 := mul_le_mul_of_nonneg_left h1 (norm_nonneg f)
    have := neg_abs_le ⟪f, K τ f - f + τ • g⟫
    linarith
  rw [inner_add_right, inner_sub_right, inner_smul_right, real_inner_self_eq_norm_sq] at h5
  have h8 : τ * (-c * ‖f‖ ^ 2 - ‖f‖ * C * τ) ≤ τ * ⟪f, g⟫ := by nlinarith
  exact le_of_mul_le_mul_left h8 h3

theorem Steps.part_form (S : Steps b L K c T) {n : ℕ} (e : Fin n → ι) (he : Function.Injective e) (v : Fin n → ℝ) :
    -c * ∑ p, v p ^ 2 ≤ quad (L.part e) v := by
  classical
  have h := S.form (univ.image e) (Function.extend e v 0)
  rw [sum_image fun _ _ _ _ h => he h, sum_image fun _ _ _ _ h => he h] at h
  simp only [he.extend_apply] at h
  refine h.trans (le_of_eq ?_)
  unfold quad
  refine sum_congr rfl fun p _ => ?_
  rw [sum_image fun _ _ _ _ h => he h]
  refine sum_congr rfl fun q _ => ?_
  rw [he.extend_apply]
  simp [Ladder.part]

/-! ### powers of the steps against the exponential -/

theorem col_le {n : ℕ} (M : Matrix (Fin n) (Fin n) ℝ) (q : Fin n) : ∑ p, M p q ^ 2 ≤ ‖M‖ ^ 2 := by
  have h := M.l2_opNorm_mulVec (EuclideanSpace.single q (1 : ℝ))
  rw [EuclideanSpace.norm_single, norm_one, mul_one] at h
  have h2 := pow_le_pow_left₀ (norm_nonneg _) h 2
  rw [EuclideanSpace.norm_sq_eq] at h2
  refine le_trans (le_of_eq (sum_congr rfl fun p _ => ?_)) h2
  have e : ((EuclideanSpace.equiv (Fin n) ℝ).symm (M.mulVec (EuclideanSpace.single q (1 : ℝ)).ofLp)) p = M p q := by
    simp [Matrix.mulVec_single_one]
  rw [e, Real.norm_eq_abs, sq_abs]

theorem entry_le {n : ℕ} (M : Matrix (Fin n) (Fin n) ℝ) (p q : Fin n) : |M p q| ≤ ‖M‖ := by
  have h := (single_le_sum (f := fun p => M p q ^ 2) (fun _ _ => sq_nonneg _) (mem_univ p)).trans (col_le M q)
  have := Real.sqrt_le_sqrt h
  rwa [Real.sqrt_sq_eq_abs, Real.sqrt_sq (norm_nonneg _)] at this

theorem Steps.exp_part_le (S : Steps b L K c T) {n : ℕ} [NeZero n] (e : Fin n → ι) (he : Function.Injective e) (t : ℝ) (ht : 0 ≤ t) :
    ‖NormedSpace.exp (-(t • L.part e))‖ ≤ Real.exp (c * t) := by
  have h := norm_exp_neg_le (t • L.part e) ((L.part_symm e).smul t) (-(c * t)) fun v => by
    have h1 := S.part_form e he v
    have e1 : quad (t • L.part e) v = t * quad (L.part e) v := by
      unfold quad
      simp only [Matrix.smul_apply, smul_eq_mul, mul_sum]
      exact sum_congr rfl fun i _ => sum_congr rfl fun j _ => by ring
    rw [e1]
    nlinarith [mul_le_mul_of_nonneg_left h1 ht]
  rwa [neg_neg] at h

/-- the cut-off: one at the bottom of the ladder and zero above level `R` -/
noncomputable def cut (L : Ladder ι) (R : ℕ) (m : ι) : ℝ := max 0 (1 - L.level m / R)

theorem cut_nonneg (R : ℕ) (m : ι) : 0 ≤ cut L R m := le_max_left _ _

theorem cut_le_one (R : ℕ) (m : ι) : cut L R m ≤ 1 := by
  have : (0 : ℝ) ≤ L.level m / R := by positivity
  exact max_le zero_le_one (by linarith)

theorem cut_level {R : ℕ} (hR : 0 < R) {m : ι} (h : cut L R m ≠ 0) : L.level m ≤ R := by
  by_contra hn
  refine h (max_eq_left ?_)
  have h1 : (1 : ℝ) ≤ L.level m / R := by
    rw [le_div_iff₀ (by exact_mod_cast hR), one_mul]
    exact_mod_cast (not_le.mp hn).le
  linarith

theorem cut_lip {R : ℕ} (hR : 0 < R) (m n : ι) (h : L.h m n ≠ 0) : (cut L R m - cut L R n) ^ 2 ≤ 4 / R ^ 2 := by
  have hR' : (0 : ℝ) < R := by exact_mod_cast hR
  have h1 : (L.level m : ℝ) ≤ L.level n + 2 := by exact_mod_cast L.band m n h
  have h2 : (L.level n : ℝ) ≤ L.level m + 2 := by exact_mod_cast L.band n m (by rwa [L.symm])
  have h3 : |cut L R m - cut L R n| ≤ 2 / R := by
    unfold cut
    rw [max_comm 0, max_comm 0]
    refine (abs_max_sub_max_le_abs _ _ _).trans ?_
    rw [sub_sub_sub_cancel_left, ← sub_div, abs_div, abs_of_pos hR']
    refine div_le_div_of_nonneg_right ?_ hR'.le
    rw [abs_le]
    constructor <;> linarith
  have := pow_le_pow_left₀ (abs_nonneg _) h3 2
  rw [sq_abs] at this
  refine this.trans (le_of_eq ?_)
  rw [div_pow]; norm_num

theorem cut_row {R : ℕ} (hR : 0 < R) (n : ι) (hn : n ∈ L.upto (R + 2)) :
    ∑ m ∈ L.upto (R + 2), (cut L R m - cut L R n) ^ 2 * |L.h m n| ≤ 16 * L.C / R := by
  have hR' : (1 : ℝ) ≤ R := by exact_mod_cast hR
  have h1 : ∑ m ∈ L.upto (R + 2), (cut L R m - cut L R n) ^ 2 * |L.h m n| ≤ ∑ m ∈ L.upto (R + 2), 4 / R ^ 2 * |L.h m n| := by
    refine sum_le_sum fun m _ => ?_
    by_cases h : L.h m n = 0
    · simp [h]
    · exact mul_le_mul_of_nonneg_right (cut_lip hR m n h) (abs_nonneg _)
  refine h1.trans ?_
  rw [← mul_sum]
  have h2 := L.row n (L.upto (R + 2))
  have h3 : (L.level n : ℝ) ≤ R + 2 := by exact_mod_cast (L.mem_upto _ _).mp hn
  have h4 : L.C * (L.level n + 1) ≤ L.C * (4 * R) := mul_le_mul_of_nonneg_left (by linarith) L.nonneg
  refine (mul_le_mul_of_nonneg_left (h2.trans h4) (by positivity)).trans (le_of_eq ?_)
  field_simp
  ring

theorem Steps.pow_norm (S : Steps b L K c T) {τ β : ℝ} (hτ : 0 < τ) (hK : ‖K τ‖ ≤ 1 + c * τ) (k : ℕ) (hk : k * τ ≤ β) (f : E) :
    ‖(K τ ^ k) f‖ ≤ Real.exp (c * β) * ‖f‖ := by
  have h1 : ‖K τ ^ k‖ ≤ Real.exp (c * β) := by
    have h2 : ‖K τ ^ k‖ ≤ (1 + c * τ) ^ k := by
      induction k with
      | zero => rw [pow_zero, pow_zero]; exact ContinuousLinearMap.norm_id_le
      | succ k ih =>
        have hk' : (k : ℝ) * τ ≤ β := by push_cast at hk; linarith
        rw [pow_succ, pow_succ]
        exact (norm_mul_le _ _).trans (mul_le_mul (ih hk') hK (norm_nonneg _) (by have := S.c_nonneg; positivity))
    refine h2.trans ?_
    have h3 : 1 + c * τ ≤ Real.exp (c * τ) := by have := Real.add_one_le_exp (c * τ); linarith
    refine (pow_le_pow_left₀ (by have := S.c_nonneg; positivity) h3 k).trans ?_
    rw [← Real.exp_nat_mul]
    refine Real.exp_le_exp.mpr ?_
    have := mul_le_mul_of_nonneg_left hk S.c_nonneg
    linarith
  exact (K τ ^ k).le_of_opNorm_le h1 f

theorem bessel (F : Finset ι) (g : E) : ∑ m ∈ F, ⟪b m, g⟫ ^ 2 ≤ ‖g‖ ^ 2 := by
  have h := b.orthonormal.sum_inner_products_le (s := F) g
  simpa [Real.norm_eq_abs, sq_abs] using h

set_option maxHeartbeats 1000000 in
theorem Steps.compare (S : Steps b L K c T) (β : ℝ) (hβ : 0 < β) {n : ℕ} [NeZero n] (e : Fin n → ι) (he : Function.Injective e)
    (R : ℕ) (hR : 0 < R) (hF : ∀ m, L.level m ≤ R + 2 → m ∈ Set.range e) (p q : Fin n) :
    ∀ᶠ τ in 𝓝[>] (0 : ℝ), ∀ k : ℕ, k * τ ≤ β →
      cut L R (e p) ^ 2 * (⟪b (e p), (K τ ^ k) (b (e q))⟫ - NormedSpace.exp (-((k * τ) • L.part e)) p q) ^ 2
        ≤ β * Real.exp (2 * c * β) * (16 * L.C * (4 * Real.exp (2 * c * β)) + 1) / R := by
  classical
  set F := L.upto (R + 2) with hFdef
  set H := L.part e with hH
  set W := Real.exp (c * β) with hW
  have hW0 : 0 < W := Real.exp_pos _
  have hW2 : Real.exp (2 * c * β) = W ^ 2 := by rw [hW, ← Real.exp_nat_mul]; congr 1; push_cast; ring
  have hc := S.c_nonneg
  -- the errors of one step
  have hcons : ∃ C1 : ℝ, 0 ≤ C1 ∧ ∀ᶠ τ in 𝓝[>] (0 : ℝ), ∀ m ∈ F, ‖K τ (b m) - b m + τ • gen b L m‖ ≤ C1 * τ ^ 2 := by
    choose C hC using S.cons
    refine ⟨∑ m ∈ F, |C m|, sum_nonneg fun _ _ => abs_nonneg _, ?_⟩
    have : ∀ᶠ τ in 𝓝[>] (0 : ℝ), ∀ m ∈ F, ‖K τ (b m) - b m + τ • gen b L m‖ ≤ C m * τ ^ 2 :=
      (Finset.eventually_all F).mpr fun m _ => hC m
    filter_upwards [this] with τ h m hm
    refine (h m hm).trans (mul_le_mul_of_nonneg_right ?_ (sq_nonneg _))
    exact (le_abs_self _).trans (single_le_sum (f := fun m => |C m|) (fun _ _ => abs_nonneg _) hm)
  obtain ⟨C1, hC1, hcons⟩ := hcons
  set C2 := ‖H‖ ^ 2 * Real.exp ‖H‖ with hC2
  have hC20 : 0 ≤ C2 := by positivity
  set ρ := (C1 + C2) * W with hρ
  have hρ0 : 0 ≤ ρ := by positivity
  set Q := ∑ m ∈ F, ∑ n ∈ F, |L.h m n| with hQ
  have hQ0 : 0 ≤ Q := sum_nonneg fun _ _ => sum_nonneg fun _ _ => abs_nonneg _
  set B := F.card * (4 * W * ρ + 2 * (Q * (2 * W)) ^ 2 + 2 * ρ ^ 2) with hB
  have hB0 : 0 ≤ B := by positivity
  have hR' : (0 : ℝ) < R := by exact_mod_cast hR
  have hsmall := eventually_small (1 / (R * (B + 1))) (by positivity)
  filter_upwards [hcons, S.norm, eventually_pos, hsmall, eventually_small 1 one_pos] with τ h1 h2 hτ h3 h4 k hk
  set u : ℕ → ι → ℝ := fun j m => ⟪b m, (K τ ^ j) (b (e q))⟫ with hu
  set X : ℕ → Matrix (Fin n) (Fin n) ℝ := fun j => NormedSpace.exp (-((j * τ) • H)) with hX
  set v : ℕ → ι → ℝ := fun j => Function.extend e (fun p => X j p q) 0 with hv
  set w : ℕ → ι → ℝ := fun j m => u j m - v j m with hw
  have hve : ∀ j p', v j (e p') = X j p' q := fun j p' => he.extend_apply _ _ _
  -- the norms
  have hjβ : ∀ j ≤ k, (j : ℝ) * τ ≤ β := fun j hj => by
    have : (j : ℝ) ≤ k := by exact_mod_cast hj
    nlinarith
  have hun : ∀ j ≤ k, ‖(K τ ^ j) (b (e q))‖ ≤ W := fun j hj => by
    have := S.pow_norm hτ h2 j (hjβ j hj) (b (e q))
    rwa [b.orthonormal.1 (e q), mul_one] at this
  have hXn : ∀ j ≤ k, ‖X j‖ ≤ W := fun j hj => by
    refine (S.exp_part_le e he (j * τ) (by positivity)).trans (Real.exp_le_exp.mpr ?_)
    exact mul_le_mul_of_nonneg_left (hjβ j hj) hc
  have hF' : ∀ m ∈ F, m ∈ Set.range e := fun m hm => hF m ((L.mem_upto _ _).mp hm)
  have hvs : ∀ j ≤ k, ∑ m ∈ F, v j m ^ 2 ≤ W ^ 2 := by
    intro j hj
    have hsub : F ⊆ univ.image e := fun m hm => by
      obtain ⟨p', hp'⟩ := hF' m hm
      exact mem_image.mpr ⟨p', mem_univ _, hp'⟩
    refine (sum_le_sum_of_subset_of_nonneg hsub fun _ _ _ => sq_nonneg _).trans ?_
    rw [sum_image fun _ _ _ _ h => he h]
    simp only [hve]
    exact (col_le _ q).trans (pow_le_pow_left₀ (norm_nonneg _) (hXn j hj) 2)
  have hws : ∀ j ≤ k, ∑ m ∈ F, w j m ^ 2 ≤ 4 * W ^ 2 := by
    intro j hj
    have h5 : ∑ m ∈ F, u j m ^ 2 ≤ W ^ 2 := (bessel F _).trans (pow_le_pow_left₀ (norm_nonneg _) (hun j hj) 2)
    have h6 : ∑ m ∈ F, w j m ^ 2 ≤ ∑ m ∈ F, (2 * u j m ^ 2 + 2 * v j m ^ 2) :=
      sum_le_sum fun m _ => by simp only [hw]; nlinarith [sq_nonneg (u j m + v j m)]
    rw [sum_add_distrib, ← mul_sum, ← mul_sum] at h6
    have := hvs j hj
    linarith
  have hwm : ∀ j ≤ k, ∀ m ∈ F, |w j m| ≤ 2 * W := by
    intro j hj m hm
    have h5 := (single_le_sum (f := fun m => w j m ^ 2) (fun _ _ => sq_nonneg _) hm).trans (hws j hj)
    rw [show 4 * W ^ 2 = (2 * W) ^ 2 by ring] at h5
    exact abs_le_of_sq_le_sq h5 (by positivity)
  -- one step
  set r : ℕ → ι → ℝ := fun j m => w (j + 1) m - w j m + τ * ∑ n ∈ F, L.h m n * w j n with hr
  have hrb : ∀ j, j + 1 ≤ k → ∀ m ∈ F, cut L R m ≠ 0 → |r j m| ≤ ρ * τ ^ 2 := by
    intro j hj m hm hm0
    have hlev := cut_level hR hm0
    obtain ⟨p', rfl⟩ := hF' m hm
    have hzero : ∀ n, n ∉ F → L.h (e p') n = 0 := by
      intro n hn
      by_contra h0
      refine hn ((L.mem_upto _ _).mpr ?_)
      have := L.band n (e p') (by rwa [L.symm])
      omega
    set g := (K τ ^ j) (b (e q)) with hg
    have hu1 : u (j + 1) (e p') = u j (e p') - τ * ∑ n ∈ F, L.h (e p') n * u j n
        + ⟪K τ (b (e p')) - b (e p') + τ • gen b L (e p'), g⟫ := by
      have e1 : u (j + 1) (e p') = ⟪K τ (b (e p')), g⟫ := by
        simp only [hu]
        rw [pow_succ', mul_apply_eq_comp, S.self]
      have e2 : ⟪gen b L (e p'), g⟫ = ∑ n ∈ F, L.h (e p') n * u j n := by
        unfold gen
        rw [sum_inner]
        have hsub : L.upto (L.level (e p') + 2) ⊆ F := fun x hx => (L.mem_upto _ _).mpr (by
          have := (L.mem_upto _ _).mp hx; omega)
        rw [← sum_subset hsub (f := fun n => L.h (e p') n * u j n) fun x _ hx => ?_]
        · refine sum_congr rfl fun x _ => ?_
          rw [inner_smul_left, L.symm]
          rfl
        · have : L.h (e p') x = 0 := by
            by_contra h0
            exact hx ((L.mem_upto _ _).mpr (L.band x (e p') (by rwa [L.symm])))
          simp [this]
      rw [inner_add_left, inner_sub_left, inner_smul_left, e2, e1]
      simp only [hu, RCLike.conj_to_real]
      ring
    have hv1 : v (j + 1) (e p') = v j (e p') - τ * ∑ n ∈ F, L.h (e p') n * v j n
        + ((NormedSpace.exp (-(τ • H)) - 1 - -(τ • H)) * X j) p' q := by
      have e1 : X (j + 1) = NormedSpace.exp (-(τ • H)) * X j := by
        simp only [hX]
        rw [← Matrix.exp_add_of_commute]
        · congr 1
          rw [← neg_add, ← add_smul]
          congr 2
          push_cast; ring
        · exact ((Commute.refl H).smul_left τ).smul_right _ |>.neg_left.neg_right
      have e2 : ∑ n ∈ F, L.h (e p') n * v j n = (H * X j) p' q := by
        rw [Matrix.mul_apply]
        have hsub : F ⊆ univ.image e := fun m hm => by
          obtain ⟨p'', hp''⟩ := hF' m hm
          exact mem_image.mpr ⟨p'', mem_univ _, hp''⟩
        rw [sum_subset hsub fun x _ hx => by rw [hzero x hx, zero_mul], sum_image fun _ _ _ _ h => he h]
        refine sum_congr rfl fun p'' _ => ?_
        rw [hve]
        simp [hH, Ladder.part]
      rw [hve, hve, e2, e1]
      simp only [sub_mul, neg_mul, one_mul, Matrix.smul_mul, Matrix.sub_apply, Matrix.neg_apply, Matrix.smul_apply, smul_eq_mul]
      ring
    have hreq : r j (e p') = ⟪K τ (b (e p')) - b (e p') + τ • gen b L (e p'), g⟫
        - ((NormedSpace.exp (-(τ • H)) - 1 - -(τ • H)) * X j) p' q := by
      simp only [hr, hw, hu1, hv1, mul_sub, sum_sub_distrib]
      ring
    rw [hreq]
    refine (abs_sub _ _).trans ?_
    have b1 : |⟪K τ (b (e p')) - b (e p') + τ • gen b L (e p'), g⟫| ≤ C1 * τ ^ 2 * W :=
      (abs_real_inner_le_norm _ _).trans (mul_le_mul (h1 _ hm) (hun j (by omega)) (norm_nonneg _) (by positivity))
    have b2 : |((NormedSpace.exp (-(τ • H)) - 1 - -(τ • H)) * X j) p' q| ≤ C2 * τ ^ 2 * W := by
      refine (entry_le _ _ _).trans ((norm_mul_le _ _).trans ?_)
      refine mul_le_mul ?_ (hXn j (by omega)) (norm_nonneg _) (by positivity)
      refine (norm_exp_sub_one_sub_le _).trans ?_
      rw [norm_neg, norm_smul, Real.norm_eq_abs, abs_of_pos hτ, mul_pow, hC2]
      have : Real.exp (τ * ‖H‖) ≤ Real.exp ‖H‖ := Real.exp_le_exp.mpr (by nlinarith [norm_nonneg H])
      calc τ ^ 2 * ‖H‖ ^ 2 * Real.exp (τ * ‖H‖) ≤ τ ^ 2 * ‖H‖ ^ 2 * Real.exp ‖H‖ := by gcongr
        _ = _ := by ring
    rw [hρ]
    nlinarith
  have hstep : ∀ j < k, ∑ m ∈ F, cut L R m ^ 2 * w (j + 1) m ^ 2
      ≤ (1 + 2 * c * τ) * ∑ m ∈ F, cut L R m ^ 2 * w j m ^ 2 + τ * ((16 * L.C * (4 * W ^ 2) + 1) / R) := by
    intro j hj
    have h5 := cut_step F L.h L.symm (cut L R) (w j) (w (j + 1)) (r j) τ c (16 * L.C / R) hτ.le
      (fun m _ _ => by simp only [hr]; ring) (S.form F) fun n hn => cut_row hR n hn
    have h6 : τ * (16 * L.C / R) * ∑ m ∈ F, w j m ^ 2 ≤ τ * (16 * L.C / R) * (4 * W ^ 2) :=
      mul_le_mul_of_nonneg_left (hws j hj.le) (by have := L.nonneg; positivity)
    have h7 : ∑ m ∈ F, cut L R m ^ 2 * (2 * w j m * r j m + (τ * ∑ n ∈ F, L.h m n * w j n - r j m) ^ 2) ≤ τ ^ 2 * B := by
      have h8 : ∀ m ∈ F, cut L R m ^ 2 * (2 * w j m * r j m + (τ * ∑ n ∈ F, L.h m n * w j n - r j m) ^ 2)
          ≤ τ ^ 2 * (4 * W * ρ + 2 * (Q * (2 * W)) ^ 2 + 2 * ρ ^ 2) := by
        intro m hm
        by_cases h0 : cut L R m = 0
        · rw [h0]
          have : 0 ≤ τ ^ 2 * (4 * W * ρ + 2 * (Q * (2 * W)) ^ 2 + 2 * ρ ^ 2) := by positivity
          simpa using this
        have hr1 := hrb j hj m hm h0
        have hw1 := hwm j hj.le m hm
        have hS : |∑ n ∈ F, L.h m n * w j n| ≤ Q * (2 * W) := by
          refine (abs_sum_le_sum_abs _ _).trans ?_
          refine (sum_le_sum fun n hn => ?_).trans (?_ : ∑ n ∈ F, |L.h m n| * (2 * W) ≤ _)
          · rw [abs_mul]
            exact mul_le_mul_of_nonneg_left (hwm j hj.le n hn) (abs_nonneg _)
          · rw [← sum_mul]
            refine mul_le_mul_of_nonneg_right ?_ (by positivity)
            exact single_le_sum (f := fun m => ∑ n ∈ F, |L.h m n|) (fun _ _ => sum_nonneg fun _ _ => abs_nonneg _) hm
        set s := ∑ n ∈ F, L.h m n * w j n
        exact rest_term _ _ _ _ τ W ρ Q hW0.le hρ0 hτ h4 (cut_nonneg R m) (cut_le_one R m) hw1 hr1 hS
      refine (sum_le_sum h8).trans (le_of_eq ?_)
      rw [sum_const, nsmul_eq_mul, hB]
      ring
    have h9 : τ ^ 2 * B ≤ τ * (1 / R) := by
      rw [sq, mul_assoc]
      refine mul_le_mul_of_nonneg_left ?_ hτ.le
      refine (mul_le_mul_of_nonneg_right h3 hB0).trans ?_
      rw [div_mul_eq_mul_div, one_mul, div_le_div_iff₀ (by positivity) hR']
      nlinarith
    have e3 : τ * ((16 * L.C * (4 * W ^ 2) + 1) / R) = τ * (16 * L.C / R) * (4 * W ^ 2) + τ * (1 / R) := by
      field_simp
    rw [e3]
    linarith
  have h0 : ∑ m ∈ F, cut L R m ^ 2 * w 0 m ^ 2 ≤ 0 := by
    refine le_of_eq (sum_eq_zero fun m hm => ?_)
    obtain ⟨p', rfl⟩ := hF' m hm
    have : w 0 (e p') = 0 := by
      simp only [hw, hve]
      simp only [hu, hX, pow_zero, ContinuousLinearMap.one_apply, CharP.cast_eq_zero, zero_mul, zero_smul, neg_zero,
        NormedSpace.exp_zero, orthonormal_iff_ite.mp b.orthonormal, Matrix.one_apply, he.eq_iff]
      exact sub_self _
    rw [this]; simp
  have hfin := gronwall (fun j => ∑ m ∈ F, cut L R m ^ 2 * w j m ^ 2) (2 * c * τ) (τ * ((16 * L.C * (4 * W ^ 2) + 1) / R))
    (by positivity) (by have := L.nonneg; positivity) h0 k hstep
  have hD : (0 : ℝ) ≤ (16 * L.C * (4 * W ^ 2) + 1) / R := by have := L.nonneg; positivity
  have hlast : k * (τ * ((16 * L.C * (4 * W ^ 2) + 1) / R)) * Real.exp (2 * c * τ * k)
      ≤ β * Real.exp (2 * c * β) * (16 * L.C * (4 * Real.exp (2 * c * β)) + 1) / R := by
    rw [hW2, ← mul_assoc]
    have g1 : Real.exp (2 * c * τ * k) ≤ W ^ 2 := by
      rw [← hW2]
      exact Real.exp_le_exp.mpr (by nlinarith)
    calc _ ≤ β * ((16 * L.C * (4 * W ^ 2) + 1) / R) * W ^ 2 := by gcongr
      _ = _ := by ring
  by_cases hp : e p ∈ F
  · have := single_le_sum (f := fun m => cut L R m ^ 2 * w k m ^ 2) (fun _ _ => by positivity) hp
    have h10 := (this.trans hfin).trans hlast
    have e4 : w k (e p) = ⟪b (e p), (K τ ^ k) (b (e q))⟫ - NormedSpace.exp (-((k * τ) • L.part e)) p q := by
      simp only [hw, hve]; rfl
    rw [e4] at h10
    exact h10
  · have : cut L R (e p) = 0 := by
      by_contra h
      exact hp ((L.mem_upto _ _).mpr ((cut_level hR h).trans (by omega)))
    rw [this]
    have : 0 ≤ β * Real.exp (2 * c * β) * (16 * L.C * (4 * Real.exp (2 * c * β)) + 1) / R := by have := L.nonneg; positivity
    simpa using this

/-! ### the trace of the exponential is below the limit -/

theorem Steps.self_pow (S : Steps b L K c T) (τ : ℝ) (k : ℕ) (f g : E) : ⟪(K τ ^ k) f, g⟫ = ⟪f, (K τ ^ k) g⟫ := by
  induction k generalizing f g with
  | zero => rfl
  | succ k ih =>
    rw [pow_succ, mul_apply_eq_comp, ih, S.self, ← mul_apply_eq_comp, ← pow_succ', ← pow_succ]

theorem Steps.log_convex (S : Steps b L K c T) (τ : ℝ) (k : ℕ) (f : E) :
    ‖(K τ ^ (k + 1)) f‖ ^ 2 ≤ ‖(K τ ^ k) f‖ * ‖(K τ ^ (k + 2)) f‖ := by
  rw [← real_inner_self_eq_norm_sq]
  have e : ⟪(K τ ^ (k + 1)) f, (K τ ^ (k + 1)) f⟫ = ⟪(K τ ^ k) f, (K τ ^ (k + 2)) f⟫ := by
    conv_lhs => rw [pow_succ', mul_apply_eq_comp, S.self]
    rw [pow_succ', pow_succ']
    rfl
  rw [e]
  exact real_inner_le_norm _ _

theorem Steps.pow_ge (S : Steps b L K c T) (τ : ℝ) (f : E) (hf : ‖f‖ = 1) (x : ℝ) (hx : 0 ≤ x) (h : x ≤ ‖K τ f‖) (k : ℕ) :
    x ^ k ≤ ‖(K τ ^ k) f‖ := by
  have key : ∀ k, x * ‖(K τ ^ k) f‖ ≤ ‖(K τ ^ (k + 1)) f‖ := by
    intro k
    induction k with
    | zero => simpa [hf] using h
    | succ k ih =>
      have h1 := S.log_convex τ k f
      rcases (norm_nonneg ((K τ ^ (k + 1)) f)).eq_or_lt with h0 | h0
      · rw [← h0, mul_zero]; exact norm_nonneg _
      · have h2 : 0 < ‖(K τ ^ k) f‖ := by
          rcases (norm_nonneg ((K τ ^ k) f)).eq_or_lt with h3 | h3
          · rw [← h3, zero_mul] at h1
            nlinarith
          · exact h3
        have h4 : x * ‖(K τ ^ (k + 1)) f‖ * ‖(K τ ^ k) f‖ ≤ ‖(K τ ^ (k + 2)) f‖ * ‖(K τ ^ k) f‖ := by nlinarith
        exact le_of_mul_le_mul_right h4 h2
  induction k with
  | zero => simp [hf]
  | succ k ih =>
    rw [pow_succ, mul_comm]
    exact (mul_le_mul_of_nonneg_left ih hx).trans (key k)

theorem parseval (g : E) : HasSum (fun n => ⟪b n, g⟫ ^ 2) (‖g‖ ^ 2) := by
  have h := b.hasSum_inner_mul_inner g g
  rw [real_inner_self_eq_norm_sq] at h
  have e : (fun n => ⟪g, b n⟫ * ⟪b n, g⟫) = fun n => ⟪b n, g⟫ ^ 2 := by
    funext n
    rw [real_inner_comm g, sq]
  rwa [e] at h

theorem Steps.bessel_trace (S : Steps b L K c T) (τ : ℝ) (k : ℕ) (A : ℝ) (hA : HasSum (fun n => ‖(K τ ^ k) (b n)‖ ^ 2) A)
    {n : ℕ} (Φ : Fin n → E) (hΦ : Orthonormal ℝ Φ) : ∑ j, ‖(K τ ^ k) (Φ j)‖ ^ 2 ≤ A := by
  have h1 : HasSum (fun m => ∑ j, ⟪Φ j, (K τ ^ k) (b m)⟫ ^ 2) (∑ j, ‖(K τ ^ k) (Φ j)‖ ^ 2) := by
    refine hasSum_sum fun j _ => ?_
    have h := parseval (b := b) ((K τ ^ k) (Φ j))
    have e : (fun m => ⟪b m, (K τ ^ k) (Φ j)⟫ ^ 2) = fun m => ⟪Φ j, (K τ ^ k) (b m)⟫ ^ 2 := by
      funext m
      rw [← S.self_pow, real_inner_comm]
    rwa [e] at h
  refine hasSum_le (fun m => ?_) h1 hA
  have := hΦ.sum_inner_products_le (s := univ) ((K τ ^ k) (b m))
  simpa [Real.norm_eq_abs, sq_abs] using this

theorem exp_limit (β ε C : ℝ) :
    Tendsto (fun i : ℕ => (1 - β / (4 * i) * ε - C * (β / (4 * i)) ^ 2) ^ (4 * i)) atTop (𝓝 (Real.exp (-β * ε))) := by
  have h := Real.tendsto_one_add_pow_exp_of_tendsto (g := fun n : ℕ => -(β / n * ε) - C * (β / n) ^ 2) (t := -β * ε) ?_
  · have h4 : Tendsto (fun i : ℕ => 4 * i) atTop atTop := tendsto_id.const_mul_atTop' (by norm_num)
    refine (h.comp h4).congr fun i => ?_
    simp only [Function.comp_def]
    push_cast
    ring_nf
  · have h1 : Tendsto (fun n : ℕ => -β * ε - C * β ^ 2 / n) atTop (𝓝 (-β * ε - 0)) :=
      tendsto_const_nhds.sub (tendsto_const_nhds.div_atTop tendsto_natCast_atTop_atTop)
    rw [sub_zero] at h1
    refine h1.congr' ?_
    filter_upwards [eventually_gt_atTop 0] with n hn
    have : (n : ℝ) ≠ 0 := by exact_mod_cast hn.ne'
    field_simp

theorem step_tendsto (β : ℝ) (hβ : 0 < β) : Tendsto (fun i : ℕ => β / (4 * i)) atTop (𝓝[>] 0) := by
  refine tendsto_nhdsWithin_iff.mpr ⟨?_, ?_⟩
  · exact tendsto_const_nhds.div_atTop (tendsto_natCast_atTop_atTop.const_mul_atTop (by norm_num))
  · filter_upwards [eventually_gt_atTop 0] with i hi
    have : (0 : ℝ) < i := by exact_mod_cast hi
    exact Set.mem_Ioi.mpr (by positivity)

theorem trace_exp_eigen {n : ℕ} [NeZero n] (M V : Matrix (Fin n) (Fin n) ℝ) (d : Fin n → ℝ) (hV : V.transpose * V = 1)
    (hM : M = V * Matrix.diagonal d * V.transpose) (t : ℝ) :
    (NormedSpace.exp (-(t • M))).trace = ∑ k, Real.exp (-t * d k) := by
  have hV' : V * V.transpose = 1 := mul_eq_one_comm.mp hV
  have hinv : V⁻¹ = V.transpose := Matrix.inv_eq_right_inv hV'
  have hunit : IsUnit V := ⟨⟨V, V.transpose, hV', hV⟩, rfl⟩
  have e : -(t • M) = V * Matrix.diagonal (fun k => -t * d k) * V⁻¹ := by
    have : Matrix.diagonal (fun k => -t * d k) = (-t) • Matrix.diagonal d := by
      rw [← Matrix.diagonal_smul]; rfl
    rw [hinv, this, Matrix.mul_smul, Matrix.smul_mul, ← hM, neg_smul]
  rw [e, Matrix.exp_conj _ _ hunit, Matrix.trace_mul_cycle, hinv, hV, Matrix.one_mul, exp_diagonal_real, Matrix.trace_diagonal]

theorem Steps.peierls (S : Steps b L K c T) (β : ℝ) (hβ : 0 < β) {n : ℕ} [NeZero n] (e : Fin n → ι) (he : Function.Injective e)
    (a : ℕ → ℝ) (ha : ∀ᶠ i : ℕ in atTop, HasSum (fun m => ‖(K (β / (4 * i)) ^ (2 * i)) (b m)‖ ^ 2) (a i)) (Z : ℝ)
    (hZ : Tendsto a atTop (𝓝 Z)) : (NormedSpace.exp (-(β • L.part e))).trace ≤ Z := by
  classical
  obtain ⟨eigh, hE⟩ := eigh_exists
  obtain ⟨hV, hM⟩ := hE n (L.part e) (L.part_symm e)
  set V := (eigh n (L.part e)).2
  set d := (eigh n (L.part e)).1
  rw [trace_exp_eigen _ V d hV hM]
  have hVV : ∀ j k, ∑ p, V p j * V p k = if j = k then 1 else 0 := by
    intro j k
    have := congrFun (congrFun hV j) k
    rw [Matrix.mul_apply, Matrix.one_apply] at this
    simpa using this
  set F := univ.image e with hF
  set u : Fin n → ι → ℝ := fun k => Function.extend e (fun p => V p k) 0 with hu
  set Φ : Fin n → E := fun k => ∑ m ∈ F, u k m • b m with hΦ
  have hue : ∀ k p, u k (e p) = V p k := fun k p => he.extend_apply _ _ _
  have hon : Orthonormal ℝ Φ := by
    rw [orthonormal_iff_ite]
    intro j k
    simp only [hΦ]
    rw [b.orthonormal.inner_sum, hF, sum_image fun _ _ _ _ h => he h, ← hVV j k]
    exact sum_congr rfl fun p _ => by rw [hue, hue]; simp
  have heig : ∀ k, ⟪Φ k, ∑ m ∈ F, u k m • gen b L m⟫ = d k := by
    intro k
    simp only [hΦ]
    rw [inner_sum_gen, hF, sum_image fun _ _ _ _ h => he h]
    have h1 : ∀ p, ∑ x ∈ univ.image e, u k (e p) * L.h (e p) x * u k x = ∑ q, V p k * (L.part e) p q * V q k := by
      intro p
      rw [sum_image fun _ _ _ _ h => he h]
      exact sum_congr rfl fun q _ => by rw [hue, hue]; rfl
    simp only [h1]
    have h2 := diag_form (L.part e) V d hM (fun p => V p k)
    rw [h2]
    simp only [hVV, ite_pow, one_pow, ne_eq, OfNat.ofNat_ne_zero, not_false_eq_true, zero_pow, mul_ite, mul_one, mul_zero,
      sum_ite_eq', mem_univ, if_true]
  choose C hC using fun k => S.cons_sum F (u k)
  have hlim : Tendsto (fun i : ℕ => ∑ k, (1 - β / (4 * i) * d k - C k * (β / (4 * i)) ^ 2) ^ (4 * i)) atTop
      (𝓝 (∑ k, Real.exp (-β * d k))) := tendsto_finsetSum _ fun k _ => exp_limit β (d k) (C k)
  refine le_of_tendsto_of_tendsto hlim hZ ?_
  have hst := step_tendsto β hβ
  have hpos : ∀ k, ∀ᶠ i : ℕ in atTop, 0 ≤ 1 - β / (4 * i) * d k - C k * (β / (4 * i)) ^ 2 := by
    intro k
    have h1 : Tendsto (fun τ : ℝ => 1 - τ * d k - C k * τ ^ 2) (𝓝[>] 0) (𝓝 (1 - 0 * d k - C k * 0 ^ 2)) :=
      (Continuous.tendsto (by fun_prop) 0).mono_left nhdsWithin_le_nhds
    have h2 := (h1.comp hst).eventually (Ioi_mem_nhds (by norm_num : (0 : ℝ) < 1 - 0 * d k - C k * 0 ^ 2))
    filter_upwards [h2] with i h
    exact (Set.mem_Ioi.mp h).le
  filter_upwards [ha, eventually_all.mpr fun k => hst.eventually (hC k), eventually_all.mpr hpos] with i h1 h2 h3
  refine le_trans (sum_le_sum fun k _ => ?_) (S.bessel_trace _ _ _ h1 Φ hon)
  have hn : ‖Φ k‖ = 1 := hon.1 k
  set τ := β / (4 * (i : ℝ)) with hτ
  have h4 : 1 - τ * d k - C k * τ ^ 2 ≤ ‖K τ (Φ k)‖ := by
    have h5 : ⟪Φ k, K τ (Φ k)⟫ ≤ ‖K τ (Φ k)‖ := by
      have := real_inner_le_norm (Φ k) (K τ (Φ k))
      rwa [hn, one_mul] at this
    have h6 := (abs_real_inner_le_norm (Φ k) (K τ (Φ k) - Φ k + τ • ∑ m ∈ F, u k m • gen b L m)).trans
      (mul_le_mul_of_nonneg_left (h2 k) (norm_nonneg _))
    rw [hn, one_mul, inner_add_right, inner_sub_right, inner_smul_right, heig, real_inner_self_eq_norm_sq, hn] at h6
    have := (abs_le.mp h6).1
    linarith
  have h7 := S.pow_ge τ (Φ k) hn _ (h3 k) h4 (2 * i)
  have h8 := pow_le_pow_left₀ (pow_nonneg (h3 k) _) h7 2
  rw [← pow_mul] at h8
  rwa [show 2 * i * 2 = 4 * i by ring] at h8

/-! ### nothing is lost -/

theorem trace_exp_half {n : ℕ} (M : Matrix (Fin n) (Fin n) ℝ) (hM : M.IsSymm) (t : ℝ) :
    (NormedSpace.exp (-(t • M))).trace = ∑ p, ∑ q, NormedSpace.exp (-((t / 2) • M)) p q ^ 2 := by
  have e : NormedSpace.exp (-(t • M)) = NormedSpace.exp (-((t / 2) • M)) * NormedSpace.exp (-((t / 2) • M)) := by
    rw [← Matrix.exp_add_of_commute _ _ (Commute.refl _), ← neg_add, ← add_smul, add_halves]
  have hs : (NormedSpace.exp (-((t / 2) • M))).transpose = NormedSpace.exp (-((t / 2) • M)) := by
    rw [← Matrix.exp_transpose, Matrix.transpose_neg, Matrix.transpose_smul, hM.eq]
  rw [e, Matrix.trace]
  refine sum_congr rfl fun p _ => ?_
  rw [Matrix.diag_apply, Matrix.mul_apply]
  refine sum_congr rfl fun q _ => ?_
  have h1 := congrFun (congrFun hs p) q
  rw [Matrix.transpose_apply] at h1
  rw [h1, sq]

/-- If the traces of the powers between `i` and `2i` fall by no more than a factor, the next one falls by little. -/
theorem next_trace (A : ℕ → ℝ) (i : ℕ) (hi : 0 < i) (hA : ∀ j, i ≤ j → 0 ≤ A j)
    (hconv : ∀ j, i ≤ j → A (j + 1) ^ 2 ≤ A j * A (j + 2)) (θ : ℝ) (hθ : 0 < θ) (h0 : 0 < A (2 * i)) (h : θ * A i ≤ A (2 * i)) :
    i * (A (2 * i) - A (2 * i + 1)) ≤ A (2 * i) * Real.log (1 / θ) := by
  set x := A (2 * i + 1) / A (2 * i) with hx
  have hx0 : 0 ≤ x := div_nonneg (hA _ (by omega)) h0.le
  have key : ∀ k ≤ i, 0 < A (2 * i - k) ∧ A (2 * i - k + 1) ≤ x * A (2 * i - k) ∧ A (2 * i) ≤ x ^ k * A (2 * i - k) := by
    intro k
    induction k with
    | zero =>
      intro _
      refine ⟨by simpa using h0, ?_, by simp⟩
      rw [Nat.sub_zero, hx, div_mul_cancel₀ _ h0.ne']
    | succ k ih =>
      intro hk
      obtain ⟨h1, h2, h3⟩ := ih (by omega)
      have e1 : 2 * i - k = 2 * i - (k + 1) + 1 := by omega
      set j := 2 * i - (k + 1) with hj
      rw [e1] at h1 h2 h3
      have h4 := hconv j (by omega)
      have h5 : 0 < A j := by
        rcases (hA j (by omega)).eq_or_lt with h6 | h6
        · rw [← h6, zero_mul] at h4
          nlinarith
        · exact h6
      have h7 : A (j + 1) ≤ x * A j := by
        have h8 : A (j + 1) ^ 2 ≤ A j * (x * A (j + 1)) := h4.trans (mul_le_mul_of_nonneg_left h2 h5.le)
        have h9 : A (j + 1) * A (j + 1) ≤ (x * A j) * A (j + 1) := by nlinarith
        exact le_of_mul_le_mul_right h9 h1
      refine ⟨h5, h7, h3.trans ?_⟩
      rw [pow_succ, mul_assoc]
      exact mul_le_mul_of_nonneg_left h7 (pow_nonneg hx0 _)
  obtain ⟨h1, -, h3⟩ := key i le_rfl
  have e1 : 2 * i - i = i := by omega
  rw [e1] at h1 h3
  have h4 : θ ≤ x ^ i := by
    have : θ * A i ≤ x ^ i * A i := h.trans h3
    exact le_of_mul_le_mul_right this h1
  have h5 : x ^ i ≤ Real.exp (-(i * (1 - x))) := by
    have h6 : x ≤ Real.exp (-(1 - x)) := by have := Real.add_one_le_exp (-(1 - x)); linarith
    refine (pow_le_pow_left₀ hx0 h6 i).trans (le_of_eq ?_)
    rw [← Real.exp_nat_mul]; congr 1; ring
  have h7 : i * (1 - x) ≤ Real.log (1 / θ) := by
    rw [one_div, Real.log_inv, le_neg]
    have := Real.log_le_log hθ (h4.trans h5)
    rwa [Real.log_exp] at this
  have h8 : A (2 * i + 1) = x * A (2 * i) := by rw [hx, div_mul_cancel₀ _ h0.ne']
  rw [h8]
  nlinarith

theorem Steps.traces (S : Steps b L K c T) (τ : ℝ) (i : ℕ) (A0 : ℝ) (h : HasSum (fun m => ‖(K τ ^ i) (b m)‖ ^ 2) A0) :
    ∃ A : ℕ → ℝ, A i = A0 ∧ (∀ j, i ≤ j → HasSum (fun m => ‖(K τ ^ j) (b m)‖ ^ 2) (A j)) ∧ (∀ j, i ≤ j → 0 ≤ A j) ∧
      ∀ j, i ≤ j → A (j + 1) ^ 2 ≤ A j * A (j + 2) := by
  have hs : ∀ j, i ≤ j → Summable fun m => ‖(K τ ^ j) (b m)‖ ^ 2 := by
    intro j hj
    induction j, hj using Nat.le_induction with
    | base => exact h.summable
    | succ j hj ih =>
      refine Summable.of_nonneg_of_le (fun _ => by positivity) (fun m => ?_) (ih.mul_left (‖K τ‖ ^ 2))
      have e1 : (K τ ^ (j + 1)) (b m) = K τ ((K τ ^ j) (b m)) := by rw [pow_succ' (K τ), mul_apply_eq_comp]
      rw [e1, ← mul_pow]
      exact pow_le_pow_left₀ (norm_nonneg _) ((K τ).le_opNorm _) 2
  have h0 : ∀ j, 0 ≤ ∑' m, ‖(K τ ^ j) (b m)‖ ^ 2 := fun j => tsum_nonneg fun _ => by positivity
  refine ⟨fun j => ∑' m, ‖(K τ ^ j) (b m)‖ ^ 2, h.tsum_eq, fun j hj => (hs j hj).hasSum, fun j _ => h0 j, fun j hj => ?_⟩
  simp only
  set X := ∑' m, ‖(K τ ^ j) (b m)‖ ^ 2
  set Y := ∑' m, ‖(K τ ^ (j + 1)) (b m)‖ ^ 2
  set W := ∑' m, ‖(K τ ^ (j + 2)) (b m)‖ ^ 2
  have key : ∀ s : ℝ, 0 ≤ X * (s * s) + (-2 * Y) * s + W := by
    intro s
    have h1 : HasSum (fun m => ‖(K τ ^ j) (b m)‖ ^ 2 * (s * s) + (-2 * ‖(K τ ^ (j + 1)) (b m)‖ ^ 2) * s + ‖(K τ ^ (j + 2)) (b m)‖ ^ 2)
        (X * (s * s) + (-2 * Y) * s + W) :=
      (((hs j hj).hasSum.mul_right _).add (((hs (j + 1) (by omega)).hasSum.mul_left _).mul_right _)).add (hs (j + 2) (by omega)).hasSum
    refine h1.nonneg fun m => ?_
    have h2 := S.log_convex τ j (b m)
    rcases le_or_gt 0 s with hs0 | hs0
    · nlinarith [sq_nonneg (‖(K τ ^ j) (b m)‖ * s - ‖(K τ ^ (j + 2)) (b m)‖), mul_le_mul_of_nonneg_left h2 hs0]
    · have : 0 ≤ ‖(K τ ^ (j + 1)) (b m)‖ ^ 2 * (-s) := mul_nonneg (sq_nonneg _) (by linarith)
      nlinarith [sq_nonneg (‖(K τ ^ j) (b m)‖ * s), sq_nonneg ‖(K τ ^ (j + 2)) (b m)‖]
  have := discrim_le_zero key
  unfold discrim at this
  nlinarith

set_option maxHeartbeats 1000000 in
/-- The traces of the exponentials of finite parts of the matrix approach the limit of the traces of the powers. -/
theorem Steps.ritz [Nonempty ι] (S : Steps b L K c T) (β : ℝ) (hβ : 0 < β) (a a' : ℕ → ℝ)
    (ha : ∀ᶠ i : ℕ in atTop, HasSum (fun m => ‖(K (β / (4 * i)) ^ (2 * i)) (b m)‖ ^ 2) (a i))
    (ha' : ∀ᶠ i : ℕ in atTop, HasSum (fun m => ‖(K (β / (4 * i)) ^ i) (b m)‖ ^ 2) (a' i)) (Z : ℝ)
    (hZ : Tendsto a atTop (𝓝 Z)) (A' : ℝ) (hA' : ∀ᶠ i in atTop, a' i ≤ A') (ε : ℝ) (hε : 0 < ε) :
    ∃ R : ℕ, ∀ (n : ℕ) [NeZero n] (e : Fin n → ι), Function.Injective e → (∀ m, L.level m ≤ R → m ∈ Set.range e) →
      |(NormedSpace.exp (-(β • L.part e))).trace - Z| < ε := by
  classical
  have hZ0 : 0 < Z := by
    obtain ⟨m⟩ := ‹Nonempty ι›
    refine lt_of_lt_of_le ?_ (S.peierls β hβ (n := 1) (fun _ => m) (Function.injective_of_subsingleton _) a ha Z hZ)
    rw [trace_exp_eigen _ 1 (fun _ => L.h m m) (by simp) (by ext p q; simp [Ladder.part, Matrix.diagonal, Subsingleton.elim p q])]
    simp [Real.exp_pos]
  have hst := step_tendsto β hβ
  have hT := S.T_nonneg
  -- the traces fall slowly
  set A'' := max A' 1 with hA''
  have hA''0 : 0 < A'' := lt_of_lt_of_le one_pos (le_max_right _ _)
  set θ := Z / 2 / A'' with hθ
  have hθ0 : 0 < θ := by positivity
  set G := 4 / β * ((Z + 1) * |Real.log (1 / θ)|) + c * (Z + 1) with hG
  have hG0 : 0 ≤ G := by have := S.c_nonneg; positivity
  -- the level above which nothing is found
  obtain ⟨M, hM0, hM⟩ : ∃ M : ℕ, 0 < M ∧ T / M * G ≤ ε / 16 := by
    obtain ⟨M, hM⟩ := exists_nat_gt (T * G * 16 / ε)
    have hMp : (0 : ℝ) < M := lt_of_le_of_lt (by positivity) hM
    refine ⟨M, by exact_mod_cast hMp, ?_⟩
    rw [div_mul_eq_mul_div, div_le_iff₀ hMp]
    rw [div_lt_iff₀ hε] at hM
    linarith
  set F := L.upto M with hF
  set s := ε / (8 * Z) with hs
  have hs0 : 0 < s := by positivity
  set D := β * Real.exp (2 * c * β) * (16 * L.C * (4 * Real.exp (2 * c * β)) + 1) with hD
  have hD0 : 0 ≤ D := by have := L.nonneg; positivity
  obtain ⟨R, hRM, hR⟩ : ∃ R : ℕ, 2 * M ≤ R ∧ (1 + 1 / s) * (F.card * (F.card * (4 * (D / R)))) ≤ ε / 8 := by
    obtain ⟨R, hR⟩ := exists_nat_gt ((1 + 1 / s) * (F.card * (F.card * (4 * D))) * 8 / ε)
    refine ⟨max R (2 * M), le_max_right _ _, ?_⟩
    have h1 : ((1 + 1 / s) * (F.card * (F.card * (4 * D))) * 8 / ε) < (max R (2 * M) : ℕ) :=
      hR.trans_le (by exact_mod_cast le_max_left _ _)
    have hRp : (0 : ℝ) < (max R (2 * M) : ℕ) := lt_of_le_of_lt (by positivity) h1
    have e : (1 + 1 / s) * (F.card * (F.card * (4 * (D / (max R (2 * M) : ℕ)))))
        = (1 + 1 / s) * (F.card * (F.card * (4 * D))) / (max R (2 * M) : ℕ) := by ring
    rw [e, div_le_iff₀ hRp]
    rw [div_lt_iff₀ hε] at h1
    linarith
  have hR0 : 0 < R := by omega
  have hR' : (0 : ℝ) < R := by exact_mod_cast hR0
  refine ⟨R + 2, fun n _ e he hrange => ?_⟩
  have hup := S.peierls β hβ e he a ha Z hZ
  rw [abs_lt]
  refine ⟨?_, by linarith⟩
  -- the lower bound
  set X := NormedSpace.exp (-((β / 2) • L.part e)) with hX
  have htr : (NormedSpace.exp (-(β • L.part e))).trace = ∑ p, ∑ q, X p q ^ 2 := trace_exp_half _ (L.part_symm e) β
  rw [htr] at hup ⊢
  have hFr : ∀ m ∈ F, ∃ p, e p = m := fun m hm => hrange m (by have := (L.mem_upto _ _).mp hm; omega)
  have hcmp : ∀ᶠ i : ℕ in atTop, ∀ p q : Fin n, cut L R (e p) ^ 2
      * (⟪b (e p), (K (β / (4 * i)) ^ (2 * i)) (b (e q))⟫ - X p q) ^ 2 ≤ D / R := by
    refine eventually_all.mpr fun p => eventually_all.mpr fun q => ?_
    filter_upwards [hst.eventually (S.compare β hβ e he R hR0 hrange p q), eventually_gt_atTop 0] with i h1 hi
    have hi' : (i : ℝ) ≠ 0 := by exact_mod_cast hi.ne'
    have e1 : ((2 * i : ℕ) : ℝ) * (β / (4 * i)) = β / 2 := by push_cast; field_simp; norm_num
    have h2 := h1 (2 * i) (by rw [e1]; linarith)
    rwa [e1] at h2
  have hlow : ∀ᶠ i : ℕ in atTop, Z / 2 ≤ a i := by
    have := hZ.eventually (Ici_mem_nhds (by linarith : Z / 2 < Z))
    exact this
  have hhigh : ∀ᶠ i : ℕ in atTop, a i ≤ Z + 1 := hZ.eventually (Iic_mem_nhds (by linarith : Z < Z + 1))
  have hnear : ∀ᶠ i : ℕ in atTop, Z - ε / 8 ≤ a i := hZ.eventually (Ici_mem_nhds (by linarith : Z - ε / 8 < Z))
  obtain ⟨i, h1, h2, h3, h4, h5, h6, h7, h8, hi, hτ⟩ := (ha.and (ha'.and (hA'.and (hcmp.and (hlow.and (hhigh.and (hnear.and
    ((hst.eventually (S.tight M hM0)).and ((eventually_gt_atTop 0).and (hst.eventually eventually_pos)))))))))).exists
  set τ := β / (4 * (i : ℝ)) with hτdef
  obtain ⟨A, hAi, hAsum, hA0, hAconv⟩ := S.traces τ i (a' i) h2
  have hA2 : A (2 * i) = a i := (hAsum (2 * i) (by omega)).unique h1
  have hi' : (0 : ℝ) < i := by exact_mod_cast hi
  -- the tail
  have hfall := next_trace A i hi hA0 hAconv θ hθ0 (by rw [hA2]; linarith) (by
    rw [hA2, hAi]
    refine le_trans ?_ h5
    rw [hθ, div_mul_eq_mul_div, div_le_iff₀ hA''0]
    exact mul_le_mul_of_nonneg_left (h3.trans (le_max_left _ _)) (by positivity))
  set g : ι → E := fun m => (K τ ^ (2 * i)) (b m) with hg
  have hg1 : HasSum (fun m => ‖g m‖ ^ 2) (a i) := h1
  have hg2 : HasSum (fun m => ‖K τ (g m)‖ ^ 2) (A (2 * i + 1)) := by
    have := hAsum (2 * i + 1) (by omega)
    have e1 : (fun m => ‖(K τ ^ (2 * i + 1)) (b m)‖ ^ 2) = fun m => ‖K τ (g m)‖ ^ 2 := by
      funext m; rw [pow_succ' (K τ), mul_apply_eq_comp]
    rwa [e1] at this
  have hg3 : HasSum (fun m => T / M * ((‖g m‖ ^ 2 - ‖K τ (g m)‖ ^ 2) / τ + c * ‖g m‖ ^ 2)) (T / M * ((a i - A (2 * i + 1)) / τ + c * a i)) :=
    (((hg1.sub hg2).div_const τ).add (hg1.mul_left c)).mul_left _
  have hG1 : T / M * ((a i - A (2 * i + 1)) / τ + c * a i) ≤ ε / 16 := by
    refine le_trans (mul_le_mul_of_nonneg_left ?_ (by positivity)) hM
    rw [hG]
    refine add_le_add ?_ (mul_le_mul_of_nonneg_left h6 S.c_nonneg)
    rw [hA2] at hfall
    have e1 : (a i - A (2 * i + 1)) / τ = 4 / β * (i * (a i - A (2 * i + 1))) := by
      rw [hτdef]; field_simp
    rw [e1]
    refine mul_le_mul_of_nonneg_left (hfall.trans ?_) (by positivity)
    exact (mul_le_mul_of_nonneg_left (le_abs_self _) (by linarith)).trans
      (mul_le_mul_of_nonneg_right h6 (abs_nonneg _))
  have hsw : ∀ m, HasSum (fun k => ⟪b m, g k⟫ ^ 2) (‖g m‖ ^ 2) := by
    intro m
    have h := parseval (b := b) (g m)
    have e1 : (fun k => ⟪b k, g m⟫ ^ 2) = fun k => ⟪b m, g k⟫ ^ 2 := by
      funext k
      simp only [hg]
      rw [← S.self_pow, real_inner_comm]
    rwa [e1] at h
  have hg4 : HasSum (fun k => ∑ m ∈ F, ⟪b m, g k⟫ ^ 2) (∑ m ∈ F, ‖g m‖ ^ 2) := hasSum_sum fun m _ => hsw m
  have htail : a i - ∑ m ∈ F, ‖g m‖ ^ 2 ≤ ε / 16 := (hasSum_le (fun k => h8 (g k)) (hg1.sub hg4) hg3).trans hG1
  have htail2 : ∑ m ∈ F, (‖g m‖ ^ 2 - ∑ k ∈ F, ⟪b k, g m⟫ ^ 2) ≤ ε / 16 := by
    have h9 := sum_le_hasSum F (fun k _ => sub_nonneg.mpr (bessel F (g k))) (hg1.sub hg4)
    exact h9.trans htail
  rw [sum_sub_distrib] at htail2
  have hmain : Z - ε / 4 ≤ ∑ m ∈ F, ∑ k ∈ F, ⟪b k, g m⟫ ^ 2 := by linarith
  -- the comparison on the finite part
  choose! p hp using hFr
  have hpinj : Set.InjOn p F := fun x hx y hy h => by rw [← hp x hx, ← hp y hy, h]
  have hone : ∀ m ∈ F, ∀ k ∈ F, ⟪b k, g m⟫ ^ 2 ≤ (1 + s) * X (p k) (p m) ^ 2 + (1 + 1 / s) * (4 * (D / R)) := by
    intro m hm k hk
    have h9 := h4 (p k) (p m)
    rw [hp k hk, hp m hm] at h9
    have hc1 : (1 / 4 : ℝ) ≤ cut L R k ^ 2 := by
      have h10 : (1 / 2 : ℝ) ≤ cut L R k := by
        refine le_trans ?_ (le_max_right _ _)
        have h11 : (L.level k : ℝ) ≤ M := by exact_mod_cast (L.mem_upto _ _).mp hk
        have h12 : (2 * M : ℝ) ≤ R := by exact_mod_cast hRM
        have h13 : (L.level k : ℝ) / R ≤ 1 / 2 := by
          rw [div_le_iff₀ hR']; linarith
        linarith
      nlinarith
    set x := ⟪b k, g m⟫ with hx
    set y := X (p k) (p m) with hy
    have h10 : (x - y) ^ 2 ≤ 4 * (D / R) := by nlinarith [sq_nonneg (x - y)]
    have h11 : x ^ 2 ≤ (1 + s) * y ^ 2 + (1 + 1 / s) * (x - y) ^ 2 := by
      have : 0 ≤ (s * y - (x - y)) ^ 2 / s := by positivity
      have e1 : (1 + s) * y ^ 2 + (1 + 1 / s) * (x - y) ^ 2 - x ^ 2 = (s * y - (x - y)) ^ 2 / s := by
        field_simp; ring
      linarith
    exact h11.trans (add_le_add le_rfl (mul_le_mul_of_nonneg_left h10 (by positivity)))
  have hsumX : ∑ m ∈ F, ∑ k ∈ F, X (p k) (p m) ^ 2 ≤ ∑ p, ∑ q, X p q ^ 2 := by
    rw [sum_comm, ← sum_product', ← Fintype.sum_prod_type' (f := fun p q => X p q ^ 2)]
    have h9 : ∑ x ∈ F ×ˢ F, X (p x.1) (p x.2) ^ 2 = ∑ y ∈ (F ×ˢ F).image fun x => (p x.1, p x.2), X y.1 y.2 ^ 2 := by
      rw [sum_image]
      intro x hx y hy h
      have hx' := mem_product.mp hx
      have hy' := mem_product.mp hy
      exact Prod.ext (hpinj hx'.1 hy'.1 (congrArg Prod.fst h)) (hpinj hx'.2 hy'.2 (congrArg Prod.snd h))
    rw [h9]
    exact sum_le_sum_of_subset_of_nonneg (subset_univ _) fun _ _ _ => sq_nonneg _
  have hfin : ∑ m ∈ F, ∑ k ∈ F, ⟪b k, g m⟫ ^ 2 ≤ (1 + s) * ∑ p, ∑ q, X p q ^ 2 + ε / 8 := by
    refine (sum_le_sum fun m hm => sum_le_sum fun k hk => hone m hm k hk).trans ?_
    simp only [sum_add_distrib, ← mul_sum, sum_const, nsmul_eq_mul]
    refine add_le_add (mul_le_mul_of_nonneg_left hsumX (by positivity)) ?_
    refine le_trans (le_of_eq ?_) hR
    ring
  have hsZ : s * ∑ p, ∑ q, X p q ^ 2 ≤ ε / 8 := by
    refine (mul_le_mul_of_nonneg_left hup hs0.le).trans (le_of_eq ?_)
    rw [hs]; field_simp
  linarith

end

end Pibronic.Ritz
