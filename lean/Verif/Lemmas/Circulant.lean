import Verif.Lemmas.Sampling
import Mathlib.LinearAlgebra.Matrix.Block
import Mathlib.LinearAlgebra.Matrix.Determinant.Basic

set_option autoImplicit false

/-! The determinant of `2 cosh(θ) - C`, where `C` is the circulant matrix of the beads. -/
namespace Pibronic.PIMC
open Finset Spec.PIMC

/-- The cyclic shift. -/
def cyc (P : ℕ) [NeZero P] : Matrix (Fin P) (Fin P) ℝ := fun i j => if i = j + 1 then 1 else 0

theorem circulant_eq (P : ℕ) [NeZero P] (hP : 3 ≤ P) : circulant P = cyc P + (cyc P).transpose := by
  ext i j
  rw [circulant_apply P hP, Matrix.add_apply, Matrix.transpose_apply, cyc, cyc]

theorem cyc_mul_transpose (P : ℕ) [NeZero P] : cyc P * (cyc P).transpose = 1 := by
  ext i j
  rw [Matrix.mul_apply]
  simp only [Matrix.transpose_apply, cyc, Matrix.one_apply, mul_ite, mul_one, mul_zero]
  have : ∀ x : Fin P, (if j = x + 1 then (if i = x + 1 then (1 : ℝ) else 0) else 0)
      = if x = j - 1 then (if i = j then 1 else 0) else 0 := by
    intro x
    have h : (j = x + 1) ↔ (x = j - 1) := by
      constructor
      · intro h; rw [h]; abel
      · intro h; rw [h]; abel
    by_cases hx : j = x + 1
    · rw [if_pos hx, if_pos (h.mp hx), hx]
    · rw [if_neg hx, if_neg (fun h' => hx (h.mpr h'))]
  simp only [this]
  simp

theorem det_sub_cyc (n : ℕ) (hn : 1 ≤ n) (x : ℝ) :
    (x • (1 : Matrix (Fin (n + 1)) (Fin (n + 1)) ℝ) - cyc (n + 1)).det = x ^ (n + 1) - 1 := by
  set M : Matrix (Fin (n + 1)) (Fin (n + 1)) ℝ := x • 1 - cyc (n + 1) with hM
  have hentry : ∀ i j, M i j = (if i = j then x else 0) - if i = j + 1 then 1 else 0 := by
    intro i j
    rw [hM, Matrix.sub_apply, Matrix.smul_apply, Matrix.one_apply, cyc]
    simp
  rw [Matrix.det_succ_column M (Fin.last n)]
  have hlast : ∀ i, M i (Fin.last n) = (if i = Fin.last n then x else 0) - if i = 0 then 1 else 0 := by
    intro i
    rw [hentry]
    congr 2
    simp
  have h0l : (0 : Fin (n + 1)) ≠ Fin.last n := by
    intro h
    have := congrArg Fin.val h
    simp at this
    omega
  rw [Finset.sum_eq_add_of_mem 0 (Fin.last n) (mem_univ _) (mem_univ _) h0l]
  · -- the two minors
    have hl1 : ∀ k : Fin n, (k.castSucc + 1 : Fin (n + 1)) = k.succ := fun k => by simp
    have m0 : (M.submatrix (Fin.succAbove 0) (Fin.succAbove (Fin.last n))).det = (-1) ^ n := by
      rw [Matrix.det_of_isUpperTriangular]
      · have : ∀ k : Fin n, M.submatrix (Fin.succAbove 0) (Fin.succAbove (Fin.last n)) k k = -1 := by
          intro k
          rw [Matrix.submatrix_apply, Fin.zero_succAbove, Fin.succAbove_last, hentry, hl1, if_pos rfl, if_neg]
          · ring
          · intro h
            have := congrArg Fin.val h
            simp at this
        rw [prod_congr rfl fun k _ => this k]; simp
      · intro i j hij
        simp only [id] at hij
        rw [Matrix.submatrix_apply, Fin.zero_succAbove, Fin.succAbove_last, hentry, hl1, if_neg, if_neg]
        · ring
        · intro h
          exact hij.ne' (Fin.succ_injective _ h)
        · intro h
          have := congrArg Fin.val h
          simp at this
          have := Fin.lt_def.mp hij
          omega
    have m1 : (M.submatrix (Fin.succAbove (Fin.last n)) (Fin.succAbove (Fin.last n))).det = x ^ n := by
      rw [Matrix.det_of_isLowerTriangular]
      · have : ∀ k : Fin n, M.submatrix (Fin.succAbove (Fin.last n)) (Fin.succAbove (Fin.last n)) k k = x := by
          intro k
          rw [Matrix.submatrix_apply, Fin.succAbove_last, hentry, hl1, if_pos rfl, if_neg]
          · ring
          · intro h
            have := congrArg Fin.val h
            simp at this
        rw [prod_congr rfl fun k _ => this k]; simp
      · intro i j hij
        have hij' : i < j := hij
        rw [Matrix.submatrix_apply, Fin.succAbove_last, hentry, hl1, if_neg, if_neg]
        · ring
        · intro h
          have := congrArg Fin.val h
          simp at this
          have := Fin.lt_def.mp hij'
          omega
        · intro h
          exact hij'.ne (Fin.castSucc_injective _ h)
    rw [m0, m1, hlast, hlast, if_neg h0l, if_pos rfl, if_pos rfl, if_neg h0l.symm]
    simp only [Fin.val_zero, Fin.val_last]
    have e1 : ((-1 : ℝ) ^ n) * (-1) ^ n = 1 := by rw [← mul_pow]; simp
    have e2 : ((-1 : ℝ) ^ (n + n)) = 1 := by rw [pow_add]; exact e1
    rw [zero_add, e2]
    rw [show (-1 : ℝ) ^ n * (0 - 1) * (-1) ^ n = -((-1) ^ n * (-1) ^ n) by ring, e1]
    ring
  · intro i _ hi
    rw [hlast, if_neg hi.2, if_neg hi.1]
    ring

theorem det_circulant (P : ℕ) [NeZero P] (hP : 3 ≤ P) (θ : ℝ) :
    ((2 * Real.cosh θ) • (1 : Matrix (Fin P) (Fin P) ℝ) - circulant P).det
      = 4 * Real.sinh (P * θ / 2) ^ 2 := by
  have hfac : (2 * Real.cosh θ) • (1 : Matrix (Fin P) (Fin P) ℝ) - circulant P
      = (Real.exp θ • 1 - cyc P) * (1 - Real.exp (-θ) • (cyc P).transpose) := by
    rw [circulant_eq P hP, Matrix.sub_mul, Matrix.mul_sub, Matrix.mul_sub, Matrix.mul_one, Matrix.mul_one,
      Matrix.mul_smul, Matrix.mul_smul, Matrix.smul_mul, Matrix.one_mul, cyc_mul_transpose, smul_smul,
      ← Real.exp_add, neg_add_cancel, Real.exp_zero, one_smul]
    have : (2 * Real.cosh θ) • (1 : Matrix (Fin P) (Fin P) ℝ) = Real.exp θ • 1 + Real.exp (-θ) • 1 := by
      rw [← add_smul, Real.cosh_eq]
      congr 1; ring
    rw [this]
    abel
  have h2 : (1 - Real.exp (-θ) • (cyc P).transpose).det
      = Real.exp (-θ) ^ P * (Real.exp θ • (1 : Matrix (Fin P) (Fin P) ℝ) - cyc P).det := by
    have : (1 - Real.exp (-θ) • (cyc P).transpose)
        = Real.exp (-θ) • (Real.exp θ • (1 : Matrix (Fin P) (Fin P) ℝ) - cyc P).transpose := by
      rw [Matrix.transpose_sub, Matrix.transpose_smul, Matrix.transpose_one, smul_sub, smul_smul, ← Real.exp_add,
        neg_add_cancel, Real.exp_zero, one_smul]
    rw [this, Matrix.det_smul, Matrix.det_transpose, Fintype.card_fin]
  obtain ⟨n, rfl⟩ : ∃ n, P = n + 1 := ⟨P - 1, by omega⟩
  have hd := det_sub_cyc n (by omega) (Real.exp θ)
  rw [hfac, Matrix.det_mul, h2, hd, ← Real.exp_nat_mul, ← Real.exp_nat_mul, Real.sinh_eq]
  have e1 : Real.exp ((n + 1 : ℕ) * θ) = Real.exp ((n + 1 : ℕ) * θ / 2) ^ 2 := by
    rw [← Real.exp_nat_mul]; congr 1; push_cast; ring
  have e2 : Real.exp ((n + 1 : ℕ) * -θ) = Real.exp (-((n + 1 : ℕ) * θ / 2)) ^ 2 := by
    rw [← Real.exp_nat_mul]; congr 1; push_cast; ring
  have e3 : Real.exp ((n + 1 : ℕ) * θ / 2) * Real.exp (-((n + 1 : ℕ) * θ / 2)) = 1 := by
    rw [← Real.exp_add, add_neg_cancel, Real.exp_zero]
  rw [e1, e2]
  generalize Real.exp ((n + 1 : ℕ) * θ / 2) = a at *
  generalize Real.exp (-((n + 1 : ℕ) * θ / 2)) = b at *
  linear_combination (a ^ 3 * b + a ^ 2 - 2 * a * b) * e3

theorem prod_eigvals (P : ℕ) [NeZero P] (hP : 3 ≤ P) (eigh : Eigh) (he : EighSpec eigh) (θ : ℝ) :
    ∏ p, (2 * Real.cosh θ - (eigh P (circulant P)).1 p) = 4 * Real.sinh (P * θ / 2) ^ 2 := by
  rw [← det_circulant P hP]
  obtain ⟨hV, hC⟩ := he P (circulant P) (circulant_isSymm P hP)
  generalize (eigh P (circulant P)).2 = V at *
  generalize (eigh P (circulant P)).1 = v at *
  have hV' : V * V.transpose = 1 := mul_eq_one_comm.mp hV
  have h : (2 * Real.cosh θ) • (1 : Matrix (Fin P) (Fin P) ℝ) - circulant P
      = V * Matrix.diagonal (fun p => 2 * Real.cosh θ - v p) * V.transpose := by
    have hd : Matrix.diagonal (fun p => 2 * Real.cosh θ - v p)
        = (2 * Real.cosh θ) • (1 : Matrix (Fin P) (Fin P) ℝ) - Matrix.diagonal v := by
      ext i j
      by_cases h : i = j
      · subst h; simp
      · simp [h]
    rw [hd, Matrix.mul_sub, Matrix.sub_mul, ← hC, Matrix.mul_smul, Matrix.mul_one, Matrix.smul_mul, hV']
  have hdet : V.det * V.det = 1 := by
    have := congrArg Matrix.det hV
    rwa [Matrix.det_mul, Matrix.det_transpose, Matrix.det_one] at this
  rw [h, Matrix.det_mul, Matrix.det_mul, Matrix.det_transpose, Matrix.det_diagonal, mul_right_comm, hdet, one_mul]

/-- The constant of one mode. -/
theorem mode_constant {A N P : ℕ} [NeZero P] (hP : 3 ≤ P) (eigh : Eigh) (he : EighSpec eigh) (t : ℝ)
    (ht : 0 < t) (rho : Rho A N) (hr : ∀ i, 0 < rho.omega i) (i : Fin N) :
    (∏ p, Real.sqrt (2 * Real.pi / invCov (rho.consts t) (eigh P (circulant P)).1 i p))
        / Real.sqrt (Real.sinh (t * rho.omega i)) ^ P
      = Real.sqrt (2 * Real.pi) ^ P / (2 * Real.sinh (P * (t * rho.omega i) / 2)) := by
  have hu := mul_pos ht (hr i)
  have hs : 0 < Real.sinh (t * rho.omega i) := Real.sinh_pos_iff.mpr hu
  have hk := fun p => invCov_pos hP eigh he t ht rho hr i p
  have hP0 : (0 : ℝ) < P := by exact_mod_cast Nat.pos_of_ne_zero (NeZero.ne P)
  have hS : 0 < Real.sinh (P * (t * rho.omega i) / 2) := Real.sinh_pos_iff.mpr (half_pos (mul_pos hP0 hu))
  have hkeq : ∀ p, invCov (rho.consts t) (eigh P (circulant P)).1 i p * Real.sinh (t * rho.omega i)
      = 2 * Real.cosh (t * rho.omega i) - (eigh P (circulant P)).1 p := by
    intro p
    have h1 : Constants.hbar = 1 := by norm_num [Constants.hbar]
    simp only [invCov, Rho.consts, consts, h1, one_mul]
    rw [Real.tanh_eq_sinh_div_cosh]
    field_simp
  have h1 : ∏ p, Real.sqrt (2 * Real.pi / invCov (rho.consts t) (eigh P (circulant P)).1 i p)
      = Real.sqrt (2 * Real.pi) ^ P / ∏ p, Real.sqrt (invCov (rho.consts t) (eigh P (circulant P)).1 i p) := by
    rw [prod_congr rfl fun p _ => Real.sqrt_div (by positivity : (0 : ℝ) ≤ 2 * Real.pi) _, prod_div_distrib,
      prod_const, card_univ, Fintype.card_fin]
  have h2 : (∏ p, Real.sqrt (invCov (rho.consts t) (eigh P (circulant P)).1 i p))
      * Real.sqrt (Real.sinh (t * rho.omega i)) ^ P = 2 * Real.sinh (P * (t * rho.omega i) / 2) := by
    have h3 : Real.sqrt (Real.sinh (t * rho.omega i)) ^ P = ∏ _p : Fin P, Real.sqrt (Real.sinh (t * rho.omega i)) := by
      rw [prod_const, card_univ, Fintype.card_fin]
    rw [h3, ← prod_mul_distrib, prod_congr rfl fun p _ => (Real.sqrt_mul (hk p).le _).symm]
    simp only [hkeq]
    have h4 : ∀ p, 0 ≤ 2 * Real.cosh (t * rho.omega i) - (eigh P (circulant P)).1 p := fun p => by
      rw [← hkeq]; exact (mul_pos (hk p) hs).le
    rw [← Real.sqrt_prod _ fun p _ => h4 p, prod_eigvals P hP eigh he,
      show 4 * Real.sinh (P * (t * rho.omega i) / 2) ^ 2 = (2 * Real.sinh (P * (t * rho.omega i) / 2)) ^ 2 by ring,
      Real.sqrt_sq (by positivity)]
  rw [h1, div_div, h2]

end Pibronic.PIMC
