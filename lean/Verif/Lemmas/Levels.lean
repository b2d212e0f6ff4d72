import Verif.Lemmas.SplitLimit
import Verif.Spec.Levels

set_option autoImplicit false
set_option linter.unusedSectionVars false

/-! The matrix elements of the Hamiltonian in the oscillator basis. -/
namespace Pibronic.Ritz
open Finset Filter Topology MeasureTheory Pibronic.PIMC Spec.PIMC

section
variable {N A : ℕ}

theorem raise_eq_up (i : Fin N) (n : Fin N → ℕ) : raise i n = up i n := rfl

theorem up_ne (i : Fin N) (n : Fin N → ℕ) : up i n ≠ n := fun h => by
  have := congrFun h i
  simp [up] at this

theorem up_up_ne (i : Fin N) (n : Fin N → ℕ) : up i (up i n) ≠ n := fun h => by
  have := congrFun h i
  simp [up] at this
  omega

theorem up_dn (i : Fin N) (n : Fin N → ℕ) (h : n i ≠ 0) : up i (dn i n) = n := by
  funext k
  unfold up dn
  by_cases hk : k = i
  · subst hk; simp; omega
  · simp [hk]

theorem dn_up (i : Fin N) (n : Fin N → ℕ) : dn i (up i n) = n := by
  funext k
  unfold up dn
  by_cases hk : k = i
  · subst hk; simp
  · simp [hk]

theorem dn_zero (i : Fin N) (n : Fin N → ℕ) (h : n i = 0) : dn i n = n := by
  funext k
  unfold dn
  by_cases hk : k = i
  · subst hk; simp [h]
  · simp [hk]

theorem up_ne_dn (i : Fin N) (n : Fin N → ℕ) : up i n ≠ dn i n := fun h => by
  have := congrFun h i
  simp [up, dn] at this
  omega

/-- The coordinate in terms of the two neighbours of a state. -/
theorem position_eq (i : Fin N) (m n : Fin N → ℕ) :
    position i m n = Real.sqrt ((n i + 1) / 2) * (if m = up i n then 1 else 0) + Real.sqrt (n i / 2) * (if m = dn i n then 1 else 0) := by
  unfold position
  rw [raise_eq_up, raise_eq_up]
  by_cases h1 : m = up i n
  · rw [if_pos h1, if_pos h1, if_neg (by rw [h1]; exact up_ne_dn i n)]; ring
  · rw [if_neg h1, if_neg h1]
    by_cases h0 : n i = 0
    · have h2 : n ≠ up i m := fun h => by
        have := congrFun h i
        simp [up, h0] at this
      rw [if_neg h2, h0]; simp
    · by_cases h2 : m = dn i n
      · rw [if_pos h2, if_pos (by rw [h2, up_dn i n h0])]
        have : m i + 1 = n i := by rw [h2]; simp [dn]; omega
        have e : ((m i : ℝ) + 1) = n i := by exact_mod_cast this
        rw [e]; ring
      · rw [if_neg h2, if_neg (fun h => h2 (by rw [h, dn_up]))]; ring

theorem positions_eq (i j : Fin N) (m n : Fin N → ℕ) :
    positions i j m n = Real.sqrt ((n j + 1) / 2) * position i m (up j n) + Real.sqrt (n j / 2) * position i m (dn j n) := by
  classical
  unfold positions
  rw [tsum_eq_sum (s := {up j n, dn j n}), sum_pair (up_ne_dn j n)]
  · rw [position_eq j (up j n) n, position_eq j (dn j n) n, if_pos rfl, if_neg (up_ne_dn j n), if_neg (up_ne_dn j n).symm, if_pos rfl]
    ring
  · intro k hk
    simp only [mem_insert, mem_singleton, not_or] at hk
    rw [position_eq j k n, if_neg hk.1, if_neg hk.2]; ring

theorem position_symm (i : Fin N) (m n : Fin N → ℕ) : position i m n = position i n m := by
  unfold position
  rw [raise_eq_up, raise_eq_up]
  by_cases h1 : m = up i n
  · rw [if_pos h1, if_pos h1, if_neg]
    rw [h1]; exact (up_up_ne i n).symm
  · rw [if_neg h1, if_neg h1]

/-! ### as integrals -/

theorem prodState_mul_integrable (m n : Fin N → ℕ) : Integrable fun x => prodState m x * prodState n x :=
  MemLp.integrable_mul (p := 2) (q := 2) (prodState_memLp m) (prodState_memLp n)

theorem position_integral (i : Fin N) (m n : Fin N → ℕ) :
    Integrable (fun x => prodState m x * (x i * prodState n x)) ∧ ∫ x, prodState m x * (x i * prodState n x) = position i m n := by
  have e : (fun x => prodState m x * (x i * prodState n x)) = fun x => Real.sqrt ((n i + 1) / 2) * (prodState m x * prodState (up i n) x)
      + Real.sqrt (n i / 2) * (prodState m x * prodState (dn i n) x) := by
    funext x
    rw [prodState_mul]; ring
  have h1 := (prodState_mul_integrable m (up i n)).const_mul (Real.sqrt ((n i + 1) / 2))
  have h2 := (prodState_mul_integrable m (dn i n)).const_mul (Real.sqrt (n i / 2))
  rw [e]
  refine ⟨h1.add h2, ?_⟩
  rw [integral_add h1 h2, integral_const_mul, integral_const_mul, prodState_ortho, prodState_ortho, position_eq]

theorem positions_integral (i j : Fin N) (m n : Fin N → ℕ) :
    Integrable (fun x => prodState m x * (x i * x j * prodState n x)) ∧
      ∫ x, prodState m x * (x i * x j * prodState n x) = positions i j m n := by
  have e : (fun x => prodState m x * (x i * x j * prodState n x))
      = fun x => Real.sqrt ((n j + 1) / 2) * (prodState m x * (x i * prodState (up j n) x))
      + Real.sqrt (n j / 2) * (prodState m x * (x i * prodState (dn j n) x)) := by
    funext x
    rw [mul_assoc (x i), prodState_mul]; ring
  obtain ⟨i1, e1⟩ := position_integral i m (up j n)
  obtain ⟨i2, e2⟩ := position_integral i m (dn j n)
  have h1 := i1.const_mul (Real.sqrt ((n j + 1) / 2))
  have h2 := i2.const_mul (Real.sqrt (n j / 2))
  rw [e]
  refine ⟨h1.add h2, ?_⟩
  rw [integral_add h1 h2, integral_const_mul, integral_const_mul, e1, e2, positions_eq]

theorem positions_symm (i j : Fin N) (m n : Fin N → ℕ) : positions i j m n = positions i j n m := by
  rw [← (positions_integral i j m n).2, ← (positions_integral i j n m).2]
  congr 1; funext x; ring

theorem hamiltonian_symm (v : Vib A N) (hv : Symmetric v) (s r : (Fin N → ℕ) × Fin A) : hamiltonian v s r = hamiltonian v r s := by
  obtain ⟨h1, h2, h3⟩ := hv
  unfold hamiltonian
  congr 1
  · congr 1
    · congr 1
      · by_cases h : s = r
        · rw [if_pos h, if_pos h.symm, h]
        · rw [if_neg h, if_neg (Ne.symm h)]
      · by_cases h : s.1 = r.1
        · rw [if_pos h, if_pos h.symm, h1.apply]
        · rw [if_neg h, if_neg (Ne.symm h)]
    · exact sum_congr rfl fun i _ => by rw [position_symm, (h2 i).apply]
  · exact sum_congr rfl fun i _ => sum_congr rfl fun j _ => by rw [positions_symm, (h3 i j).apply]

/-! ### the band -/

theorem total_up (i : Fin N) (n : Fin N → ℕ) : total (up i n) = total n + 1 := by
  unfold total up
  rw [← add_sum_erase _ _ (mem_univ i), ← add_sum_erase univ n (mem_univ i), Function.update_self]
  have : ∑ k ∈ univ.erase i, Function.update n i (n i + 1) k = ∑ k ∈ univ.erase i, n k :=
    sum_congr rfl fun k hk => by rw [Function.update_of_ne (mem_erase.mp hk).1]
  rw [this]; omega

theorem total_dn (i : Fin N) (n : Fin N → ℕ) : total (dn i n) ≤ total n := by
  unfold total dn
  refine sum_le_sum fun k _ => ?_
  by_cases hk : k = i
  · subst hk; simp
  · simp [hk]

theorem position_band (i : Fin N) (m n : Fin N → ℕ) (h : position i m n ≠ 0) : total m ≤ total n + 1 := by
  rw [position_eq] at h
  by_cases h1 : m = up i n
  · rw [h1, total_up]
  · by_cases h2 : m = dn i n
    · have := total_dn i n
      rw [h2]; omega
    · rw [if_neg h1, if_neg h2] at h; simp at h

theorem positions_band (i j : Fin N) (m n : Fin N → ℕ) (h : positions i j m n ≠ 0) : total m ≤ total n + 2 := by
  rw [positions_eq] at h
  by_cases h1 : position i m (up j n) = 0
  · by_cases h2 : position i m (dn j n) = 0
    · rw [h1, h2] at h; simp at h
    · have := position_band i m _ h2
      have := total_dn j n
      omega
  · have := position_band i m _ h1
    rw [total_up] at this
    omega

theorem hamiltonian_band (v : Vib A N) (s r : (Fin N → ℕ) × Fin A) (h : hamiltonian v s r ≠ 0) : total s.1 ≤ total r.1 + 2 := by
  by_contra hc
  refine h ?_
  have h0 : s.1 ≠ r.1 := fun e => by rw [e] at hc; omega
  have h1 : s ≠ r := fun e => h0 (by rw [e])
  have h2 : ∀ i, position i s.1 r.1 = 0 := fun i => by
    by_contra hh
    have := position_band i _ _ hh
    omega
  have h3 : ∀ i j, positions i j s.1 r.1 = 0 := fun i j => by
    by_contra hh
    have := positions_band i j _ _ hh
    omega
  unfold hamiltonian
  simp [h0, h1, h2, h3]

theorem total_finite (R : ℕ) : {n : (Fin N → ℕ) × Fin A | total n.1 ≤ R}.Finite := by
  have h : {n : (Fin N → ℕ) × Fin A | total n.1 ≤ R} ⊆ (Set.pi Set.univ fun _ => Set.Iic R) ×ˢ Set.univ := by
    rintro ⟨n, a⟩ hn
    refine ⟨fun i _ => ?_, trivial⟩
    exact (single_le_sum (f := n) (fun _ _ => Nat.zero_le _) (mem_univ i)).trans hn
  exact ((Set.Finite.pi fun _ => Set.finite_Iic R).prod Set.finite_univ).subset h

/-! ### the rows -/

/-- The sum of the absolute values is at most `K`. -/
def Row {ι : Type*} (f : ι → ℝ) (K : ℝ) : Prop := ∀ s : Finset ι, ∑ m ∈ s, |f m| ≤ K

theorem Row.add {ι : Type*} {f g : ι → ℝ} {K L : ℝ} (hf : Row f K) (hg : Row g L) : Row (fun m => f m + g m) (K + L) := fun s =>
  (sum_le_sum fun m _ => abs_add_le (f m) (g m)).trans (by rw [sum_add_distrib]; exact add_le_add (hf s) (hg s))

theorem Row.mul {ι : Type*} {f : ι → ℝ} {K : ℝ} (hf : Row f K) (c : ℝ) : Row (fun m => c * f m) (|c| * K) := fun s => by
  simp only [abs_mul]
  rw [← mul_sum]
  exact mul_le_mul_of_nonneg_left (hf s) (abs_nonneg c)

theorem Row.mono {ι : Type*} {f : ι → ℝ} {K L : ℝ} (hf : Row f K) (h : K ≤ L) : Row f L := fun s => (hf s).trans h

theorem Row.single {ι : Type*} [DecidableEq ι] (t : ι) : Row (fun m => if m = t then (1 : ℝ) else 0) 1 := fun s => by
  have : ∀ m, |if m = t then (1 : ℝ) else 0| = if m = t then 1 else 0 := fun m => by split_ifs <;> simp
  simp only [this]
  rw [sum_ite_eq']
  split_ifs <;> norm_num

theorem Row.sum {ι κ : Type*} (u : Finset κ) {f : κ → ι → ℝ} {K : κ → ℝ} (hf : ∀ k, Row (f k) (K k)) :
    Row (fun m => ∑ k ∈ u, f k m) (∑ k ∈ u, K k) := fun s =>
  (sum_le_sum fun m _ => abs_sum_le_sum_abs (fun k => f k m) u).trans (by
    rw [sum_comm]; exact sum_le_sum fun k _ => hf k s)

theorem Row.pair {ι : Type*} [DecidableEq ι] {f : ι → ℝ} {K : ℝ} (hf : Row f K) (M : Fin A → ℝ) :
    Row (fun s : ι × Fin A => M s.2 * f s.1) ((∑ a, |M a|) * K) := fun s => by
  have h1 : s ⊆ s.image Prod.fst ×ˢ univ := fun p hp => mem_product.mpr ⟨mem_image_of_mem _ hp, mem_univ _⟩
  refine (sum_le_sum_of_subset_of_nonneg h1 fun _ _ _ => abs_nonneg _).trans ?_
  rw [sum_product_right]
  simp only [abs_mul]
  rw [sum_mul]
  refine sum_le_sum fun a _ => ?_
  rw [← mul_sum]
  exact mul_le_mul_of_nonneg_left (hf _) (abs_nonneg _)

theorem le_total (i : Fin N) (n : Fin N → ℕ) : (n i : ℝ) ≤ total n := by
  exact_mod_cast single_le_sum (f := n) (fun _ _ => Nat.zero_le _) (mem_univ i)

theorem sqrt_half_le (k l : ℝ) (h : k ≤ l + 2) (hl : 0 ≤ l) : Real.sqrt (k / 2) ≤ Real.sqrt (l + 1) :=
  Real.sqrt_le_sqrt (by linarith)

theorem position_row (i : Fin N) (n : Fin N → ℕ) (l : ℝ) (hl : (total n : ℝ) ≤ l + 1) (hl0 : 0 ≤ l) :
    Row (fun m => position i m n) (2 * Real.sqrt (l + 1)) := by
  classical
  have h := ((Row.single (up i n)).mul (Real.sqrt ((n i + 1) / 2))).add ((Row.single (dn i n)).mul (Real.sqrt (n i / 2)))
  have hn := le_total i n
  have hn0 : (0 : ℝ) ≤ n i := Nat.cast_nonneg _
  have h1 := sqrt_half_le (n i + 1) l (by linarith) hl0
  have h2 := sqrt_half_le (n i) l (by linarith) hl0
  have h' := h.mono (L := 2 * Real.sqrt (l + 1)) (by
    rw [abs_of_nonneg (Real.sqrt_nonneg _), abs_of_nonneg (Real.sqrt_nonneg _)]; linarith)
  have e : (fun m => position i m n) = fun m => Real.sqrt ((n i + 1) / 2) * (if m = up i n then 1 else 0)
      + Real.sqrt (n i / 2) * (if m = dn i n then 1 else 0) := by
    funext m
    rw [position_eq]
  rw [e]
  convert h' using 1

theorem positions_row (i j : Fin N) (n : Fin N → ℕ) : Row (fun m => positions i j m n) (4 * (total n + 1)) := by
  have ht : (0 : ℝ) ≤ total n := Nat.cast_nonneg _
  have hn := le_total j n
  have hn0 : (0 : ℝ) ≤ n j := Nat.cast_nonneg _
  have h1 := position_row i (up j n) (total n) (by rw [total_up]; push_cast; exact le_rfl) ht
  have h2 := position_row i (dn j n) (total n) (by have : (total (dn j n) : ℝ) ≤ total n := by exact_mod_cast total_dn j n
                                                   linarith) ht
  have h := (h1.mul (Real.sqrt ((n j + 1) / 2))).add (h2.mul (Real.sqrt (n j / 2)))
  have g1 := sqrt_half_le (n j + 1) (total n) (by linarith) ht
  have g2 := sqrt_half_le (n j) (total n) (by linarith) ht
  have hs := Real.mul_self_sqrt (by linarith : (0 : ℝ) ≤ total n + 1)
  have hs0 := Real.sqrt_nonneg ((total n : ℝ) + 1)
  have h' := h.mono (L := 4 * (total n + 1)) (by
    rw [abs_of_nonneg (Real.sqrt_nonneg _), abs_of_nonneg (Real.sqrt_nonneg _)]
    have k1 := mul_le_mul_of_nonneg_right g1 (by positivity : 0 ≤ 2 * Real.sqrt ((total n : ℝ) + 1))
    have k2 := mul_le_mul_of_nonneg_right g2 (by positivity : 0 ≤ 2 * Real.sqrt ((total n : ℝ) + 1))
    linarith)
  have e : (fun m => positions i j m n) = fun m => Real.sqrt ((n j + 1) / 2) * position i m (up j n)
      + Real.sqrt (n j / 2) * position i m (dn j n) := by
    funext m; rw [positions_eq]
  rw [e]
  exact h'

theorem hamiltonian_row (v : Vib A N) : ∃ K, 0 ≤ K ∧ ∀ r : (Fin N → ℕ) × Fin A, Row (fun s => hamiltonian v s r) (K * (total r.1 + 1)) := by
  classical
  set K := ∑ i, |v.omega i| + (∑ a, ∑ b, |v.energy a b|) + 2 * (∑ i, ∑ a, ∑ b, |v.linear i a b|)
    + 4 * (∑ i, ∑ j, ∑ a, ∑ b, |v.quadratic i j a b|) with hK
  refine ⟨K, by positivity, fun r => ?_⟩
  set T : ℝ := total r.1 + 1 with hT
  have hT1 : 1 ≤ T := by rw [hT]; have : (0 : ℝ) ≤ total r.1 := Nat.cast_nonneg _; linarith
  have hcol : ∀ M : Matrix (Fin A) (Fin A) ℝ, ∑ a, |M a r.2| ≤ ∑ a, ∑ b, |M a b| := fun M =>
    sum_le_sum fun a _ => single_le_sum (f := fun b => |M a b|) (fun _ _ => abs_nonneg _) (mem_univ r.2)
  have r1 : Row (fun s : (Fin N → ℕ) × Fin A => if s = r then ∑ i, v.omega i * (r.1 i + 1 / 2) else 0) ((∑ i, |v.omega i|) * T) := by
    have h := ((Row.single r).mul (∑ i, v.omega i * (r.1 i + 1 / 2))).mono (L := (∑ i, |v.omega i|) * T) (by
      rw [mul_one]
      refine (abs_sum_le_sum_abs _ _).trans ?_
      rw [sum_mul]
      refine sum_le_sum fun i _ => ?_
      rw [abs_mul]
      refine mul_le_mul_of_nonneg_left ?_ (abs_nonneg _)
      have := le_total i r.1
      have : (0 : ℝ) ≤ r.1 i := Nat.cast_nonneg _
      rw [abs_of_nonneg (by linarith), hT]; linarith)
    convert h using 2 with s
    simp
  have r2 : Row (fun s : (Fin N → ℕ) × Fin A => if s.1 = r.1 then v.energy s.2 r.2 else 0) ((∑ a, ∑ b, |v.energy a b|) * T) := by
    have h := ((Row.single r.1).pair fun a => v.energy a r.2).mono (L := (∑ a, ∑ b, |v.energy a b|) * T) (by
      refine mul_le_mul (hcol _) hT1 zero_le_one (by positivity))
    convert h using 2 with s
    simp
  have r3 : Row (fun s : (Fin N → ℕ) × Fin A => ∑ i, v.linear i s.2 r.2 * position i s.1 r.1) (2 * (∑ i, ∑ a, ∑ b, |v.linear i a b|) * T) := by
    have hs : Real.sqrt T ≤ T := by
      rw [Real.sqrt_le_left (by linarith)]
      nlinarith
    refine (Row.sum univ fun i => ((position_row i r.1 (total r.1) (by linarith) (Nat.cast_nonneg _)).pair fun a => v.linear i a r.2)).mono ?_
    have e : 2 * (∑ i, ∑ a, ∑ b, |v.linear i a b|) * T = ∑ i, (∑ a, ∑ b, |v.linear i a b|) * (2 * T) := by rw [← sum_mul]; ring
    rw [e, ← hT]
    exact sum_le_sum fun i _ => mul_le_mul (hcol _) (by linarith) (mul_nonneg zero_le_two (Real.sqrt_nonneg _)) (by positivity)
  have r4 : Row (fun s : (Fin N → ℕ) × Fin A => ∑ i, ∑ j, v.quadratic i j s.2 r.2 / 2 * positions i j s.1 r.1)
      (4 * (∑ i, ∑ j, ∑ a, ∑ b, |v.quadratic i j a b|) * T) := by
    refine (Row.sum univ fun i => Row.sum univ fun j => ((positions_row i j r.1).pair fun a => v.quadratic i j a r.2 / 2)).mono ?_
    have e : 4 * (∑ i, ∑ j, ∑ a, ∑ b, |v.quadratic i j a b|) * T = ∑ i, ∑ j, (∑ a, ∑ b, |v.quadratic i j a b|) * (4 * T) := by
      simp only [← sum_mul]; ring
    rw [e, ← hT]
    refine sum_le_sum fun i _ => sum_le_sum fun j _ => mul_le_mul_of_nonneg_right ?_ (by linarith)
    refine le_trans (sum_le_sum fun a _ => ?_) (hcol _)
    rw [abs_div, abs_of_pos (by norm_num : (0 : ℝ) < 2)]
    linarith [abs_nonneg (v.quadratic i j a r.2)]
  refine (((r1.add r2).add r3).add r4).mono (le_of_eq ?_)
  rw [hK]; ring

/-- The Hamiltonian as a ladder. -/
noncomputable def ladder (v : Vib A N) (hv : Symmetric v) : Ladder ((Fin N → ℕ) × Fin A) where
  level := fun n => total n.1
  h := hamiltonian v
  C := (hamiltonian_row v).choose
  symm := hamiltonian_symm v hv
  finite := total_finite
  band := hamiltonian_band v
  nonneg := (hamiltonian_row v).choose_spec.1
  row := fun n s => (hamiltonian_row v).choose_spec.2 n s

/-! ### the couplings, applied to a basis function -/

/-- The couplings of the system at a point. -/
noncomputable def coup (v : Vib A N) (x : Fin N → ℝ) : Matrix (Fin A) (Fin A) ℝ := terms v.energy v.linear v.quadratic x

theorem coup_apply (v : Vib A N) (x : Fin N → ℝ) (a b : Fin A) :
    coup v x a b = v.energy a b + ∑ i, x i * v.linear i a b + ∑ i, ∑ j, x i * x j / 2 * v.quadratic i j a b := by
  unfold coup terms
  simp only [Matrix.add_apply, Matrix.sum_apply, Matrix.smul_apply, smul_eq_mul]

theorem coup_continuous (v : Vib A N) : Continuous (coup v) := by
  unfold coup terms; fun_prop

/-- A column of the couplings times a basis function. -/
noncomputable def cf (v : Vib A N) (n : (Fin N → ℕ) × Fin A) (p : Pt N A) : ℝ := coup v p.1 p.2 n.2 * prodState n.1 p.1

theorem cf_meas (v : Vib A N) (n : (Fin N → ℕ) × Fin A) : Measurable (cf v n) := by
  refine measurable_pt fun a => Continuous.measurable ?_
  exact ((continuous_apply n.2).comp ((continuous_apply a).comp (coup_continuous v))).mul (prodState_continuous n.1)

variable [NeZero A]

theorem cf_memLp (v : Vib A N) (n : (Fin N → ℕ) × Fin A) : MemLp (cf v n) 2 (vol N A) := by
  obtain ⟨Bd, hBd, hW⟩ := terms_norm_le v.energy v.linear v.quadratic
  obtain ⟨K, hK, hb⟩ := prodState_bound n.1 (1 / 4) (by norm_num)
  refine memLp_of_gw _ (cf_meas v n) (Bd * (32 * Real.exp (1 / 32)) * K) (1 / 8) (by norm_num) fun p => ?_
  unfold cf gw
  set s := ∑ i, p.1 i ^ 2 with hsdef
  have hs0 : 0 ≤ s := sum_nonneg fun _ _ => sq_nonneg _
  have h1 : |coup v p.1 p.2 n.2| ≤ Bd * (32 * Real.exp (1 / 32) * Real.exp (s / 32)) := by
    refine (entry_le _ _ _).trans ((hW p.1).trans (mul_le_mul_of_nonneg_left ?_ hBd))
    have := Real.add_one_le_exp ((1 + s) / 32)
    have e : 32 * Real.exp (1 / 32) * Real.exp (s / 32) = 32 * Real.exp ((1 + s) / 32) := by
      rw [mul_assoc, ← Real.exp_add]; congr 2; ring
    rw [e]
    have : Pibronic.PIMC.sq p.1 = s := rfl
    rw [this]
    linarith
  rw [abs_mul]
  refine (mul_le_mul h1 (hb p.1) (abs_nonneg _) (by positivity)).trans ?_
  rw [← hsdef]
  have e : Bd * (32 * Real.exp (1 / 32) * Real.exp (s / 32)) * (K * Real.exp (-((1 / 2 - 1 / 4) * s)))
      = Bd * (32 * Real.exp (1 / 32)) * K * Real.exp (s / 32 + -((1 / 2 - 1 / 4) * s)) := by
    rw [Real.exp_add]; ring
  rw [e]
  exact mul_le_mul_of_nonneg_left (Real.exp_le_exp.mpr (by linarith)) (by positivity)

/-- The matrix elements of the couplings. -/
noncomputable def celem (v : Vib A N) (s r : (Fin N → ℕ) × Fin A) : ℝ :=
  (if s.1 = r.1 then v.energy s.2 r.2 else 0) + ∑ i, v.linear i s.2 r.2 * position i s.1 r.1
    + ∑ i, ∑ j, v.quadratic i j s.2 r.2 / 2 * positions i j s.1 r.1

theorem hamiltonian_eq (v : Vib A N) (s r : (Fin N → ℕ) × Fin A) :
    hamiltonian v s r = (if s = r then quanta v.omega r.1 else 0) + celem v s r := by
  unfold hamiltonian celem quanta
  ring

theorem cf_integral (v : Vib A N) (m n : Fin N → ℕ) (a b : Fin A) :
    ∫ x, prodState m x * (coup v x a b * prodState n x) = celem v (m, a) (n, b) := by
  have e : (fun x => prodState m x * (coup v x a b * prodState n x)) = fun x => v.energy a b * (prodState m x * prodState n x)
      + ∑ i, v.linear i a b * (prodState m x * (x i * prodState n x))
      + ∑ i, ∑ j, v.quadratic i j a b / 2 * (prodState m x * (x i * x j * prodState n x)) := by
    funext x
    rw [coup_apply, add_mul, add_mul, mul_add, mul_add, sum_mul, mul_sum, sum_mul, mul_sum]
    congr 1
    · congr 1
      · ring
      · exact sum_congr rfl fun i _ => by ring
    · refine sum_congr rfl fun i _ => ?_
      rw [sum_mul, mul_sum]
      exact sum_congr rfl fun j _ => by ring
  have i1 := (prodState_mul_integrable m n).const_mul (v.energy a b)
  have i2 : ∀ i ∈ (univ : Finset (Fin N)), Integrable fun x => v.linear i a b * (prodState m x * (x i * prodState n x)) :=
    fun i _ => (position_integral i m n).1.const_mul _
  have i3 : ∀ i, ∀ j ∈ (univ : Finset (Fin N)), Integrable fun x => v.quadratic i j a b / 2 * (prodState m x * (x i * x j * prodState n x)) :=
    fun i j _ => (positions_integral i j m n).1.const_mul _
  have i3' : ∀ i ∈ (univ : Finset (Fin N)), Integrable fun x => ∑ j, v.quadratic i j a b / 2 * (prodState m x * (x i * x j * prodState n x)) :=
    fun i _ => integrable_finsetSum _ (i3 i)
  have i12 : Integrable fun x => v.energy a b * (prodState m x * prodState n x) + ∑ i, v.linear i a b * (prodState m x * (x i * prodState n x)) :=
    i1.add (integrable_finsetSum _ i2)
  rw [e, integral_add i12 (integrable_finsetSum _ i3'), integral_add i1 (integrable_finsetSum _ i2),
    integral_const_mul, prodState_ortho, integral_finsetSum _ i2, integral_finsetSum _ i3']
  unfold celem
  congr 1
  · congr 1
    · simp
    · exact sum_congr rfl fun i _ => by rw [integral_const_mul, (position_integral i m n).2]
  · refine sum_congr rfl fun i _ => ?_
    rw [integral_finsetSum _ (i3 i)]
    exact sum_congr rfl fun j _ => by rw [integral_const_mul, (positions_integral i j m n).2]

theorem cf_inner (v : Vib A N) (n k : (Fin N → ℕ) × Fin A) : inner ℝ (states N A k) ((cf_memLp v n).toLp (cf v n)) = celem v k n := by
  rw [inner_lp]
  have e : ∫ p, states N A k p * ((cf_memLp v n).toLp (cf v n)) p ∂(vol N A) = ∫ p, bf k p * cf v n p ∂(vol N A) := by
    refine integral_congr_ae ?_
    filter_upwards [states_coe k, (cf_memLp v n).coeFn_toLp] with p h1 h2
    rw [h1, h2]
  have hi : Integrable (fun p => bf k p * cf v n p) (vol N A) := MemLp.integrable_mul (p := 2) (q := 2) (bf_memLp k) (cf_memLp v n)
  rw [e, integral_pt hi, sum_eq_single k.2]
  · rw [← cf_integral]
    congr 1; funext x
    simp [bf, cf]
  · intro a _ ha
    simp [bf, ha]
  · simp

theorem celem_zero (v : Vib A N) (hv : Symmetric v) (n k : (Fin N → ℕ) × Fin A) (h : k ∉ (ladder v hv).upto ((ladder v hv).level n + 2)) :
    celem v k n = 0 := by
  rw [Ladder.mem_upto] at h
  have hk : k ≠ n := fun e => h (by rw [e]; omega)
  by_contra hc
  refine h (hamiltonian_band v k n ?_)
  rw [hamiltonian_eq, if_neg hk, zero_add]
  exact hc

theorem cf_expand (v : Vib A N) (hv : Symmetric v) (n : (Fin N → ℕ) × Fin A) :
    (cf_memLp v n).toLp (cf v n) = ∑ m ∈ (ladder v hv).upto ((ladder v hv).level n + 2), celem v m n • states N A m := by
  classical
  refine vec_ext _ _ fun k => ?_
  rw [cf_inner, inner_sum]
  simp only [inner_smul_right, orthonormal_iff_ite.mp (states N A).orthonormal, mul_ite, mul_one, mul_zero]
  rw [sum_ite_eq]
  split_ifs with h
  · rfl
  · exact celem_zero v hv n k h

theorem gen_expand (v : Vib A N) (hv : Symmetric v) (n : (Fin N → ℕ) × Fin A) :
    ∑ m ∈ (ladder v hv).upto ((ladder v hv).level n + 2), (ladder v hv).h m n • states N A m
      = quanta v.omega n.1 • states N A n + (cf_memLp v n).toLp (cf v n) := by
  classical
  have e : ∀ m, (ladder v hv).h m n • states N A m = (if m = n then quanta v.omega n.1 else 0) • states N A m + celem v m n • states N A m := by
    intro m
    rw [← add_smul, ← hamiltonian_eq]; rfl
  simp only [e]
  rw [sum_add_distrib, ← cf_expand, sum_eq_single n]
  · simp
  · intro m _ hm; simp [hm]
  · intro h
    exact absurd ((Ladder.mem_upto _ _ _).mpr (by omega)) h

/-! ### the steps -/

theorem model_below (v : Vib A N) (hw : ∀ i, 0 < v.omega i) (hs : Symmetric v) (hc : Confined v) :
    ∃ κ θ C, Below (coup v) v.omega κ θ C := by
  obtain ⟨δ, hδ, hδ1, hm⟩ := confined_uniform v hw hc
  obtain ⟨C, hC, h⟩ := terms_form_ge v hw δ hδ hm v.energy v.linear
  exact ⟨1 - 3 * δ / 4, 1 - δ / 4, C, hw, coup_continuous v, fun x => terms_symm _ _ _ hs.1 hs.2.1 hs.2.2 x, h, hC, by linarith, by linarith,
    by linarith⟩

theorem model_steps (v : Vib A N) (hs : Symmetric v) {κ θ C : ℝ} (H : Below (coup v) v.omega κ θ C) :
    ∃ T, Steps (states N A) (ladder v hs) (step H) (4 * C) T := by
  obtain ⟨Bd, hBd, hW⟩ := terms_norm_le v.energy v.linear v.quadratic
  obtain ⟨w0, hw0, h0⟩ := common_pos v.omega H.freq
  have hθ0 : 0 < θ := lt_of_le_of_lt H.κ_nonneg H.κθ
  have hr1 : 0 < 1 - κ / θ := sub_pos.mpr ((div_lt_one hθ0).mpr H.κθ)
  refine ⟨2 / ((1 - κ / θ) * w0), step_self H, by have := H.C_nonneg; positivity, by positivity, step_norm H, fun n => ?_, fun M hM => ?_⟩
  · obtain ⟨K, h⟩ := step_cons H Bd hBd hW n _ _ ((cf_memLp v n).toLp (cf v n)) (cf_memLp v n).coeFn_toLp (cf_expand v hs n)
    refine ⟨K, ?_⟩
    rw [gen_expand]
    exact h
  · refine step_tight H w0 h0 hw0 M hM _ fun m hm => ?_
    rw [Ladder.mem_upto] at hm
    exact (not_le.mp hm).le

end

end Pibronic.Ritz
