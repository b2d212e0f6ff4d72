import Verif.Lemmas.Kernel

set_option autoImplicit false
set_option linter.unusedSectionVars false

/-! Traces and powers of kernels with a product bound. -/
namespace Pibronic.Ritz
open Filter Topology MeasureTheory

section
variable {α : Type*} [MeasurableSpace α] {μ : Measure α} [SFinite μ] {φ : α → ℝ}

local notation "⟪" x ", " y "⟫" => inner ℝ x y

/-- The trace of a kernel. -/
noncomputable def tr (μ : Measure α) (k : α → α → ℝ) : ℝ := ∫ x, k x x ∂μ

theorem Ker.pair_integrable (hφ : Weight μ φ) {k l : α → α → ℝ} (hk : Ker φ k) (hl : Ker φ l) :
    Integrable (fun z : α × α => k z.1 z.2 * l z.2 z.1) (μ.prod μ) := by
  obtain ⟨C, hC, h⟩ := hk.bound
  obtain ⟨D, hD, h'⟩ := hl.bound
  refine ((hφ.sq.mul_prod hφ.sq).const_mul (C * D)).mono' ?_ (ae_of_all _ fun z => ?_)
  · exact (hk.meas.mul (hl.meas.comp measurable_swap)).aestronglyMeasurable
  · rw [Real.norm_eq_abs, abs_mul]
    refine (mul_le_mul (h z.1 z.2) (h' z.2 z.1) (abs_nonneg _) ?_).trans (le_of_eq (by ring))
    exact mul_nonneg hC (mul_nonneg (hφ.pos _) (hφ.pos _))

theorem tr_comm (hφ : Weight μ φ) {k l : α → α → ℝ} (hk : Ker φ k) (hl : Ker φ l) : tr μ (comp μ k l) = tr μ (comp μ l k) := by
  unfold tr comp
  rw [integral_integral_swap (hk.pair_integrable hφ hl)]
  congr 1; funext x; congr 1; funext y; ring

theorem comp_assoc (hφ : Weight μ φ) {k l m : α → α → ℝ} (hk : Ker φ k) (hl : Ker φ l) (hm : Ker φ m) :
    comp μ (comp μ k l) m = comp μ k (comp μ l m) := by
  funext x z
  unfold comp
  have e1 : ∀ y, (∫ u, k x u * l u y ∂μ) * m y z = ∫ u, k x u * l u y * m y z ∂μ := fun y => (integral_mul_const _ _).symm
  have e2 : ∀ u, k x u * ∫ y, l u y * m y z ∂μ = ∫ y, k x u * (l u y * m y z) ∂μ := fun u => (integral_const_mul _ _).symm
  simp only [e1, e2]
  have hi : Integrable (fun w : α × α => k x w.2 * l w.2 w.1 * m w.1 z) (μ.prod μ) := by
    obtain ⟨C, hC, h⟩ := hk.bound
    obtain ⟨D, hD, h'⟩ := hl.bound
    obtain ⟨F, hF, h''⟩ := hm.bound
    refine ((hφ.sq.mul_prod hφ.sq).const_mul (C * D * F * (φ x * φ z))).mono' ?_ (ae_of_all _ fun w => ?_)
    · exact ((((hk.meas_right x).comp measurable_snd).mul (hl.meas.comp measurable_swap)).mul
        ((hm.meas_left z).comp measurable_fst)).aestronglyMeasurable
    · rw [Real.norm_eq_abs, abs_mul, abs_mul]
      have p1 := hφ.pos x
      have p2 := hφ.pos z
      have p3 := hφ.pos w.1
      have p4 := hφ.pos w.2
      refine (mul_le_mul (mul_le_mul (h x w.2) (h' w.2 w.1) (abs_nonneg _) (by positivity)) (h'' w.1 z) (abs_nonneg _) (by positivity)).trans
        (le_of_eq (by ring))
  rw [integral_integral_swap hi]
  congr 1; funext u; congr 1; funext y; ring

/-- The power `n + 1` of a kernel. -/
noncomputable def kpow (μ : Measure α) (k : α → α → ℝ) : ℕ → α → α → ℝ
  | 0 => k
  | n + 1 => comp μ k (kpow μ k n)

theorem Ker.kpow (hφ : Weight μ φ) {k : α → α → ℝ} (hk : Ker φ k) : ∀ n, Ker φ (kpow μ k n)
  | 0 => hk
  | n + 1 => hk.comp hφ (hk.kpow hφ n)

theorem kpow_add (hφ : Weight μ φ) {k : α → α → ℝ} (hk : Ker φ k) (m n : ℕ) : comp μ (kpow μ k m) (kpow μ k n) = kpow μ k (m + n + 1) := by
  induction m with
  | zero => rw [zero_add]; rfl
  | succ m ih =>
    have e : m + 1 + n + 1 = (m + n + 1) + 1 := by ring
    rw [e]
    show comp μ (comp μ k (kpow μ k m)) _ = comp μ k (kpow μ k (m + n + 1))
    rw [comp_assoc hφ hk (hk.kpow hφ m) (hk.kpow hφ n), ih]

theorem op_kpow (hφ : Weight μ φ) {k : α → α → ℝ} (hk : Ker φ k) (n : ℕ) : op hφ (hk.kpow hφ n) = op hφ hk ^ (n + 1) := by
  induction n with
  | zero => rw [zero_add, pow_one]; rfl
  | succ n ih =>
    rw [pow_succ' (op hφ hk), ← ih]
    ext1 g
    rw [mul_apply_eq_comp, op_comp hφ hk (hk.kpow hφ n)]
    rfl

theorem comp_swap (k l : α → α → ℝ) (x z : α) : comp μ k l z x = comp μ (fun x y => l y x) (fun x y => k y x) x z := by
  unfold comp
  congr 1; funext y; ring

theorem kpow_symm (hφ : Weight μ φ) {k : α → α → ℝ} (hk : Ker φ k) (hs : ∀ x y, k x y = k y x) (n : ℕ) (x y : α) :
    kpow μ k n x y = kpow μ k n y x := by
  induction n generalizing x y with
  | zero => exact hs x y
  | succ n ih =>
    have e : kpow μ k (n + 1) = comp μ (kpow μ k n) k := by
      have := kpow_add hφ hk n 0
      exact this.symm
    conv_rhs => rw [e, comp_swap]
    show comp μ k (kpow μ k n) x y = _
    have e1 : (fun x y => k y x) = k := by funext x y; exact hs y x
    have e2 : (fun x y => kpow μ k n y x) = kpow μ k n := by funext x y; exact ih y x
    rw [e1, e2]

theorem square_eq (hφ : Weight μ φ) {k : α → α → ℝ} (hk : Ker φ k) (hs : ∀ x y, k x y = k y x) (n : ℕ) :
    ∫ x, ∫ y, kpow μ k n x y ^ 2 ∂μ ∂μ = tr μ (kpow μ k (2 * n + 1)) := by
  have e : 2 * n + 1 = n + n + 1 := by ring
  rw [e, ← kpow_add hφ hk]
  unfold tr comp
  congr 1; funext x; congr 1; funext y
  rw [pow_two, kpow_symm hφ hk hs n y x]

theorem kpow_cycle (hφ : Weight μ φ) {a b : α → α → ℝ} (ha : Ker φ a) (hb : Ker φ b) (n : ℕ) :
    kpow μ (comp μ a b) (n + 1) = comp μ a (comp μ (kpow μ (comp μ b a) n) b) := by
  have hba := hb.comp hφ ha
  have hab := ha.comp hφ hb
  induction n with
  | zero =>
    show comp μ (comp μ a b) (comp μ a b) = comp μ a (comp μ (comp μ b a) b)
    rw [comp_assoc hφ ha hb hab, comp_assoc hφ hb ha hb]
  | succ n ih =>
    show comp μ (comp μ a b) (kpow μ (comp μ a b) (n + 1)) = comp μ a (comp μ (comp μ (comp μ b a) (kpow μ (comp μ b a) n)) b)
    rw [ih, comp_assoc hφ ha hb (ha.comp hφ ((hba.kpow hφ n).comp hφ hb)), comp_assoc hφ hba (hba.kpow hφ n) hb,
      comp_assoc hφ hb ha ((hba.kpow hφ n).comp hφ hb)]

theorem tr_cycle (hφ : Weight μ φ) {a b : α → α → ℝ} (ha : Ker φ a) (hb : Ker φ b) (n : ℕ) :
    tr μ (kpow μ (comp μ a b) n) = tr μ (kpow μ (comp μ b a) n) := by
  have hba := hb.comp hφ ha
  cases n with
  | zero => exact tr_comm hφ ha hb
  | succ n =>
    rw [kpow_cycle hφ ha hb, tr_comm hφ ha ((hba.kpow hφ n).comp hφ hb), comp_assoc hφ (hba.kpow hφ n) hb ha]
    have := kpow_add hφ hba n 0
    show tr μ (comp μ (kpow μ (comp μ b a) n) (kpow μ (comp μ b a) 0)) = _
    rw [this]

/-- The squares of the images of a basis under the powers of `a ∘ aᵀ`. -/
theorem pow_sum {ι : Type*} [Countable ι] (e : HilbertBasis ι ℝ (Lp ℝ 2 μ)) (hφ : Weight μ φ) {a : α → α → ℝ} (ha : Ker φ a) (n : ℕ) :
    HasSum (fun m => ‖((op hφ ha.swap).comp (op hφ ha) ^ (n + 1)) (e m)‖ ^ 2)
      (tr μ (kpow μ (comp μ a fun x y => a y x) (2 * n + 1))) := by
  have hk := ha.swap.comp hφ ha
  have e1 : (op hφ ha.swap).comp (op hφ ha) = op hφ hk := by
    ext1 g
    rw [ContinuousLinearMap.comp_apply, op_comp hφ ha.swap ha]
  rw [e1, ← op_kpow, ← tr_cycle hφ ha.swap ha, ← square_eq hφ hk fun x y => ?_]
  · exact op_sum e hφ (hk.kpow hφ n)
  · rw [comp_swap]

end

end Pibronic.Ritz
