import Verif.Lemmas.KernelTrace
import Verif.Lemmas.Levels
import Verif.Lemmas.Refined

set_option autoImplicit false
set_option linter.unusedSectionVars false

/-! The trace of the powers of the split propagation as an integral over closed paths. -/
namespace Pibronic.Ritz
open Finset Filter Topology MeasureTheory Pibronic.PIMC
open scoped Matrix.Norms.L2Operator

section
variable {N A : ℕ}

local notation "⟪" x ", " y "⟫" => inner ℝ x y

variable {W : (Fin N → ℝ) → Matrix (Fin A) (Fin A) ℝ} {w : Fin N → ℝ} {κ θ C : ℝ}

/-- Half of the couplings. -/
noncomputable def he (W : (Fin N → ℝ) → Matrix (Fin A) (Fin A) ℝ) (t : ℝ) (x : Fin N → ℝ) : Matrix (Fin A) (Fin A) ℝ := NormedSpace.exp (-(t • W x))

/-- One step of the path, with half of the couplings on each side. -/
noncomputable def mk (W : (Fin N → ℝ) → Matrix (Fin A) (Fin A) ℝ) (w : Fin N → ℝ) (t : ℝ) (x y : Fin N → ℝ) : Matrix (Fin A) (Fin A) ℝ :=
  freeK (t + t) w x y • (he W t x * he W t y)

/-- The kernel of one step. -/
noncomputable def sk (W : (Fin N → ℝ) → Matrix (Fin A) (Fin A) ℝ) (w : Fin N → ℝ) (t : ℝ) (p q : Pt N A) : ℝ := mk W w t p.1 q.1 p.2 q.2

theorem sk_eq (H : Below W w κ θ C) {t : ℝ} (hw : ∀ i, 0 < t * w i) {φ : Pt N A → ℝ} (hφ : Weight (vol N A) φ) (hA : Ker φ (ak W w t)) :
    comp (vol N A) (ak W w t) (fun p q => ak W w t q p) = sk W w t := by
  funext p q
  obtain ⟨x, a⟩ := p
  obtain ⟨y, b⟩ := q
  unfold comp
  rw [integral_pt (hA.mul_integrable hφ hA.swap (x, a) (y, b))]
  unfold sk mk he
  simp only [Matrix.smul_apply, smul_eq_mul, Matrix.mul_apply, mul_sum]
  refine sum_congr rfl fun c _ => ?_
  have e : (fun z => ak W w t (x, a) (z, c) * ak W w t (y, b) (z, c)) = fun z =>
      NormedSpace.exp (-(t • W x)) a c * NormedSpace.exp (-(t • W y)) c b * (freeK t w x z * freeK t w z y) := by
    funext z
    unfold ak
    simp only
    rw [freeK_comm t w y z, (exp_symm H t y).apply c b]
    ring
  rw [e, integral_const_mul, (freeK_comp t t w x y hw hw).2]
  ring

/-! ### paths -/

/-- The product of the steps along a path. -/
noncomputable def pathM (M : (Fin N → ℝ) → (Fin N → ℝ) → Matrix (Fin A) (Fin A) ℝ) :
    (n : ℕ) → (Fin N → ℝ) → (Fin n → Fin N → ℝ) → (Fin N → ℝ) → Matrix (Fin A) (Fin A) ℝ
  | 0, x, _, y => M x y
  | n + 1, x, z, y => M x (z 0) * pathM M n (z 0) (Fin.tail z) y

theorem pathM_continuous (M : (Fin N → ℝ) → (Fin N → ℝ) → Matrix (Fin A) (Fin A) ℝ) (hM : Continuous fun u : (Fin N → ℝ) × (Fin N → ℝ) => M u.1 u.2)
    (n : ℕ) : Continuous fun u : (Fin N → ℝ) × (Fin n → Fin N → ℝ) × (Fin N → ℝ) => pathM M n u.1 u.2.1 u.2.2 := by
  induction n with
  | zero =>
    unfold pathM
    exact hM.comp (continuous_fst.prodMk continuous_snd.snd)
  | succ n ih =>
    unfold pathM
    refine Continuous.mul ?_ ?_
    · exact hM.comp (continuous_fst.prodMk ((continuous_apply 0).comp continuous_snd.fst))
    · refine ih.comp (Continuous.prodMk ((continuous_apply 0).comp continuous_snd.fst) (Continuous.prodMk ?_ continuous_snd.snd))
      fun_prop

theorem pathM_bound (M : (Fin N → ℝ) → (Fin N → ℝ) → Matrix (Fin A) (Fin A) ℝ) (g : (Fin N → ℝ) → ℝ) (hg : ∀ x, 0 ≤ g x) (K : ℝ) (hK : 0 ≤ K)
    (hM : ∀ x y a b, |M x y a b| ≤ K * (g x * g y)) (n : ℕ) :
    ∃ L, 0 ≤ L ∧ ∀ x z y a b, |pathM M n x z y a b| ≤ L * (g x * (∏ i, g (z i) ^ 2) * g y) := by
  induction n with
  | zero =>
    refine ⟨K, hK, fun x z y a b => ?_⟩
    unfold pathM
    simpa using hM x y a b
  | succ n ih =>
    obtain ⟨L, hL, h⟩ := ih
    refine ⟨A * (K * L), by positivity, fun x z y a b => ?_⟩
    unfold pathM
    rw [Matrix.mul_apply]
    refine (abs_sum_le_sum_abs _ _).trans ?_
    have h1 : ∀ c ∈ (univ : Finset (Fin A)), |M x (z 0) a c * pathM M n (z 0) (Fin.tail z) y c b|
        ≤ K * L * (g x * (∏ i, g (z i) ^ 2) * g y) := by
      intro c _
      rw [abs_mul]
      have p1 := hg x
      have p2 := hg (z 0)
      refine (mul_le_mul (hM x (z 0) a c) (h (z 0) (Fin.tail z) y c b) (abs_nonneg _) (by positivity)).trans (le_of_eq ?_)
      rw [Fin.prod_univ_succ]
      simp only [Fin.tail]
      ring
    refine (sum_le_sum h1).trans (le_of_eq ?_)
    rw [sum_const, card_univ, Fintype.card_fin, nsmul_eq_mul]
    ring

/-- The integral over a path is the integral over its first point and the rest. -/
theorem integral_path {n : ℕ} (f : (Fin (n + 1) → Fin N → ℝ) → ℝ) (F : (Fin N → ℝ) × (Fin n → Fin N → ℝ) → ℝ)
    (hF : ∀ z, f z = F (z 0, Fin.tail z)) (hi : Integrable F) : Integrable f ∧ ∫ z, f z = ∫ x, ∫ z, F (x, z) := by
  have hmp := volume_preserving_piFinSuccAbove (fun _ : Fin (n + 1) => Fin N → ℝ) 0
  have e : f = F ∘ (MeasurableEquiv.piFinSuccAbove (fun _ : Fin (n + 1) => Fin N → ℝ) 0) := by
    funext z
    rw [hF]
    rfl
  rw [e]
  refine ⟨(hmp.integrable_comp_emb (MeasurableEquiv.measurableEmbedding _)).mpr hi, ?_⟩
  rw [← integral_prod _ hi]
  exact hmp.integral_comp' F

theorem prod_integrable (g : (Fin N → ℝ) → ℝ) (hg : Integrable fun x => g x ^ 2) (n : ℕ) :
    Integrable fun z : Fin n → Fin N → ℝ => ∏ i, g (z i) ^ 2 :=
  Integrable.fintype_prod (f := fun _ x => g x ^ 2) fun _ => hg

theorem pathM_integrable (M : (Fin N → ℝ) → (Fin N → ℝ) → Matrix (Fin A) (Fin A) ℝ) (hc : Continuous fun u : (Fin N → ℝ) × (Fin N → ℝ) => M u.1 u.2)
    (g : (Fin N → ℝ) → ℝ) (hg : ∀ x, 0 ≤ g x) (hg2 : Integrable fun x => g x ^ 2) (K : ℝ) (hK : 0 ≤ K)
    (hM : ∀ x y a b, |M x y a b| ≤ K * (g x * g y)) (n : ℕ) (x y : Fin N → ℝ) (a b : Fin A) : Integrable fun z => pathM M n x z y a b := by
  obtain ⟨L, hL, h⟩ := pathM_bound M g hg K hK hM n
  have hcont : Continuous fun z => pathM M n x z y a b :=
    (continuous_apply b).comp ((continuous_apply a).comp ((pathM_continuous M hc n).comp
      (Continuous.prodMk continuous_const (Continuous.prodMk continuous_id continuous_const))))
  refine ((prod_integrable g hg2 n).const_mul (L * (g x * g y))).mono' hcont.aestronglyMeasurable (ae_of_all _ fun z => ?_)
  rw [Real.norm_eq_abs]
  exact (h x z y a b).trans (le_of_eq (by ring))

theorem pathM_prod_integrable (M : (Fin N → ℝ) → (Fin N → ℝ) → Matrix (Fin A) (Fin A) ℝ) (hc : Continuous fun u : (Fin N → ℝ) × (Fin N → ℝ) => M u.1 u.2)
    (g : (Fin N → ℝ) → ℝ) (hg : ∀ x, 0 ≤ g x) (hg2 : Integrable fun x => g x ^ 2) (K : ℝ) (hK : 0 ≤ K)
    (hM : ∀ x y a b, |M x y a b| ≤ K * (g x * g y)) (n : ℕ) (x y : Fin N → ℝ) (a b c : Fin A) :
    Integrable fun u : (Fin N → ℝ) × (Fin n → Fin N → ℝ) => M x u.1 a c * pathM M n u.1 u.2 y c b := by
  obtain ⟨L, hL, h⟩ := pathM_bound M g hg K hK hM n
  have h1 : Continuous fun u : (Fin N → ℝ) × (Fin n → Fin N → ℝ) => pathM M n u.1 u.2 y c b :=
    (continuous_apply b).comp ((continuous_apply c).comp ((pathM_continuous M hc n).comp
      (Continuous.prodMk continuous_fst (Continuous.prodMk continuous_snd continuous_const))))
  have h2 : Continuous fun u : (Fin N → ℝ) × (Fin n → Fin N → ℝ) => M x u.1 a c :=
    (continuous_apply c).comp ((continuous_apply a).comp (hc.comp (Continuous.prodMk continuous_const continuous_fst)))
  refine ((hg2.mul_prod (prod_integrable g hg2 n)).const_mul (K * L * (g x * g y))).mono' (h2.mul h1).aestronglyMeasurable (ae_of_all _ fun u => ?_)
  rw [Real.norm_eq_abs, abs_mul]
  have p1 := hg x
  have p2 := hg u.1
  exact (mul_le_mul (hM x u.1 a c) (h u.1 u.2 y c b) (abs_nonneg _) (by positivity)).trans (le_of_eq (by ring))

/-- The powers of a kernel as integrals over paths. -/
theorem kpow_path (M : (Fin N → ℝ) → (Fin N → ℝ) → Matrix (Fin A) (Fin A) ℝ) (hc : Continuous fun u : (Fin N → ℝ) × (Fin N → ℝ) => M u.1 u.2)
    (g : (Fin N → ℝ) → ℝ) (hg : ∀ x, 0 ≤ g x) (hg2 : Integrable fun x => g x ^ 2) (K : ℝ) (hK : 0 ≤ K)
    (hM : ∀ x y a b, |M x y a b| ≤ K * (g x * g y)) {φ : Pt N A → ℝ} (hφ : Weight (vol N A) φ)
    (hk : Ker φ fun p q : Pt N A => M p.1 q.1 p.2 q.2) (n : ℕ) (x y : Fin N → ℝ) (a b : Fin A) :
    kpow (vol N A) (fun p q => M p.1 q.1 p.2 q.2) n (x, a) (y, b) = ∫ z, pathM M n x z y a b := by
  induction n generalizing x a with
  | zero =>
    rw [volume_pi, Measure.pi_of_empty (x := fun i => i.elim0), integral_dirac]
    rfl
  | succ n ih =>
    show comp (vol N A) _ (kpow (vol N A) _ n) (x, a) (y, b) = _
    unfold comp
    rw [integral_pt (hk.mul_integrable hφ (hk.kpow hφ n) (x, a) (y, b))]
    have hterm := fun c => pathM_prod_integrable M hc g hg hg2 K hK hM n x y a b c
    have e := (integral_path (fun z => pathM M (n + 1) x z y a b) (fun u => ∑ c, M x u.1 a c * pathM M n u.1 u.2 y c b) (fun z => by
      show (M x (z 0) * pathM M n (z 0) (Fin.tail z) y) a b = _
      rw [Matrix.mul_apply]) (integrable_finsetSum _ fun c _ => hterm c)).2
    rw [e]
    have e2 : ∀ u, ∫ z, ∑ c, M x u a c * pathM M n u z y c b = ∑ c, M x u a c * ∫ z, pathM M n u z y c b := by
      intro u
      rw [integral_finsetSum _ fun c _ => (pathM_integrable M hc g hg hg2 K hK hM n u y c b).const_mul _]
      exact sum_congr rfl fun c _ => integral_const_mul _ _
    simp only [e2]
    rw [integral_finsetSum]
    · refine sum_congr rfl fun c _ => ?_
      congr 1; funext u
      rw [ih u c]
    · intro c _
      have := (hterm c).integral_prod_left
      refine this.congr (ae_of_all _ fun u => ?_)
      simp only
      rw [integral_const_mul]

/-- The trace of the powers of a kernel as an integral over closed paths. -/
theorem tr_path (M : (Fin N → ℝ) → (Fin N → ℝ) → Matrix (Fin A) (Fin A) ℝ) (hc : Continuous fun u : (Fin N → ℝ) × (Fin N → ℝ) => M u.1 u.2)
    (g : (Fin N → ℝ) → ℝ) (hg : ∀ x, 0 ≤ g x) (hg2 : Integrable fun x => g x ^ 2) (K : ℝ) (hK : 0 ≤ K)
    (hM : ∀ x y a b, |M x y a b| ≤ K * (g x * g y)) {φ : Pt N A → ℝ} (hφ : Weight (vol N A) φ)
    (hk : Ker φ fun p q : Pt N A => M p.1 q.1 p.2 q.2) (n : ℕ) :
    tr (vol N A) (kpow (vol N A) (fun p q => M p.1 q.1 p.2 q.2) n)
      = ∫ z : Fin (n + 1) → Fin N → ℝ, (pathM M n (z 0) (Fin.tail z) (z 0)).trace := by
  obtain ⟨L, hL, h⟩ := pathM_bound M g hg K hK hM n
  have hterm : ∀ c, Integrable fun u : (Fin N → ℝ) × (Fin n → Fin N → ℝ) => pathM M n u.1 u.2 u.1 c c := by
    intro c
    have h1 : Continuous fun u : (Fin N → ℝ) × (Fin n → Fin N → ℝ) => pathM M n u.1 u.2 u.1 c c :=
      (continuous_apply c).comp ((continuous_apply c).comp ((pathM_continuous M hc n).comp
        (Continuous.prodMk continuous_fst (Continuous.prodMk continuous_snd continuous_fst))))
    refine ((hg2.mul_prod (prod_integrable g hg2 n)).const_mul L).mono' h1.aestronglyMeasurable (ae_of_all _ fun u => ?_)
    rw [Real.norm_eq_abs]
    exact (h u.1 u.2 u.1 c c).trans (le_of_eq (by ring))
  have e := (integral_path (fun z : Fin (n + 1) → Fin N → ℝ => (pathM M n (z 0) (Fin.tail z) (z 0)).trace)
    (fun u => ∑ c, pathM M n u.1 u.2 u.1 c c) (fun z => rfl) (integrable_finsetSum _ fun c _ => hterm c)).2
  rw [e]
  unfold tr
  have hdiag : Integrable (fun p => kpow (vol N A) (fun p q : Pt N A => M p.1 q.1 p.2 q.2) n p p) (vol N A) := by
    obtain ⟨D, hD, hb⟩ := (hk.kpow hφ n).bound
    refine (hφ.sq.const_mul D).mono' ?_ (ae_of_all _ fun p => ?_)
    · exact ((hk.kpow hφ n).meas.comp (measurable_id.prodMk measurable_id)).aestronglyMeasurable
    · rw [Real.norm_eq_abs]
      exact (hb p p).trans (le_of_eq (by ring))
  rw [integral_pt hdiag]
  have e2 : ∀ u, ∫ z, ∑ c, pathM M n u z u c c = ∑ c, ∫ z, pathM M n u z u c c := fun u =>
    integral_finsetSum _ fun c _ => pathM_integrable M hc g hg hg2 K hK hM n u u c c
  simp only [e2]
  rw [integral_finsetSum _ fun c _ => (hterm c).integral_prod_left]
  refine sum_congr rfl fun c _ => ?_
  congr 1; funext u
  exact kpow_path M hc g hg hg2 K hK hM hφ hk n u u c c

/-! ### the integrand -/

theorem pathM_smul (M : (Fin N → ℝ) → (Fin N → ℝ) → Matrix (Fin A) (Fin A) ℝ) (c : ℝ) (n : ℕ) (x : Fin N → ℝ) (z : Fin n → Fin N → ℝ) (y : Fin N → ℝ) :
    pathM (fun x y => c • M x y) n x z y = c ^ (n + 1) • pathM M n x z y := by
  induction n generalizing x with
  | zero => simp [pathM]
  | succ n ih =>
    show c • M x (z 0) * pathM _ n (z 0) (Fin.tail z) y = c ^ (n + 1 + 1) • (M x (z 0) * pathM M n (z 0) (Fin.tail z) y)
    rw [ih, smul_mul_smul_comm, pow_succ' c (n + 1)]

/-- One step of the path, with the couplings at its beginning. -/
noncomputable def mk' (W : (Fin N → ℝ) → Matrix (Fin A) (Fin A) ℝ) (w : Fin N → ℝ) (τ : ℝ) (x y : Fin N → ℝ) : Matrix (Fin A) (Fin A) ℝ :=
  freeK τ w x y • NormedSpace.exp (-(τ • W x))

theorem he_sq (W : (Fin N → ℝ) → Matrix (Fin A) (Fin A) ℝ) (t : ℝ) (x : Fin N → ℝ) : he W t x * he W t x = NormedSpace.exp (-((t + t) • W x)) := by
  unfold he
  rw [← Matrix.exp_add_of_commute _ _ (Commute.refl _), ← neg_add, ← add_smul]

theorem path_shift (W : (Fin N → ℝ) → Matrix (Fin A) (Fin A) ℝ) (w : Fin N → ℝ) (t : ℝ) (n : ℕ) (x : Fin N → ℝ) (z : Fin n → Fin N → ℝ)
    (y : Fin N → ℝ) : he W t x * pathM (mk W w t) n x z y = pathM (mk' W w (t + t)) n x z y * he W t y := by
  induction n generalizing x with
  | zero =>
    unfold pathM mk mk'
    rw [← he_sq, mul_smul_comm, smul_mul_assoc, mul_assoc]
  | succ n ih =>
    show he W t x * (mk W w t x (z 0) * pathM (mk W w t) n (z 0) (Fin.tail z) y)
      = mk' W w (t + t) x (z 0) * pathM (mk' W w (t + t)) n (z 0) (Fin.tail z) y * he W t y
    rw [mul_assoc (mk' W w (t + t) x (z 0)), ← ih (z 0)]
    unfold mk mk'
    rw [← he_sq, smul_mul_assoc, mul_smul_comm, smul_mul_assoc]
    simp only [mul_assoc]

theorem path_trace (W : (Fin N → ℝ) → Matrix (Fin A) (Fin A) ℝ) (w : Fin N → ℝ) (t : ℝ) (n : ℕ) (x : Fin N → ℝ) (z : Fin n → Fin N → ℝ) :
    (pathM (mk W w t) n x z x).trace = (pathM (mk' W w (t + t)) n x z x).trace := by
  have hinv : NormedSpace.exp (t • W x) * he W t x = 1 := by
    unfold he
    rw [← Matrix.exp_add_of_commute _ _ (Commute.refl (t • W x)).neg_right, add_neg_cancel, NormedSpace.exp_zero]
  have hinv' : he W t x * NormedSpace.exp (t • W x) = 1 := by
    unfold he
    rw [← Matrix.exp_add_of_commute _ _ (Commute.refl (t • W x)).neg_left, neg_add_cancel, NormedSpace.exp_zero]
  calc (pathM (mk W w t) n x z x).trace = (NormedSpace.exp (t • W x) * (he W t x * pathM (mk W w t) n x z x)).trace := by
        rw [← mul_assoc, hinv, one_mul]
    _ = (pathM (mk' W w (t + t)) n x z x).trace := by
        rw [path_shift, Matrix.trace_mul_comm, mul_assoc, hinv', mul_one]

theorem pathM_list (M : (Fin N → ℝ) → (Fin N → ℝ) → Matrix (Fin A) (Fin A) ℝ) (n : ℕ) (x : Fin N → ℝ) (z : Fin n → Fin N → ℝ) (y : Fin N → ℝ) :
    pathM M n x z y = (List.ofFn fun p : Fin (n + 1) => M (Fin.cons (α := fun _ => Fin N → ℝ) x z p) (Fin.snoc (α := fun _ => Fin N → ℝ) z y p)).prod := by
  induction n generalizing x with
  | zero =>
    simp [pathM, Fin.snoc]
  | succ n ih =>
    rw [List.ofFn_succ, List.prod_cons]
    show M x (z 0) * pathM M n (z 0) (Fin.tail z) y = _
    have e0 : Fin.snoc (α := fun _ => Fin N → ℝ) z y 0 = z 0 := by
      have : (0 : Fin (n + 1 + 1)) = Fin.castSucc 0 := rfl
      rw [this, Fin.snoc_castSucc]
    have e1 : ∀ p : Fin (n + 1), Fin.snoc (α := fun _ => Fin N → ℝ) z y p.succ = Fin.snoc (α := fun _ => Fin N → ℝ) (Fin.tail z) y p := by
      intro p
      have h := Fin.cons_snoc_eq_snoc_cons (β := Fin N → ℝ) (z 0) (Fin.tail z) y
      rw [Fin.cons_self_tail] at h
      rw [← h, Fin.cons_succ]
    have e2 : ∀ p : Fin (n + 1), z p = Fin.cons (α := fun _ => Fin N → ℝ) (z 0) (Fin.tail z) p := fun p => by
      rw [Fin.cons_self_tail]
    rw [ih, e0, Fin.cons_zero]
    simp only [e1, Fin.cons_succ]
    refine congrArg (fun l => M x (z 0) * List.prod l) (congrArg List.ofFn (funext fun p => ?_))
    rw [← e2 p]

theorem pathM_closed (M : (Fin N → ℝ) → (Fin N → ℝ) → Matrix (Fin A) (Fin A) ℝ) (n : ℕ) (z : Fin (n + 1) → Fin N → ℝ) :
    pathM M n (z 0) (Fin.tail z) (z 0) = (List.ofFn fun p : Fin (n + 1) => M (z p) (z (p + 1))).prod := by
  rw [pathM_list]
  congr 2
  funext p
  congr 1
  · rw [Fin.cons_self_tail]
  · refine Fin.lastCases ?_ (fun q => ?_) p
    · rw [Fin.snoc_last]; simp
    · rw [Fin.snoc_castSucc, Fin.coeSucc_eq_succ]; rfl

/-! ### beads first or modes first -/

theorem swap_preserving (P : ℕ) : MeasurePreserving (fun (R : BeadPath N P) (p : Fin P) (i : Fin N) => R i p) := by
  induction P with
  | zero =>
    have : (fun (R : BeadPath N 0) (p : Fin 0) (i : Fin N) => R i p) = fun _ => fun p => p.elim0 := by
      funext R p; exact p.elim0
    rw [this]
    refine ⟨measurable_const, ?_⟩
    rw [Measure.map_const]
    have e1 : (volume : Measure (BeadPath N 0)) Set.univ = 1 := by
      rw [volume_pi, ← Set.pi_univ Set.univ, Measure.pi_pi]
      refine prod_eq_one fun i _ => ?_
      rw [volume_pi, Measure.pi_of_empty (x := fun i => i.elim0)]
      simp
    rw [e1, one_smul, volume_pi, Measure.pi_of_empty (x := fun i => i.elim0)]
  | succ P ih =>
    have h1 := volume_preserving_pi fun _ : Fin N => volume_preserving_piFinSuccAbove (fun _ : Fin (P + 1) => ℝ) 0
    have h2 := volume_measurePreserving_arrowProdEquivProdArrow ℝ (Fin P → ℝ) (Fin N)
    have h3 := (MeasurePreserving.id (volume : Measure (Fin N → ℝ))).prod ih
    have h4 := (volume_preserving_piFinSuccAbove (fun _ : Fin (P + 1) => Fin N → ℝ) 0).symm
    have h := h4.comp (h3.comp (h2.comp h1))
    have e : (fun (R : BeadPath N (P + 1)) (p : Fin (P + 1)) (i : Fin N) => R i p)
        = (MeasurableEquiv.piFinSuccAbove (fun _ : Fin (P + 1) => Fin N → ℝ) 0).symm ∘ (Prod.map id (fun (R : BeadPath N P) (p : Fin P) (i : Fin N) => R i p))
          ∘ (MeasurableEquiv.arrowProdEquivProdArrow ℝ (Fin P → ℝ) (Fin N))
          ∘ (fun (a : Fin N → Fin (P + 1) → ℝ) (i : Fin N) => MeasurableEquiv.piFinSuccAbove (fun _ : Fin (P + 1) => ℝ) 0 (a i)) := by
      funext R
      refine ((MeasurableEquiv.piFinSuccAbove (fun _ : Fin (P + 1) => Fin N → ℝ) 0).symm_apply_eq.mpr ?_).symm
      rfl
    rw [e]
    exact h

theorem swap_integral (P : ℕ) (f : (Fin P → Fin N → ℝ) → ℝ) (hf : Continuous f) : ∫ z, f z = ∫ R : BeadPath N P, f fun p i => R i p := by
  have h := swap_preserving (N := N) P
  rw [← h.map_eq, integral_map h.measurable.aemeasurable hf.aestronglyMeasurable]

/-! ### the traces of the steps -/

theorem gPlain_path (v : Vib A N) (τ : ℝ) (n : ℕ) (R : BeadPath N (n + 1)) :
    gPlain τ v R = (Real.sqrt (2 * Real.pi) ^ N) ^ (n + 1)
      * (pathM (mk' (coup v) v.omega τ) n (fun i => R i 0) (Fin.tail fun p i => R i p) (fun i => R i 0)).trace := by
  have hq : Real.sqrt (2 * Real.pi) ≠ 0 := (Real.sqrt_pos.mpr (by positivity)).ne'
  have e := pathM_closed (fun x y => Real.sqrt (2 * Real.pi) ^ N • mk' (coup v) v.omega τ x y) n fun p i => R i p
  rw [pathM_smul] at e
  have e' := congrArg Matrix.trace e
  rw [Matrix.trace_smul, smul_eq_mul] at e'
  rw [e']
  unfold gPlain
  congr 3
  funext p
  unfold mk' free freeK
  rw [smul_smul, prod_div_distrib, prod_const, card_univ, Fintype.card_fin, mul_div_cancel₀ _ (pow_ne_zero N hq)]
  rw [neg_smul]
  rfl

theorem mk_continuous (H : Below W w κ θ C) (t : ℝ) : Continuous fun u : (Fin N → ℝ) × (Fin N → ℝ) => mk W w t u.1 u.2 := by
  have h : Continuous (he W t) := (continuous_matrix_exp A).comp (H.cont.const_smul t).neg
  unfold mk
  exact (freeK_continuous (t + t) w).smul ((h.comp continuous_fst).mul (h.comp continuous_snd))

theorem plain_integral (v : Vib A N) (hc : Continuous (coup v)) (τ : ℝ) (k : ℕ) :
    ∫ z : Fin (k + 1) → Fin N → ℝ, (pathM (mk' (coup v) v.omega τ) k (z 0) (Fin.tail z) (z 0)).trace
      = (∫ R : BeadPath N (k + 1), gPlain τ v R) / Real.sqrt (2 * Real.pi) ^ (N * (k + 1)) := by
  have hpi : Real.sqrt (2 * Real.pi) ^ (N * (k + 1)) ≠ 0 := pow_ne_zero _ (Real.sqrt_pos.mpr (by positivity)).ne'
  set F : (Fin (k + 1) → Fin N → ℝ) → ℝ := fun z => (pathM (mk' (coup v) v.omega τ) k (z 0) (Fin.tail z) (z 0)).trace with hF
  have hFc : Continuous F := by
    have hm : Continuous fun u : (Fin N → ℝ) × (Fin N → ℝ) => mk' (coup v) v.omega τ u.1 u.2 := by
      unfold mk'
      exact (freeK_continuous τ v.omega).smul (((continuous_matrix_exp A).comp (hc.const_smul τ).neg).comp continuous_fst)
    refine Continuous.matrix_trace ?_
    refine (pathM_continuous _ hm k).comp (Continuous.prodMk (continuous_apply 0) (Continuous.prodMk ?_ (continuous_apply 0)))
    fun_prop
  have e : (fun R : BeadPath N (k + 1) => gPlain τ v R) = fun R => Real.sqrt (2 * Real.pi) ^ (N * (k + 1)) * F fun p i => R i p := by
    funext R
    rw [gPlain_path, ← pow_mul]
  rw [e, integral_const_mul, mul_div_cancel_left₀ _ hpi]
  exact swap_integral (k + 1) F hFc

/-- The sum of the squares of the images of the basis is an integral over closed paths with an even number of beads. -/
theorem step_traces [NeZero A] (v : Vib A N) (H : Below (coup v) v.omega κ θ C) (τ : ℝ) (h : Short θ v.omega (τ / 2)) (n : ℕ) :
    HasSum (fun m => ‖(step H τ ^ (n + 1)) (states N A m)‖ ^ 2)
      ((∫ R : BeadPath N (2 * n + 1 + 1), gPlain τ v R) / Real.sqrt (2 * Real.pi) ^ (N * (2 * n + 1 + 1))) := by
  obtain ⟨φ, hφ, -, -, hA, e⟩ := step_eq H τ h
  have hw : ∀ i, 0 < τ / 2 * v.omega i := fun i => mul_pos h.1 (H.freq i)
  have hsum := pow_sum (states N A) hφ hA n
  rw [← e, sk_eq H hw hφ hA] at hsum
  have htr : tr (vol N A) (kpow (vol N A) (sk (coup v) v.omega (τ / 2)) (2 * n + 1))
      = (∫ R : BeadPath N (2 * n + 1 + 1), gPlain τ v R) / Real.sqrt (2 * Real.pi) ^ (N * (2 * n + 1 + 1)) := by
    obtain ⟨c, hc, -, -, hA'⟩ := kernels H (τ / 2) h
    have hg := gw_weight (N := N) (A := A) c hc
    have hs : Ker (gw N A c) (sk (coup v) v.omega (τ / 2)) := by
      rw [← sk_eq H hw hg hA']
      exact hA'.comp hg hA'.swap
    obtain ⟨K, hK, hb⟩ := hs.bound
    have hg2 : Integrable fun x : Fin N → ℝ => Real.exp (-(c * ∑ i, x i ^ 2)) ^ 2 := (gauss_memLp c hc).integrable_sq
    have h1 := tr_path (mk (coup v) v.omega (τ / 2)) (mk_continuous H (τ / 2)) (fun x => Real.exp (-(c * ∑ i, x i ^ 2)))
      (fun _ => (Real.exp_pos _).le) hg2 K hK (fun x y a b => hb (x, a) (y, b)) hg hs (2 * n + 1)
    refine h1.trans ?_
    simp only [path_trace, add_halves]
    exact plain_integral v H.cont τ (2 * n + 1)
  rwa [htr] at hsum

end

end Pibronic.Ritz
