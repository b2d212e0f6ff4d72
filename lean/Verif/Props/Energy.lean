import Verif.Props.Trotter

set_option autoImplicit false
set_option linter.unusedSectionVars false

/-!
C107: is the reported energy the energy of the system?
-/
namespace Pibronic.Props.Energy
open Py Finset Filter Topology Spec.PIMC Pibronic.PIMC Pibronic.Props.PIMC Pibronic.Props.Sampling
  Pibronic.Props.Convergence Pibronic.Props.Trotter MeasureTheory ProbabilityTheory

variable {A N P : ℕ} [NeZero A] [NeZero P]

/-! ### what the theorems speak about -/

/-- The surfaces of the system are not coupled: every one is the displaced oscillator of `own`. -/
def Uncoupled (vib : Vib A N) (own : Rho A N) : Prop :=
  vib.energy = Matrix.diagonal own.energy ∧ vib.omega = own.omega ∧
  (∀ i, vib.linear i = Matrix.diagonal (own.linear i)) ∧ ∀ i j, vib.quadratic i j = 0

/-- The alpha factors of the analytic data are those of the sampling model. -/
def AlphaOf (beta : ℝ) (rho : Rho A N) (an : Stats.Analytic) : Prop :=
  an.alphaPlus = harmonicZ beta rho / harmonicZ (beta + Constants.deltaBeta) rho ∧
  an.alphaMinus = harmonicZ beta rho / harmonicZ (beta - Constants.deltaBeta) rho

/-- Everything about a calculation with `P` beads: independent paths drawn by the program and the values computed for
them. -/
structure Calculation {Ω : Type*} [MeasurableSpace Ω] (μ : Measure Ω) (eigh : Eigh) (beta : ℝ) (vib : Vib A N) (rho : Rho A N)
    (R : ℕ → Ω → BeadPath N P) (d : ∀ n, Ω → Stats.Samples n) : Prop where
  measurable : ∀ k, Measurable (R k)
  law : ∀ k, μ.map (R k) = sampleLaw P eigh beta rho
  indep : ∀ j k, j ≠ k → IndepFun (R j) (R k) μ
  computed : ∀ n ω (k : Fin n), computePM eigh beta Constants.deltaBeta vib rho (R k ω)
      = .ok ⟨(d n ω).rho k, (d n ω).g k, (d n ω).gPlus k, (d n ω).gMinus k⟩

/-! ### helpers -/

private theorem uncoupled_remainder (vib : Vib A N) (own : Rho A N) (h : Uncoupled vib own) (hv : ∀ i, 0 < vib.omega i)
    (R : BeadPath N P) (p : Fin P) : remainder vib R p = 0 := by
  obtain ⟨hE, hw, hl, hq⟩ := h
  ext a b
  unfold remainder potential oscillator bottom centre
  simp only [hE, hl, hq, Matrix.add_apply, Matrix.sub_apply, Matrix.smul_apply, Matrix.sum_apply, Matrix.zero_apply,
    smul_eq_mul, mul_zero, sum_const_zero, add_zero, Matrix.diagonal_apply, Matrix.one_apply]
  by_cases hab : a = b
  · subst hab
    simp only [if_true, mul_one]
    have e : ∑ i, vib.omega i / 2 * (R i p - -own.linear i a / vib.omega i) ^ 2
        = ∑ i, vib.omega i * R i p ^ 2 / 2 + ∑ i, R i p * own.linear i a
          + ∑ i, own.linear i a ^ 2 / (2 * vib.omega i) := by
      rw [← sum_add_distrib, ← sum_add_distrib]
      refine sum_congr rfl fun i _ => ?_
      have := (hv i).ne'
      field_simp
      ring
    rw [e]; ring
  · simp [hab]

private theorem prod_ofFn_diagonal {n : ℕ} (f : Fin n → Fin A → ℝ) :
    (List.ofFn fun p => Matrix.diagonal (f p)).prod = Matrix.diagonal fun a => ∏ p, f p a := by
  induction n with
  | zero => simp
  | succ n ih =>
    rw [List.ofFn_succ, List.prod_cons, ih, Matrix.diagonal_mul_diagonal]
    congr 1; funext a
    rw [Fin.prod_univ_succ]

theorem gSplit_uncoupled (vib : Vib A N) (own : Rho A N) (h : Uncoupled vib own) (hv : ∀ i, 0 < vib.omega i)
    (s t : ℝ) (R : BeadPath N P) : gSplit s t vib R = rhoExact t own R := by
  unfold gSplit rhoExact
  simp only [uncoupled_remainder vib own h hv, smul_zero, NormedSpace.exp_zero, one_mul]
  rw [prod_ofFn_diagonal, Matrix.trace_diagonal]
  obtain ⟨hE, hw, hl, hq⟩ := h
  simp only [hE, hw, hl, Matrix.diagonal_apply_eq]

theorem uncoupled_symm (vib : Vib A N) (own : Rho A N) (h : Uncoupled vib own) (x : Fin N → ℝ) :
    (potential vib x).IsSymm := by
  obtain ⟨hE, hw, hl, hq⟩ := h
  unfold potential Matrix.IsSymm
  simp only [hE, hl, hq, Matrix.transpose_add, Matrix.transpose_sum, Matrix.transpose_smul, Matrix.transpose_one,
    Matrix.transpose_zero, Matrix.diagonal_transpose]

private theorem no_quadratic_small (s t : ℝ) (ht : 0 < t) (vib : Vib A N) (hv : ∀ i, 0 < vib.omega i)
    (h : ∀ i j, vib.quadratic i j = 0) : SmallQuadratic s t vib :=
  ⟨fun _ _ => 0, fun i j a => by simp [h], fun i => by
    simpa using tanh_pos (half_pos (mul_pos ht (hv i)))⟩

theorem harmonicZ_pos (beta : ℝ) (hb : 0 < beta) (rho : Rho A N) (hr : ∀ i, 0 < rho.omega i) :
    0 < harmonicZ beta rho :=
  sum_pos (fun a _ => mul_pos (Real.exp_pos _) (prod_pos fun i _ => inv_pos.mpr (mul_pos two_pos
    (Real.sinh_pos_iff.mpr (half_pos (mul_pos hb (hr i))))))) univ_nonempty

private theorem energyOf_mul {δ k G Gp Gm : ℝ} (hk : k ≠ 0) :
    energyOf δ (k * G) (k * Gp) (k * Gm) = energyOf δ G Gp Gm := by
  unfold energyOf
  rw [← mul_sub, mul_div_assoc, ← mul_neg, mul_div_mul_left _ _ hk]

private theorem heatOf_mul {c T δ k G Gp Gm : ℝ} (hk : k ≠ 0) :
    heatOf c T δ (k * G) (k * Gp) (k * Gm) = heatOf c T δ G Gp Gm := by
  unfold heatOf
  rw [energyOf_mul hk, show k * Gp - 2 * (k * G) + k * Gm = k * (Gp - 2 * G + Gm) by ring, mul_div_assoc,
    mul_div_mul_left _ _ hk]

/-! ### C107 -/

section
variable {Ω : Type*} [MeasurableSpace Ω] (μ : Measure Ω)

/-- C107 without coupling: the analysis with alpha factors reports an energy that settles at minus the difference quotient
of `ln (Z / Z of the sampling model)` plus the energy of the sampling model, for every number of beads.  The analysis
without alpha factors settles at minus the difference quotient of `ln Z` plus the energy of the sampling model.  Missing:
coupled systems, for which the claim is false (`C107_coupling_energy_refuted`). -/
theorem C107_uncoupled_partial (hP : 3 ≤ P) (eigh : Eigh) (he : EighSpec eigh) (beta : ℝ) (hb : Constants.deltaBeta < beta)
    (vib : Vib A N) (own rho : Rho A N) (hv : ∀ i, 0 < vib.omega i) (hr : ∀ i, 0 < rho.omega i) (hun : Uncoupled vib own)
    (R : ℕ → Ω → BeadPath N P) (d : ∀ n, Ω → Stats.Samples n) (hcalc : Calculation μ eigh beta vib rho R d)
    (T : ℝ) (an : Stats.Analytic) (han : AlphaOf beta rho an) :
    let δ := Constants.deltaBeta
    let Z := fun b => harmonicZ b own
    let r := fun b => harmonicZ b own / harmonicZ b rho
    ∀ᵐ ω ∂μ,
      Settles (fun n => Stats.alphaJackknifeAnalysis T (d n ω) an) (r beta)
        (energyOf δ (r beta) (r (beta + δ)) (r (beta - δ)) + an.E)
        (heatOf Constants.boltzman T δ (r beta) (r (beta + δ)) (r (beta - δ)) + an.Cv) ∧
      Settles (fun n => Stats.basicJackknifeAnalysis T (d n ω) an) (r beta)
        (energyOf δ (Z beta) (Z (beta + δ)) (Z (beta - δ)) + an.E)
        (heatOf Constants.boltzman T δ (Z beta) (Z (beta + δ)) (Z (beta - δ)) + an.Cv) := by
  intro δ Z r
  have hdb : 0 < Constants.deltaBeta := by norm_num [Constants.deltaBeta]
  have hb0 : 0 < beta := hdb.trans hb
  have hP0 : (0 : ℝ) < P := by exact_mod_cast Nat.pos_of_ne_zero (NeZero.ne P)
  have ho : ∀ i, 0 < own.omega i := by rw [← hun.2.1]; exact hv
  have hS : (0 : ℝ) < Real.sqrt (2 * Real.pi) ^ (N * P) := pow_pos (Real.sqrt_pos.mpr (by positivity)) _
  have hint : ∀ b, 0 < b → ∫ R : BeadPath N P, gSplit (beta / P) (b / P) vib R
      = Real.sqrt (2 * Real.pi) ^ (N * P) * harmonicZ b own := by
    intro b hb
    simp only [gSplit_uncoupled vib own hun hv]
    exact C61_sampling_integral hP b hb own ho
  have h := C60_analyses_settle μ hP eigh he beta hb vib rho hv hr (uncoupled_symm vib own hun)
    (no_quadratic_small _ _ (div_pos (by linarith) hP0) vib hv hun.2.2.2) R hcalc.measurable hcalc.law hcalc.indep d
    hcalc.computed T an
  have hZr := harmonicZ_pos beta hb0 rho hr
  have hZp := harmonicZ_pos (beta + δ) (add_pos hb0 hdb) rho hr
  have hZm := harmonicZ_pos (beta - δ) (sub_pos.mpr hb) rho hr
  have hZo := harmonicZ_pos beta hb0 own ho
  simp only [gExact] at h
  rw [hint beta hb0, hint _ (add_pos hb0 hdb), hint _ (sub_pos.mpr hb), C61_sampling_integral hP beta hb0 rho hr,
    mul_div_mul_left _ _ hS.ne', energyOf_mul hS.ne', heatOf_mul hS.ne', han.1, han.2] at h
  have e0 : Real.sqrt (2 * Real.pi) ^ (N * P) * harmonicZ beta own
      = Real.sqrt (2 * Real.pi) ^ (N * P) * harmonicZ beta rho * r beta := by
    simp only [r]; field_simp
  have ep : Real.sqrt (2 * Real.pi) ^ (N * P) * harmonicZ (beta + δ) own * (harmonicZ beta rho / harmonicZ (beta + δ) rho)
      = Real.sqrt (2 * Real.pi) ^ (N * P) * harmonicZ beta rho * r (beta + δ) := by
    simp only [r]; field_simp
  have em : Real.sqrt (2 * Real.pi) ^ (N * P) * harmonicZ (beta - δ) own * (harmonicZ beta rho / harmonicZ (beta - δ) rho)
      = Real.sqrt (2 * Real.pi) ^ (N * P) * harmonicZ beta rho * r (beta - δ) := by
    simp only [r]; field_simp
  have hne : Real.sqrt (2 * Real.pi) ^ (N * P) * harmonicZ beta rho ≠ 0 := (mul_pos hS hZr).ne'
  have h := h (mul_pos hS hZo).ne'
  rw [ep, em] at h
  filter_upwards [h] with ω hω
  refine ⟨?_, hω.1⟩
  have h2 := hω.2
  rw [e0, energyOf_mul hne, heatOf_mul hne] at h2
  exact h2

/-- C107: a system without coupling sampled with itself: with alpha factors energy and heat capacity settle at the
analytic values. -/
theorem C107_own_model (hP : 3 ≤ P) (eigh : Eigh) (he : EighSpec eigh) (beta : ℝ) (hb : Constants.deltaBeta < beta)
    (vib : Vib A N) (rho : Rho A N) (hv : ∀ i, 0 < vib.omega i) (hun : Uncoupled vib rho)
    (R : ℕ → Ω → BeadPath N P) (d : ∀ n, Ω → Stats.Samples n) (hcalc : Calculation μ eigh beta vib rho R d)
    (T : ℝ) (an : Stats.Analytic) (han : AlphaOf beta rho an) :
    ∀ᵐ ω ∂μ, Settles (fun n => Stats.alphaJackknifeAnalysis T (d n ω) an) 1 an.E an.Cv := by
  have hdb : 0 < Constants.deltaBeta := by norm_num [Constants.deltaBeta]
  have hr : ∀ i, 0 < rho.omega i := by rw [← hun.2.1]; exact hv
  have h := C107_uncoupled_partial μ hP eigh he beta hb vib rho rho hv hr hun R d hcalc T an han
  simp only [div_self (harmonicZ_pos beta (hdb.trans hb) rho hr).ne',
    div_self (harmonicZ_pos (beta + Constants.deltaBeta) (by linarith) rho hr).ne',
    div_self (harmonicZ_pos (beta - Constants.deltaBeta) (by linarith) rho hr).ne'] at h
  filter_upwards [h] with ω hω
  have h1 := hω.1
  have e1 : energyOf Constants.deltaBeta 1 1 1 = 0 := by simp [energyOf]
  have e2 : heatOf Constants.boltzman T Constants.deltaBeta 1 1 1 = 0 := by
    unfold heatOf; rw [e1]; norm_num
  rwa [e1, e2, zero_add, zero_add] at h1

/-- one oscillator -/
def oneOscillator : Rho 1 1 where
  energy := fun _ => 0
  omega := fun _ => 1
  linear := fun _ _ => 0

/-- the same as a system -/
def oneOscillatorVib : Vib 1 1 where
  energy := 0
  omega := fun _ => 1
  linear := fun _ => 0
  quadratic := fun _ _ => 0

theorem oneOscillator_uncoupled : Uncoupled oneOscillatorVib oneOscillator := by
  refine ⟨?_, rfl, fun i => ?_, fun _ _ => rfl⟩
  · ext a b; simp [oneOscillatorVib, oneOscillator, Matrix.diagonal_apply]
  · ext a b; simp [oneOscillatorVib, oneOscillator, Matrix.diagonal_apply]

/-- C107 is false of the analysis without alpha factors: for one oscillator sampled with itself the reported energy
settles above the analytic energy, because the energy of the oscillator is in the difference quotient and is then added
once more. -/
theorem C107_counted_twice_refuted (hP : 3 ≤ P) (eigh : Eigh) (he : EighSpec eigh) (beta : ℝ)
    (hb : Constants.deltaBeta < beta) (R : ℕ → Ω → BeadPath 1 P) (d : ∀ n, Ω → Stats.Samples n)
    (hcalc : Calculation μ eigh beta oneOscillatorVib oneOscillator R d)
    (T : ℝ) (an : Stats.Analytic) (han : AlphaOf beta oneOscillator an) :
    ∃ e, an.E < e ∧ ∀ᵐ ω ∂μ, Tendsto (fun n => (Stats.basicStatisticalAnalysis T (d n ω) an).E) atTop (𝓝 e) := by
  have hdb : 0 < Constants.deltaBeta := by norm_num [Constants.deltaBeta]
  have hv : ∀ i, 0 < oneOscillatorVib.omega i := fun _ => one_pos
  have hr : ∀ i, 0 < oneOscillator.omega i := fun _ => one_pos
  have h := C107_uncoupled_partial μ hP eigh he beta hb oneOscillatorVib oneOscillator oneOscillator hv hr
    oneOscillator_uncoupled R d hcalc T an han
  refine ⟨energyOf Constants.deltaBeta (harmonicZ beta oneOscillator)
    (harmonicZ (beta + Constants.deltaBeta) oneOscillator) (harmonicZ (beta - Constants.deltaBeta) oneOscillator) + an.E,
    ?_, h.mono fun ω hω => hω.2.E⟩
  have hZ : ∀ b, harmonicZ b oneOscillator = (2 * Real.sinh (b / 2))⁻¹ := by
    intro b; simp [harmonicZ, oneOscillator]
  simp only [hZ]
  have h0 : 0 < Real.sinh (beta / 2) := Real.sinh_pos_iff.mpr (by linarith)
  have hm : 0 < Real.sinh ((beta - Constants.deltaBeta) / 2) := Real.sinh_pos_iff.mpr (by linarith)
  have hlt : Real.sinh ((beta - Constants.deltaBeta) / 2) < Real.sinh ((beta + Constants.deltaBeta) / 2) :=
    Real.sinh_lt_sinh.mpr (by linarith)
  have hinv : (2 * Real.sinh ((beta + Constants.deltaBeta) / 2))⁻¹ < (2 * Real.sinh ((beta - Constants.deltaBeta) / 2))⁻¹ :=
    inv_strictAnti₀ (by positivity) (by linarith)
  have : 0 < energyOf Constants.deltaBeta (2 * Real.sinh (beta / 2))⁻¹ (2 * Real.sinh ((beta + Constants.deltaBeta) / 2))⁻¹
      (2 * Real.sinh ((beta - Constants.deltaBeta) / 2))⁻¹ := by
    unfold energyOf
    refine div_pos ?_ (by positivity)
    rw [← neg_div]
    exact div_pos (by linarith) (by positivity)
  linarith

/-! ### degenerate surfaces coupled by constants -/

/-- All surfaces have the energy `e` and the linear terms `l`; they are coupled by constants. -/
def Degenerate (vib : Vib A N) (e : ℝ) (l : Fin N → ℝ) : Prop :=
  (∀ a, vib.energy a a = e) ∧ vib.energy.IsSymm ∧ Separable vib l 0

private theorem gSplit_degenerate (vib : Vib A N) (hv : ∀ i, 0 < vib.omega i) (e : ℝ) (l : Fin N → ℝ)
    (h : Degenerate vib e l) (s t : ℝ) (R : BeadPath N P) :
    gSplit s t vib R = (NormedSpace.exp ((P * s) • -offDiagonal vib)).trace / A * rhoExact t (diagonalRho vib) R := by
  obtain ⟨he, -, hsep⟩ := h
  have hstep : ∀ a p, step t (vib.energy a a) (fun i => vib.linear i a a) vib.omega R p = step t e l vib.omega R p := by
    intro a p
    simp only [he, hsep.1, Matrix.smul_apply, Matrix.one_apply_eq, smul_eq_mul, mul_one]
  have hrho : rhoExact t (diagonalRho vib) R = A * ∏ p, step t e l vib.omega R p := by
    unfold rhoExact
    have : ∀ a p, step t ((diagonalRho vib).energy a) (fun i => (diagonalRho vib).linear i a) (diagonalRho vib).omega R p
        = step t e l vib.omega R p := hstep
    simp [this]
  have hA : (A : ℝ) ≠ 0 := by exact_mod_cast NeZero.ne A
  rw [hrho]
  have hb : ∀ p, NormedSpace.exp (-s • remainder vib R p) * (Matrix.diagonal fun a =>
      step t (vib.energy a a) (fun i => vib.linear i a a) vib.omega R p)
      = step t e l vib.omega R p • NormedSpace.exp (s • -offDiagonal vib) := by
    intro p
    rw [remainder_separable vib hv l 0 hsep]
    simp only [hstep, Pi.zero_apply, zero_mul, zero_div, sum_const_zero, zero_smul, add_zero]
    rw [← Matrix.smul_one_eq_diagonal, mul_smul_comm, mul_one, smul_neg, neg_smul]
  unfold gSplit
  simp only [hb]
  rw [prod_ofFn_smul, Matrix.trace_smul, smul_eq_mul, ← Matrix.exp_nsmul, ← Nat.cast_smul_eq_nsmul ℝ, smul_smul]
  field_simp

private theorem trace_exp_pos (M : Matrix (Fin A) (Fin A) ℝ) (h : M.IsSymm) : 0 < (NormedSpace.exp M).trace := by
  set B := NormedSpace.exp ((1 / 2 : ℝ) • M) with hB
  have hBs : B.transpose = B := by
    rw [hB, ← Matrix.exp_transpose, Matrix.transpose_smul, h.eq]
  have hsq : NormedSpace.exp M = B.transpose * B := by
    rw [hBs, hB, ← Matrix.exp_add_of_commute _ _ (Commute.refl _), ← add_smul]
    norm_num
  have htr : (NormedSpace.exp M).trace = ∑ a, ∑ b, B b a ^ 2 := by
    rw [hsq, Matrix.trace]
    refine sum_congr rfl fun a _ => ?_
    rw [Matrix.diag_apply, Matrix.mul_apply]
    exact sum_congr rfl fun b _ => by rw [Matrix.transpose_apply, pow_two]
  rw [htr]
  refine (sum_nonneg fun a _ => sum_nonneg fun b _ => sq_nonneg _).lt_of_ne' fun h0 => ?_
  have hz : B = 0 := by
    ext b a
    have h1 := (sum_eq_zero_iff_of_nonneg (fun a _ => sum_nonneg fun b _ => sq_nonneg (B b a))).mp h0 a (mem_univ a)
    have h2 := (sum_eq_zero_iff_of_nonneg (fun b _ => sq_nonneg (B b a))).mp h1 b (mem_univ b)
    simpa using h2
  have hu : IsUnit B := Matrix.isUnit_exp _
  rw [hz] at hu
  exact not_isUnit_zero hu

/-- C107: degenerate surfaces coupled by constants, sampled with their own diagonal.  For every number of beads and with
alpha factors, the reported energy and heat capacity settle at those of the sampling model, whatever the coupling. -/
theorem C107_coupling_ignored (hP : 3 ≤ P) (eigh : Eigh) (he : EighSpec eigh) (beta : ℝ) (hb : Constants.deltaBeta < beta)
    (vib : Vib A N) (hv : ∀ i, 0 < vib.omega i) (e : ℝ) (l : Fin N → ℝ) (hdeg : Degenerate vib e l)
    (R : ℕ → Ω → BeadPath N P) (d : ∀ n, Ω → Stats.Samples n) (hcalc : Calculation μ eigh beta vib (diagonalRho vib) R d)
    (T : ℝ) (an : Stats.Analytic) (han : AlphaOf beta (diagonalRho vib) an) :
    ∀ᵐ ω ∂μ, Settles (fun n => Stats.alphaJackknifeAnalysis T (d n ω) an)
      ((NormedSpace.exp (-beta • (vib.energy - e • 1))).trace / A) an.E an.Cv := by
  have hdb : 0 < Constants.deltaBeta := by norm_num [Constants.deltaBeta]
  have hb0 : 0 < beta := hdb.trans hb
  have hP0 : (0 : ℝ) < P := by exact_mod_cast Nat.pos_of_ne_zero (NeZero.ne P)
  have hA : (0 : ℝ) < A := by exact_mod_cast Nat.pos_of_ne_zero (NeZero.ne A)
  have hr : ∀ i, 0 < (diagonalRho vib).omega i := hv
  have hoff : offDiagonal vib = vib.energy - e • 1 := by
    unfold offDiagonal
    rw [Matrix.smul_one_eq_diagonal]
    congr 2
    funext a; exact hdeg.1 a
  have hsymm : (-beta • (vib.energy - e • 1)).IsSymm := (hdeg.2.1.sub (Matrix.isSymm_one.smul e)).smul _
  set τ := (NormedSpace.exp (-beta • (vib.energy - e • 1))).trace / A with hτ
  have hτ0 : 0 < τ := div_pos (trace_exp_pos _ hsymm) hA
  have hint : ∀ b, 0 < b → ∫ R : BeadPath N P, gSplit (beta / P) (b / P) vib R
      = τ * Real.sqrt (2 * Real.pi) ^ (N * P) * harmonicZ b (diagonalRho vib) := by
    intro b hb
    simp only [gSplit_degenerate vib hv e l hdeg]
    rw [integral_const_mul, C61_sampling_integral hP b hb _ hr, mul_div_cancel₀ _ hP0.ne', hoff, smul_neg, ← neg_smul,
      ← hτ, mul_assoc]
  have hS : (0 : ℝ) < Real.sqrt (2 * Real.pi) ^ (N * P) := pow_pos (Real.sqrt_pos.mpr (by positivity)) _
  have hZr := harmonicZ_pos beta hb0 _ hr
  have hZp := harmonicZ_pos (beta + Constants.deltaBeta) (add_pos hb0 hdb) _ hr
  have hZm := harmonicZ_pos (beta - Constants.deltaBeta) (sub_pos.mpr hb) _ hr
  have hquad : ∀ i j, vib.quadratic i j = 0 := by
    intro i j; rw [hdeg.2.2.2]; simp
  have hsym : ∀ x, (potential vib x).IsSymm := by
    intro x
    unfold potential Matrix.IsSymm
    simp only [Matrix.transpose_add, Matrix.transpose_sum, Matrix.transpose_smul, hdeg.2.1.eq, Matrix.transpose_one,
      hdeg.2.2.1, hquad, Matrix.transpose_zero]
  have h := C60_analyses_settle μ hP eigh he beta hb vib _ hv hr hsym
    (no_quadratic_small _ _ (div_pos (by linarith) hP0) vib hv hquad) R hcalc.measurable hcalc.law hcalc.indep d
    hcalc.computed T an
  simp only [gExact] at h
  rw [hint beta hb0, hint _ (add_pos hb0 hdb), hint _ (sub_pos.mpr hb), C61_sampling_integral hP beta hb0 _ hr,
    han.1, han.2] at h
  have hne := (mul_pos (mul_pos hτ0 hS) hZr).ne'
  have e0 : τ * Real.sqrt (2 * Real.pi) ^ (N * P) * harmonicZ beta (diagonalRho vib)
      / (Real.sqrt (2 * Real.pi) ^ (N * P) * harmonicZ beta (diagonalRho vib)) = τ := by field_simp
  have ep : τ * Real.sqrt (2 * Real.pi) ^ (N * P) * harmonicZ (beta + Constants.deltaBeta) (diagonalRho vib)
      * (harmonicZ beta (diagonalRho vib) / harmonicZ (beta + Constants.deltaBeta) (diagonalRho vib))
      = τ * Real.sqrt (2 * Real.pi) ^ (N * P) * harmonicZ beta (diagonalRho vib) := by field_simp
  have em : τ * Real.sqrt (2 * Real.pi) ^ (N * P) * harmonicZ (beta - Constants.deltaBeta) (diagonalRho vib)
      * (harmonicZ beta (diagonalRho vib) / harmonicZ (beta - Constants.deltaBeta) (diagonalRho vib))
      = τ * Real.sqrt (2 * Real.pi) ^ (N * P) * harmonicZ beta (diagonalRho vib) := by field_simp
  rw [e0, ep, em] at h
  have k1 : ∀ K : ℝ, energyOf Constants.deltaBeta K K K = 0 := fun K => by simp [energyOf]
  have k2 : ∀ K : ℝ, heatOf Constants.boltzman T Constants.deltaBeta K K K = 0 := fun K => by
    unfold heatOf; rw [k1, show K - 2 * K + K = 0 by ring]; simp
  filter_upwards [h hne] with ω hω
  have h2 := hω.2
  rwa [k1, k2, zero_add, zero_add] at h2

/-! ### the energy that is missing -/

/-- two degenerate surfaces coupled by the constant `c`, one mode -/
def twoSurfaces (c : ℝ) : Vib 2 1 where
  energy := !![0, c; c, 0]
  omega := fun _ => 1
  linear := fun _ => 0
  quadratic := fun _ _ => 0

theorem twoSurfaces_degenerate (c : ℝ) : Degenerate (twoSurfaces c) 0 0 := by
  refine ⟨fun a => ?_, ?_, fun i => ?_, fun i j => ?_⟩
  · fin_cases a <;> rfl
  · ext a b; fin_cases a <;> fin_cases b <;> rfl
  · simp [twoSurfaces]
  · simp [twoSurfaces]

private theorem trace_exp_swap (x : ℝ) : (NormedSpace.exp !![0, x; x, 0]).trace = 2 * Real.cosh x := by
  have hinv : (!![1, 1; 1, -1] : Matrix (Fin 2) (Fin 2) ℝ) * !![1/2, 1/2; 1/2, -1/2] = 1 := by
    ext a b; fin_cases a <;> fin_cases b <;> norm_num [Matrix.mul_apply, Fin.sum_univ_two]
  have hU : IsUnit (!![1, 1; 1, -1] : Matrix (Fin 2) (Fin 2) ℝ) := (Matrix.isUnit_iff_isUnit_det _).mpr (by
    norm_num [Matrix.det_fin_two])
  have hU' := Matrix.inv_eq_right_inv hinv
  have e : (!![0, x; x, 0] : Matrix (Fin 2) (Fin 2) ℝ)
      = !![1, 1; 1, -1] * Matrix.diagonal ![x, -x] * (!![1, 1; 1, -1])⁻¹ := by
    rw [hU']
    ext a b
    rw [Matrix.mul_apply, Fin.sum_univ_two, Matrix.mul_diagonal, Matrix.mul_diagonal]
    fin_cases a <;> fin_cases b <;> simp <;> ring
  rw [e, Matrix.exp_conj _ _ hU, Matrix.trace_mul_cycle, Matrix.nonsing_inv_mul _ ((Matrix.isUnit_iff_isUnit_det _).mp hU),
    one_mul, Matrix.exp_diagonal, Matrix.trace_diagonal, Fin.sum_univ_two, Pi.coe_exp, Pi.coe_exp, ← Real.exp_eq_exp_ℝ]
  simp [Real.cosh_eq]
  ring

private theorem twoSurfaces_Z (c b : ℝ) : separableZ b (twoSurfaces c) 0 0
    = Real.cosh (b * c) * harmonicZ b (diagonalRho (twoSurfaces c)) := by
  have e : -b • (twoSurfaces c).energy = !![0, -(b * c); -(b * c), 0] := by
    ext i j; fin_cases i <;> fin_cases j <;> simp [twoSurfaces]
  unfold separableZ harmonicZ
  rw [e, trace_exp_swap, Real.cosh_neg]
  simp [diagonalRho, twoSurfaces, Fin.sum_univ_two]
  ring

/-- C107 is false of coupled systems: for two degenerate surfaces coupled by the constant `c` the partition function of the
system is known, its energy is that of the sampling model minus `c tanh (beta c)`; with any number of beads the analysis
with alpha factors reports an energy that settles at that of the sampling model. -/
theorem C107_coupling_energy_refuted (hP : 3 ≤ P) (eigh : Eigh) (he : EighSpec eigh) (beta c : ℝ)
    (hb : Constants.deltaBeta < beta) (hc : c ≠ 0)
    (R : ℕ → Ω → BeadPath 1 P) (d : ∀ n, Ω → Stats.Samples n)
    (hcalc : Calculation μ eigh beta (twoSurfaces c) (diagonalRho (twoSurfaces c)) R d)
    (T : ℝ) (an : Stats.Analytic) (han : AlphaOf beta (diagonalRho (twoSurfaces c)) an)
    (hE : HasDerivAt (fun b => -Real.log (harmonicZ b (diagonalRho (twoSurfaces c)))) an.E beta) :
    (∀ᵐ ω ∂μ, Tendsto (fun n => (Stats.alphaStatisticalAnalysis T (d n ω) an).E) atTop (𝓝 an.E)) ∧
    HasDerivAt (fun b => -Real.log (separableZ b (twoSurfaces c) 0 0)) (an.E - c * Real.tanh (beta * c)) beta ∧
    0 < c * Real.tanh (beta * c) := by
  have hdb : 0 < Constants.deltaBeta := by norm_num [Constants.deltaBeta]
  have hb0 : 0 < beta := hdb.trans hb
  have hv : ∀ i, 0 < (twoSurfaces c).omega i := fun _ => one_pos
  refine ⟨?_, ?_, ?_⟩
  · exact (C107_coupling_ignored μ hP eigh he beta hb (twoSurfaces c) hv 0 0 (twoSurfaces_degenerate c) R d hcalc T an
      han).mono fun ω hω => hω.E
  · have h1 : HasDerivAt (fun b : ℝ => Real.log (Real.cosh (b * c))) (c * Real.tanh (beta * c)) beta := by
      have h0 : HasDerivAt (fun b : ℝ => Real.cosh (b * c)) (Real.sinh (beta * c) * (1 * c)) beta :=
        HasDerivAt.cosh (f := fun b => b * c) ((hasDerivAt_id' beta).mul_const c)
      have := h0.log (Real.cosh_pos _).ne'
      refine this.congr_deriv ?_
      rw [Real.tanh_eq_sinh_div_cosh]
      simp; ring
    have h2 := hE.sub h1
    refine h2.congr_of_eventuallyEq ?_
    filter_upwards [lt_mem_nhds hb0] with b hb'
    rw [twoSurfaces_Z c b, Real.log_mul (Real.cosh_pos _).ne' (harmonicZ_pos b hb' _ hv).ne']
    simp only [Pi.sub_apply]
    ring
  · rcases lt_or_gt_of_ne hc with h | h
    · have := tanh_pos (mul_pos hb0 (neg_pos.mpr h))
      rw [mul_neg, Real.tanh_neg] at this
      nlinarith
    · exact mul_pos h (tanh_pos (mul_pos hb0 h))

end

/-! ### the hypotheses can be met -/

/-- For every system there are independent paths and computed values. -/
theorem exists_independent (hP : 3 ≤ P) (eigh : Eigh) (he : EighSpec eigh) (beta : ℝ) (hb : Constants.deltaBeta < beta) (vib : Vib A N) (rho : Rho A N)
    (hv : ∀ i, 0 < vib.omega i) (hr : ∀ i, 0 < rho.omega i) (hs : ∀ x, (potential vib x).IsSymm) :
    ∃ (Ω : Type) (_ : MeasurableSpace Ω) (μ : Measure Ω) (R : ℕ → Ω → BeadPath N P)
      (d : ∀ n, Ω → Stats.Samples n), IsProbabilityMeasure μ ∧ iIndepFun R μ ∧ Calculation μ eigh beta vib rho R d := by
  have hdb : 0 < Constants.deltaBeta := by norm_num [Constants.deltaBeta]
  have := isProbability_sampleLaw hP eigh he beta (hdb.trans hb) rho hr
  obtain ⟨Ω, mΩ, μ, R, h1, h2, h3, hμ⟩ := exists_iid ℕ (sampleLaw P eigh beta rho)
  have hs := fun R : BeadPath N P => C38_computed_quantities eigh he beta Constants.deltaBeta hdb.le hb vib rho hv hr hs R
  choose s _ hs _ using hs
  exact ⟨Ω, mΩ, μ, R, fun n ω => ⟨fun k => (s (R k ω)).rho, fun k => (s (R k ω)).g,
    fun k => (s (R k ω)).gPlus, fun k => (s (R k ω)).gMinus⟩, hμ, h3, h1, fun k => (h2 k).map_eq,
    fun j k hjk => h3.indepFun hjk, fun n ω k => hs _⟩

theorem exists_calculation (hP : 3 ≤ P) (eigh : Eigh) (he : EighSpec eigh) (beta : ℝ) (hb : Constants.deltaBeta < beta) (vib : Vib A N) (rho : Rho A N)
    (hv : ∀ i, 0 < vib.omega i) (hr : ∀ i, 0 < rho.omega i) (hs : ∀ x, (potential vib x).IsSymm) :
    ∃ (Ω : Type) (_ : MeasurableSpace Ω) (μ : Measure Ω) (R : ℕ → Ω → BeadPath N P)
      (d : ∀ n, Ω → Stats.Samples n), IsProbabilityMeasure μ ∧ Calculation μ eigh beta vib rho R d := by
  obtain ⟨Ω, mΩ, μ, R, d, h1, -, h2⟩ := exists_independent hP eigh he beta hb vib rho hv hr hs
  exact ⟨Ω, mΩ, μ, R, d, h1, h2⟩

/-- C107: a calculation for the coupled surfaces. -/
example (hP : 3 ≤ P) : ∃ (eigh : Eigh) (_ : EighSpec eigh) (Ω : Type) (_ : MeasurableSpace Ω) (μ : Measure Ω)
    (R : ℕ → Ω → BeadPath 1 P) (d : ∀ n, Ω → Stats.Samples n),
    Calculation μ eigh 1 (twoSurfaces 3) (diagonalRho (twoSurfaces 3)) R d := by
  obtain ⟨eigh, he⟩ := eigh_exists
  have hs : ∀ x, (potential (twoSurfaces 3) x).IsSymm := fun x => by
    ext a b
    fin_cases a <;> fin_cases b <;> simp [potential, twoSurfaces]
  obtain ⟨Ω, mΩ, μ, R, d, -, h⟩ := exists_calculation hP eigh he 1 (by norm_num [Constants.deltaBeta]) (twoSurfaces 3)
    (diagonalRho (twoSurfaces 3)) (fun _ => one_pos) (fun _ => one_pos) hs
  exact ⟨eigh, he, Ω, mΩ, μ, R, d, h⟩

/-- C107: a calculation for one oscillator. -/
example (hP : 3 ≤ P) : ∃ (eigh : Eigh) (_ : EighSpec eigh) (Ω : Type) (_ : MeasurableSpace Ω) (μ : Measure Ω)
    (R : ℕ → Ω → BeadPath 1 P) (d : ∀ n, Ω → Stats.Samples n),
    Calculation μ eigh 1 oneOscillatorVib oneOscillator R d := by
  obtain ⟨eigh, he⟩ := eigh_exists
  obtain ⟨Ω, mΩ, μ, R, d, -, h⟩ := exists_calculation hP eigh he 1 (by norm_num [Constants.deltaBeta]) oneOscillatorVib
    oneOscillator (fun _ => one_pos) (fun _ => one_pos) fun x => uncoupled_symm _ _ oneOscillator_uncoupled x
  exact ⟨eigh, he, Ω, mΩ, μ, R, d, h⟩

end Pibronic.Props.Energy
