import Verif.Lemmas.Exact
import Verif.Props.Basis
import Verif.Props.Energy

set_option autoImplicit false

/-! # Properties: the limit of many beads is the partition function of the Hamiltonian

C106: the error of the discretisation vanishes as the number of beads grows, for every system whose potential rises in
every direction.  The partition function is that of the Hamiltonian in the basis of oscillator functions
(`Spec/Levels.lean`), in the limit of a complete basis. -/
namespace Pibronic.Props.Exact
open Py Finset Filter Topology Spec.PIMC Pibronic.PIMC Pibronic.Props.PIMC Pibronic.Props.Sampling Pibronic.Props.Trotter
  Pibronic.Props.Basis
open MeasureTheory ProbabilityTheory Pibronic.Props.Energy

variable {A N : ℕ} [NeZero A]

/-- C106: the trace of `exp (-β H)` over the oscillator functions converges as the basis becomes complete, and the
expectation of the stored ratio times the analytic partition function of the sampling model differs from its limit by at
most a constant over the square root of the number of beads, with one constant for all sampling models. -/
theorem C106_exact (eigh : Eigh) (he : EighSpec eigh) (beta : ℝ) (hb : 0 < beta) (vib : Vib A N)
    (hv : ∀ i, 0 < vib.omega i) (hsym : Symmetric vib) (hconf : Confined vib) :
    ∃ Z K : ℝ, Tendsto (truncatedZ beta vib) atTop (𝓝 Z) ∧
      ∃ P₀, ∀ (P : ℕ) [NeZero P], P₀ ≤ P → ∀ rho : Rho A N, (∀ i, 0 < rho.omega i) →
        Integrable (fun R : BeadPath N P => storedRatio eigh (beta / P) vib rho R) (sampleLaw P eigh beta rho) ∧
        |(∫ R : BeadPath N P, storedRatio eigh (beta / P) vib rho R ∂(sampleLaw P eigh beta rho)) * harmonicZ beta rho - Z|
          ≤ K / Real.sqrt P := by
  obtain ⟨Z, K, -, hZ, h⟩ := Ritz.exact_truncated beta hb vib hv hsym hconf
  obtain ⟨n, hn⟩ := eventually_atTop.mp h
  refine ⟨Z, K, hZ, max 3 n, fun P _ hP rho hr => ?_⟩
  have hP3 : 3 ≤ P := (le_max_left _ _).trans hP
  obtain ⟨i1, d⟩ := hn P ((le_max_right _ _).trans hP)
  refine ⟨(C59_unbiased hP3 eigh he beta hb vib rho hv hr (potential_symm vib hsym)).1.mpr i1, ?_⟩
  rw [C61_ratio_times_analytic hP3 eigh he beta hb vib rho hv hr (potential_symm vib hsym)]
  exact d

/-- C106: with enough beads and enough basis functions the result of the sampling and the trace of `exp (-β H)` agree
within any tolerance, whatever the sampling model. -/
theorem C106_many_beads_large_basis (eigh : Eigh) (he : EighSpec eigh) (beta : ℝ) (hb : 0 < beta) (vib : Vib A N)
    (hv : ∀ i, 0 < vib.omega i) (hsym : Symmetric vib) (hconf : Confined vib) (ε : ℝ) (hε : 0 < ε) :
    ∃ P₀ B₀, ∀ (P B : ℕ) [NeZero P], P₀ ≤ P → B₀ ≤ B → ∀ rho : Rho A N, (∀ i, 0 < rho.omega i) →
      |(∫ R : BeadPath N P, storedRatio eigh (beta / P) vib rho R ∂(sampleLaw P eigh beta rho)) * harmonicZ beta rho
        - truncatedZ beta vib B| < ε := by
  obtain ⟨Z, K, hZ, n, h⟩ := C106_exact eigh he beta hb vib hv hsym hconf
  obtain ⟨n', hn'⟩ := eventually_atTop.mp (small_eventually K (ε / 2) (half_pos hε))
  obtain ⟨B₀, hB₀⟩ := Metric.tendsto_atTop.mp hZ (ε / 2) (half_pos hε)
  refine ⟨max n n', B₀, fun P B _ hP hB rho hr => ?_⟩
  have h1 := (h P ((le_max_left _ _).trans hP) rho hr).2
  have k1 := hn' P ((le_max_right _ _).trans hP)
  have h2 := hB₀ B hB
  rw [Real.dist_eq, abs_sub_comm] at h2
  have := abs_sub_le ((∫ R : BeadPath N P, storedRatio eigh (beta / P) vib rho R ∂(sampleLaw P eigh beta rho)) * harmonicZ beta rho)
    Z (truncatedZ beta vib B)
  linarith

/-- C106: for surfaces coupled by constants the partition function of the Hamiltonian is the closed form. -/
theorem C106_closed_form (eigh : Eigh) (he : EighSpec eigh) (beta : ℝ) (hb : 0 < beta) (vib : Vib A N)
    (hv : ∀ i, 0 < vib.omega i) (hsym : vib.energy.IsSymm) (hcc : ConstantCoupling vib) (f : Fin A → Fin N → ℝ)
    (hf : ∀ a, NormalModes vib a (f a)) : Tendsto (truncatedZ beta vib) atTop (𝓝 (constantCouplingZ beta vib f)) := by
  refine Metric.tendsto_atTop.mpr fun ε hε => ?_
  obtain ⟨n, h⟩ := C106_constant_coupling eigh he beta hb vib (diagonalRho vib) hv hv hsym hcc f hf (ε / 2) (half_pos hε)
  obtain ⟨P₀, B₀, h'⟩ := C106_many_beads_large_basis eigh he beta hb vib hv (constant_symmetric vib hcc hsym)
    (constant_confined vib hv hcc f hf) (ε / 2) (half_pos hε)
  refine ⟨B₀, fun B hB => ?_⟩
  have : NeZero (max (max n P₀) 1) := ⟨by omega⟩
  have h1 := (h (max (max n P₀) 1) (by omega)).2
  have h2 := h' (max (max n P₀) 1) B (by omega) hB (diagonalRho vib) hv
  rw [Real.dist_eq, abs_sub_comm]
  rw [abs_sub_comm] at h1
  have := abs_sub_le (constantCouplingZ beta vib f)
    ((∫ R : BeadPath N (max (max n P₀) 1), storedRatio eigh (beta / (max (max n P₀) 1 : ℕ)) vib (diagonalRho vib) R
      ∂(sampleLaw (max (max n P₀) 1) eigh beta (diagonalRho vib))) * harmonicZ beta (diagonalRho vib)) (truncatedZ beta vib B)
  linarith

/-! ### C113 -/

section
/-- C113: with enough beads and enough independent samples the reported ratio times the analytic partition function of the
sampling model is within any tolerance of the trace of `exp (-β H)` in a large basis, with probability one and whatever
the sampling model. -/
theorem C113_right_answer (eigh : Eigh) (he : EighSpec eigh) (beta : ℝ) (hb : Constants.deltaBeta < beta) (vib : Vib A N)
    (hv : ∀ i, 0 < vib.omega i) (hsym : Symmetric vib) (hconf : Confined vib) (T ε : ℝ) (hε : 0 < ε) :
    ∃ P₀, ∀ {Ω : Type} [MeasurableSpace Ω] (μ : Measure Ω) (P : ℕ) [NeZero P], P₀ ≤ P → ∀ rho : Rho A N, (∀ i, 0 < rho.omega i) →
      ∀ (R : ℕ → Ω → BeadPath N P) (d : ∀ n, Ω → Stats.Samples n), Calculation μ eigh beta vib rho R d →
        ∀ an : Stats.Analytic, ∀ᵐ ω ∂μ, ∃ n₀ B₀, ∀ n B, n₀ ≤ n → B₀ ≤ B →
          |(Stats.basicStatisticalAnalysis T (d n ω) an).Z * harmonicZ beta rho - truncatedZ beta vib B| < ε ∧
          |(Stats.alphaStatisticalAnalysis T (d n ω) an).Z * harmonicZ beta rho - truncatedZ beta vib B| < ε ∧
          |(Stats.basicJackknifeAnalysis T (d n ω) an).basic.Z * harmonicZ beta rho - truncatedZ beta vib B| < ε ∧
          |(Stats.alphaJackknifeAnalysis T (d n ω) an).basic.Z * harmonicZ beta rho - truncatedZ beta vib B| < ε := by
  have hdb : 0 < Constants.deltaBeta := by norm_num [Constants.deltaBeta]
  have hb0 : 0 < beta := hdb.trans hb
  obtain ⟨Z, K, -, hZ, h⟩ := Ritz.exact_truncated beta hb0 vib hv hsym hconf
  obtain ⟨n, hn⟩ := eventually_atTop.mp h
  obtain ⟨n', hn'⟩ := eventually_atTop.mp (small_eventually K (ε / 3) (by positivity))
  obtain ⟨B₀, hB₀⟩ := Metric.tendsto_atTop.mp hZ (ε / 3) (by positivity)
  refine ⟨max 3 (max n n'), fun μ P _ hP rho hr R d hc an => ?_⟩
  have hP3 : 3 ≤ P := (le_max_left _ _).trans hP
  obtain ⟨i1, d1⟩ := hn P ((le_max_left _ _).trans ((le_max_right _ _).trans hP))
  have d2 := hn' P ((le_max_right _ _).trans ((le_max_right _ _).trans hP))
  have hP0 : (0 : ℝ) < P := by exact_mod_cast Nat.pos_of_ne_zero (NeZero.ne P)
  have hH : 0 < harmonicZ beta rho := harmonicZ_pos beta hb0 rho hr
  have hcont : Continuous fun R : BeadPath N P => rhoExact (beta / P) rho R := by
    unfold rhoExact Spec.PIMC.step propagator
    fun_prop
  have key := expectation_gSplit (P := P) hP3 eigh he beta hb0 vib rho hr (beta / P) (beta / P) i1
  have l0 := mean_tendsto μ _ R hc.measurable hc.law hc.indep _
    ((gSplit_continuous (beta / P) (beta / P) vib).measurable.div hcont.measurable) key.1
  simp only [Pi.div_apply] at l0
  rw [key.2] at l0
  have hlim : (∫ R : BeadPath N P, gSplit (beta / P) (beta / P) vib R) / (∫ R : BeadPath N P, rhoExact (beta / P) rho R)
      * harmonicZ beta rho = (∫ R : BeadPath N P, gExact (beta / P) vib R) / Real.sqrt (2 * Real.pi) ^ (N * P) := by
    rw [C61_sampling_integral hP3 beta hb0 rho hr]
    have : (0 : ℝ) < Real.sqrt (2 * Real.pi) ^ (N * P) := pow_pos (Real.sqrt_pos.mpr (by positivity)) _
    have e : (∫ R : BeadPath N P, gSplit (beta / P) (beta / P) vib R) = ∫ R : BeadPath N P, gExact (beta / P) vib R := rfl
    rw [e]
    field_simp
  have hst : ∀ n ω (k : Fin n), (d n ω).g k / (d n ω).rho k
      = gSplit (beta / P) (beta / P) vib (R k ω) / rhoExact (beta / P) rho (R k ω) := by
    intro n ω k
    obtain ⟨s, S, h, hS, h1, h2, -, -⟩ := C38_computed_quantities eigh he beta Constants.deltaBeta hdb.le hb
      vib rho hv hr (potential_symm vib hsym) (R k ω)
    rw [hc.computed n ω k] at h
    cases h
    simp only at h1 h2
    rw [h1, h2, div_div_div_cancel_right₀ hS.ne']
    rfl
  filter_upwards [l0] with ω h0
  have hZn : ∀ n, (Stats.basicStatisticalAnalysis T (d n ω) an).Z
      = Stats.npMean fun k : Fin n => gSplit (beta / P) (beta / P) vib (R k ω) / rhoExact (beta / P) rho (R k ω) := by
    intro n
    simp only [Stats.basicStatisticalAnalysis, Stats.addHarmonic, Stats.estimateBasicProperties,
      Stats.basicEstimateZ, Stats.calculateBasicPropertyTerms, hst n ω _]
  have h1 := h0.mul_const (harmonicZ beta rho)
  rw [hlim] at h1
  obtain ⟨n₀, hn₀⟩ := Metric.tendsto_atTop.mp h1 (ε / 3) (by positivity)
  refine ⟨n₀, B₀, fun m B hm hB => ?_⟩
  change |(Stats.basicStatisticalAnalysis T (d m ω) an).Z * _ - _| < ε ∧
    |(Stats.basicStatisticalAnalysis T (d m ω) an).Z * _ - _| < ε ∧
    |(Stats.basicStatisticalAnalysis T (d m ω) an).Z * _ - _| < ε ∧
    |(Stats.basicStatisticalAnalysis T (d m ω) an).Z * _ - _| < ε
  rw [and_self_iff, and_self_iff, and_self_iff, hZn]
  have k1 := hn₀ m hm
  have k2 := hB₀ B hB
  rw [Real.dist_eq] at k1 k2
  rw [abs_sub_comm] at k2
  rw [abs_lt] at *
  have := abs_le.mp d1
  constructor <;> linarith [k1.1, k1.2, k2.1, k2.2, this.1, this.2]

end

/-! ### the hypotheses can be met -/

/-- C106: the Jahn-Teller model, whose couplings no electronic basis removes. -/
example (eigh : Eigh) (he : EighSpec eigh) : ∃ P₀ B₀, ∀ (P B : ℕ) [NeZero P], P₀ ≤ P → B₀ ≤ B →
    |(∫ R : BeadPath 2 P, storedRatio eigh (3 / P) jahnTeller (diagonalRho jahnTeller) R
        ∂(sampleLaw P eigh 3 (diagonalRho jahnTeller))) * harmonicZ 3 (diagonalRho jahnTeller)
      - truncatedZ 3 jahnTeller B| < 1 / 100 := by
  obtain ⟨n, m, h⟩ := C106_many_beads_large_basis eigh he 3 (by norm_num) jahnTeller (fun i => by simp [jahnTeller])
    jahnTeller_symmetric jahnTeller_confined (1 / 100) (by norm_num)
  exact ⟨n, m, fun P B _ hP hB => h P B hP hB _ fun i => by simp [jahnTeller, diagonalRho]⟩

/-- C113: there are calculations for this system with any number of beads from some number on, and with probability one
each of them comes within the tolerance -/
example (T : ℝ) : ∃ P₀, ∀ (P : ℕ) [NeZero P], P₀ ≤ P → ∃ (eigh : Eigh) (_ : EighSpec eigh) (Ω : Type) (_ : MeasurableSpace Ω)
    (μ : Measure Ω) (R : ℕ → Ω → BeadPath 2 P) (d : ∀ n, Ω → Stats.Samples n), IsProbabilityMeasure μ ∧
    Calculation μ eigh 3 jahnTeller (diagonalRho jahnTeller) R d ∧
    ∀ an : Stats.Analytic, ∀ᵐ ω ∂μ, ∃ n₀ B₀, ∀ n B, n₀ ≤ n → B₀ ≤ B →
      |(Stats.basicStatisticalAnalysis T (d n ω) an).Z * harmonicZ 3 (diagonalRho jahnTeller)
        - truncatedZ 3 jahnTeller B| < 1 / 100 := by
  obtain ⟨eigh, he⟩ := eigh_exists
  have hb : Constants.deltaBeta < 3 := by norm_num [Constants.deltaBeta]
  have hw : ∀ i, 0 < jahnTeller.omega i := fun i => by simp [jahnTeller]
  obtain ⟨n, h⟩ := C113_right_answer eigh he 3 hb jahnTeller hw jahnTeller_symmetric jahnTeller_confined T (1 / 100)
    (by norm_num)
  refine ⟨max 3 n, fun P _ hP => ?_⟩
  obtain ⟨Ω, mΩ, μ, R, d, hμ, hc⟩ := exists_calculation ((le_max_left _ _).trans hP) eigh he 3 hb jahnTeller
    (diagonalRho jahnTeller) hw hw (potential_symm _ jahnTeller_symmetric)
  refine ⟨eigh, he, Ω, mΩ, μ, R, d, hμ, hc, fun an => ?_⟩
  filter_upwards [h μ P ((le_max_right _ _).trans hP) _ hw R d hc an] with ω ⟨n₀, B₀, hω⟩
  exact ⟨n₀, B₀, fun m B hm hB => (hω m B hm hB).1⟩

/-- its Hamiltonian in the basis: a state without quanta has the zero-point energies and the electronic energy on the
diagonal, and a quantum in the second mode couples the surfaces -/
example : hamiltonian jahnTeller (fun _ => 0, 0) (fun _ => 0, 0) = 1 / 2 + 1 / 2 + 1 := by
  have h : ∀ i : Fin 2, (fun _ => 0 : Fin 2 → ℕ) ≠ raise i fun _ => 0 := fun i e => by
    have := congrFun e i
    simp [raise] at this
  have hp : ∀ i : Fin 2, position i (fun _ => 0) (fun _ => 0) = 0 := fun i => by simp [position, h]
  simp [hamiltonian, jahnTeller, hp, Fin.sum_univ_two]
  norm_num

example : hamiltonian jahnTeller (fun _ => 0, 0) (raise 1 fun _ => 0, 1) = 1 / 2 * Real.sqrt (1 / 2) := by
  have h0 : position 0 (fun _ => 0) (raise 1 fun _ => 0 : Fin 2 → ℕ) = 0 := by
    unfold position
    rw [if_neg (by decide), if_neg (by decide)]
  have h1 : position 1 (fun _ => 0) (raise 1 fun _ => 0 : Fin 2 → ℕ) = Real.sqrt (1 / 2) := by
    unfold position
    rw [if_neg (by decide), if_pos rfl]
    norm_num
  have hq : ∀ i : Fin 2, positions i i (fun _ => 0) (raise 1 fun _ => 0 : Fin 2 → ℕ) = 0 := by
    intro i
    have hu : position i (fun _ => 0) (Ritz.up i (raise 1 fun _ => 0) : Fin 2 → ℕ) = 0 := by
      unfold position
      fin_cases i <;> rw [if_neg (by decide), if_neg (by decide)]
    have hd : position i (fun _ => 0) (Ritz.dn i (raise 1 fun _ => 0) : Fin 2 → ℕ) = 0 := by
      unfold position
      fin_cases i <;> rw [if_neg (by decide), if_neg (by decide)]
    rw [Ritz.positions_eq, hu, hd]
    ring
  have hne : ((fun _ => 0 : Fin 2 → ℕ), (0 : Fin 2)) ≠ (raise 1 fun _ => 0, 1) := by decide
  have hne' : (fun _ => 0 : Fin 2 → ℕ) ≠ raise 1 fun _ => 0 := by decide
  unfold hamiltonian
  rw [if_neg hne, if_neg hne']
  simp [jahnTeller, Fin.sum_univ_two, h0, h1, hq]

end Pibronic.Props.Exact
