import Verif.Model.Stats
import Verif.Spec.Stats
import Mathlib.Tactic.FieldSimp
import Mathlib.Tactic.Ring
import Mathlib.Tactic.Linarith
import Mathlib.Tactic.Positivity

set_option autoImplicit false

/-! Helper lemmas for the statistics theorems. -/
namespace Pibronic.Stats
open Constants Finset Pibronic.Spec.Stats

theorem npMean_eq_meanOn {X : ℕ} (a : Arr X) : npMean a = meanOn univ a := by
  simp [npMean, npSum, meanOn]

theorem jkTerm_eq_meanOn {X : ℕ} (a : Arr X) (i : Fin X) :
    calculateJackknifeTerm a i = meanOn (univ.erase i) a := by
  have h1 : 1 ≤ X := by have := i.2; omega
  simp only [calculateJackknifeTerm, meanOn, npSum]
  rw [card_erase_of_mem (mem_univ i), card_univ, Fintype.card_fin, Nat.cast_sub h1, Nat.cast_one,
    ← sum_erase_add univ a (mem_univ i)]
  congr 1; ring

theorem meanOn_div {X : ℕ} (S : Finset (Fin X)) (f : Arr X) (c : ℝ) :
    meanOn S (fun i => f i / c) = meanOn S f / c := by
  simp only [meanOn, ← sum_div]; ring

theorem meanOn_sub {X : ℕ} (S : Finset (Fin X)) (f g : Arr X) :
    meanOn S (fun i => f i - g i) = meanOn S f - meanOn S g := by
  simp only [meanOn, sum_sub_distrib]; ring

theorem meanOn_add {X : ℕ} (S : Finset (Fin X)) (f g : Arr X) :
    meanOn S (fun i => f i + g i) = meanOn S f + meanOn S g := by
  simp only [meanOn, sum_add_distrib]; ring

theorem meanOn_const_mul {X : ℕ} (S : Finset (Fin X)) (f : Arr X) (c : ℝ) :
    meanOn S (fun i => c * f i) = c * meanOn S f := by
  simp only [meanOn, ← mul_sum]; ring

/-- mean of the basic first derivative terms -/
theorem meanOn_sym1 {X : ℕ} (S : Finset (Fin X)) (dB : ℝ) (d : Samples X) :
    meanOn S (calculateBasicPropertyTerms dB d).sym1
      = (meanOn S (fun i => d.gPlus i / d.rho i) - meanOn S (fun i => d.gMinus i / d.rho i))
        / (2 * dB) := by
  rw [← meanOn_sub, ← meanOn_div]
  congr 1; funext i; simp only [calculateBasicPropertyTerms]; ring

theorem meanOn_sym2 {X : ℕ} (S : Finset (Fin X)) (dB : ℝ) (d : Samples X) :
    meanOn S (calculateBasicPropertyTerms dB d).sym2
      = (meanOn S (fun i => d.gPlus i / d.rho i) + meanOn S (fun i => d.gMinus i / d.rho i)
          - 2 * meanOn S (fun i => d.g i / d.rho i)) / dB ^ 2 := by
  rw [← meanOn_const_mul, ← meanOn_add, ← meanOn_sub, ← meanOn_div]
  congr 1; funext i; simp only [calculateBasicPropertyTerms]; ring

/-- the energy term of the i-th jackknife replicate, basic method -/
theorem basic_replicate_E {X : ℕ} (dB : ℝ) (d : Samples X) (i : Fin X) :
    -1 * (calculateJackknifeTerms (calculateBasicPropertyTerms dB d)).sym1 i
      / (calculateJackknifeTerms (calculateBasicPropertyTerms dB d)).ratio i
      = energyOn dB 1 1 d.rho d.g d.gPlus d.gMinus (univ.erase i) := by
  simp only [calculateJackknifeTerms, jkTerm_eq_meanOn, meanOn_sym1, energyOn]
  simp only [calculateBasicPropertyTerms]
  ring

theorem basic_replicate_Cv {X : ℕ} (T dB : ℝ) (d : Samples X) (i : Fin X) :
    ((calculateJackknifeTerms (calculateBasicPropertyTerms dB d)).sym2 i
      / (calculateJackknifeTerms (calculateBasicPropertyTerms dB d)).ratio i
      - energyOn dB 1 1 d.rho d.g d.gPlus d.gMinus (univ.erase i) ^ 2) / (boltzman * T ^ 2)
      = heatCapacityOn boltzman T dB 1 1 d.rho d.g d.gPlus d.gMinus (univ.erase i) := by
  simp only [calculateJackknifeTerms, jkTerm_eq_meanOn, meanOn_sym2, heatCapacityOn]
  simp only [calculateBasicPropertyTerms, mul_one]

theorem alpha_replicate_E {X : ℕ} (dB aP aM : ℝ) (d : Samples X) (i : Fin X) :
    -1 * (calculateAlphaJackknifeTerms dB (fun i => d.g i / d.rho i)
        (fun i => d.gPlus i / d.rho i) aP (fun i => d.gMinus i / d.rho i) aM).sym1 i
      / (calculateAlphaJackknifeTerms dB (fun i => d.g i / d.rho i)
        (fun i => d.gPlus i / d.rho i) aP (fun i => d.gMinus i / d.rho i) aM).ratio i
      = energyOn dB aP aM d.rho d.g d.gPlus d.gMinus (univ.erase i) := by
  have h := fun a : Arr X => jkTerm_eq_meanOn a i
  simp only [calculateJackknifeTerm] at h
  simp only [calculateAlphaJackknifeTerms, h, energyOn]
  ring

theorem alpha_replicate_Cv {X : ℕ} (T dB aP aM : ℝ) (d : Samples X) (i : Fin X) :
    ((calculateAlphaJackknifeTerms dB (fun i => d.g i / d.rho i)
        (fun i => d.gPlus i / d.rho i) aP (fun i => d.gMinus i / d.rho i) aM).sym2 i
      / (calculateAlphaJackknifeTerms dB (fun i => d.g i / d.rho i)
        (fun i => d.gPlus i / d.rho i) aP (fun i => d.gMinus i / d.rho i) aM).ratio i
      - energyOn dB aP aM d.rho d.g d.gPlus d.gMinus (univ.erase i) ^ 2) / (boltzman * T ^ 2)
      = heatCapacityOn boltzman T dB aP aM d.rho d.g d.gPlus d.gMinus (univ.erase i) := by
  have h := fun a : Arr X => jkTerm_eq_meanOn a i
  simp only [calculateJackknifeTerm] at h
  simp only [calculateAlphaJackknifeTerms, h, heatCapacityOn]
  ring

/-- the code's jackknife error is `sqrt (sum of squared deviations of the replicates)` -/
theorem sqrt_mul_npStd_one {X : ℕ} (f : Arr X) (hX : 2 ≤ X) :
    Real.sqrt ((X : ℝ) - 1) * npStd 1 f = Real.sqrt (∑ i, (f i - meanOn univ f) ^ 2) := by
  have h : (0 : ℝ) < (X : ℝ) - 1 := by
    have : (2 : ℝ) ≤ X := by exact_mod_cast hX
    linarith
  rw [npStd, npMean_eq_meanOn, ← Real.sqrt_mul h.le]
  congr 1; field_simp

theorem estimate_E_eq {X : ℕ} (dB T : ℝ) (d : Samples X) :
    (estimateBasicProperties T (calculateBasicPropertyTerms dB d).ratio
      (npMean (calculateBasicPropertyTerms dB d).sym1)
      (npMean (calculateBasicPropertyTerms dB d).sym2)).E
      = energyOn dB 1 1 d.rho d.g d.gPlus d.gMinus univ := by
  simp only [estimateBasicProperties, basicEstimateE, basicEstimateZ, npMean_eq_meanOn,
    meanOn_sym1, energyOn]
  simp only [calculateBasicPropertyTerms]
  ring

theorem estimate_Cv_eq {X : ℕ} (dB T : ℝ) (d : Samples X) :
    (estimateBasicProperties T (calculateBasicPropertyTerms dB d).ratio
      (npMean (calculateBasicPropertyTerms dB d).sym1)
      (npMean (calculateBasicPropertyTerms dB d).sym2)).Cv
      = heatCapacityOn boltzman T dB 1 1 d.rho d.g d.gPlus d.gMinus univ := by
  have hE := estimate_E_eq dB T d
  simp only [estimateBasicProperties, basicEstimateE, basicEstimateZ, basicEstimateCv] at hE ⊢
  rw [hE]
  simp only [heatCapacityOn, npMean_eq_meanOn, meanOn_sym2, mul_one]
  simp only [calculateBasicPropertyTerms]

theorem alpha_E_eq {X : ℕ} (dB T aP aM : ℝ) (d : Samples X) :
    (estimateBasicProperties T (calculateAlphaTerms dB d aP aM).ratio
      (calculateAlphaTerms dB d aP aM).sym1 (calculateAlphaTerms dB d aP aM).sym2).E
      = energyOn dB aP aM d.rho d.g d.gPlus d.gMinus univ := by
  simp only [estimateBasicProperties, basicEstimateE, basicEstimateZ, npMean_eq_meanOn,
    calculateAlphaTerms, energyOn]
  ring

theorem alpha_Cv_eq {X : ℕ} (dB T aP aM : ℝ) (d : Samples X) :
    (estimateBasicProperties T (calculateAlphaTerms dB d aP aM).ratio
      (calculateAlphaTerms dB d aP aM).sym1 (calculateAlphaTerms dB d aP aM).sym2).Cv
      = heatCapacityOn boltzman T dB aP aM d.rho d.g d.gPlus d.gMinus univ := by
  have hE := alpha_E_eq dB T aP aM d
  simp only [estimateBasicProperties, basicEstimateE, basicEstimateZ, basicEstimateCv] at hE ⊢
  rw [hE]
  simp only [heatCapacityOn, npMean_eq_meanOn, calculateAlphaTerms]
  ring

theorem boltzman_pos : 0 < boltzman := by
  unfold boltzman nistJPerEv; norm_num

theorem deltaBeta_pos : 0 < deltaBeta := by
  unfold deltaBeta; norm_num

theorem meanOn_comp_perm {X : ℕ} (σ : Equiv.Perm (Fin X)) (f : Arr X) :
    meanOn univ (fun i => f (σ i)) = meanOn univ f := by
  simp only [meanOn]; rw [Equiv.sum_comp σ f]

theorem npSum_comp_perm {X : ℕ} (σ : Equiv.Perm (Fin X)) (f : Arr X) :
    npSum (fun i => f (σ i)) = npSum f := by
  simp only [npSum]; rw [Equiv.sum_comp σ f]

theorem npMean_comp_perm {X : ℕ} (σ : Equiv.Perm (Fin X)) (f : Arr X) :
    npMean (fun i => f (σ i)) = npMean f := by
  simp only [npMean, npSum_comp_perm]

theorem npStd_comp_perm {X : ℕ} (σ : Equiv.Perm (Fin X)) (dd : ℝ) (f : Arr X) :
    npStd dd (fun i => f (σ i)) = npStd dd f := by
  simp only [npStd, npMean_comp_perm]
  rw [Equiv.sum_comp σ (fun i => (f i - npMean f) ^ 2)]

end Pibronic.Stats
