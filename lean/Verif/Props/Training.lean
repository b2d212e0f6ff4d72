import Verif.Props.PIMC
import Verif.Model.Training

set_option autoImplicit false
set_option linter.unusedSectionVars false

/-!
Theorems about the training data: `g` and `rho` without scaling at sampled or given coordinates
(C75, C76).  `gExact`, `rhoExact`, `step`, `centre` are defined in `Spec/PIMC.lean`.
-/
namespace Pibronic.Props.Training
open Py Constants Finset Spec.PIMC Pibronic.PIMC Pibronic.Props.PIMC

section
variable {A N P : ℕ} [NeZero A] [NeZero P]

theorem couplingT_same (m : Vib A N) (R : BeadPath N P) (p : Fin P) :
    couplingT m (sameForAll R) p = coupling m R p := rfl

theorem buildOT_same (n : ℕ) (c : Consts A N) (s : Fin A → Fin N → ℝ) (R : BeadPath N P) :
    buildOT n c s (sameForAll R) = buildO n c s R := rfl

theorem gUnscaled_same (eigh : Eigh) (he : EighSpec eigh) (t : ℝ) (ht : 0 < t) (vib : Vib A N)
    (hv : ∀ i, 0 < vib.omega i) (hsym : ∀ x, (potential vib x).IsSymm) (R : BeadPath N P) :
    gUnscaled eigh t vib (sameForAll R) = .ok (gExact t vib R) := by
  have hd : diagonalizeT eigh vib.folded (sameForAll R) = diagonalize eigh vib.folded R := rfl
  unfold gUnscaled
  rw [buildOT_same, hd, buildO_vib t ht vib hv R, diagonalize_eq eigh vib hv hsym R]
  simp only [bind, Except.bind]
  rw [numerator_oVib eigh he t t vib hsym R]
  rfl

/-! ### C75 -/

/-- C75: the value that the training function stores for a sampled path is the integrand `g` at this
path, without any scaling factor. -/
theorem C75_sampled_exact (eigh : Eigh) (he : EighSpec eigh) (t : ℝ) (ht : 0 < t) (vib : Vib A N)
    (hv : ∀ i, 0 < vib.omega i) (hsym : ∀ x, (potential vib x).IsSymm) (R : BeadPath N P) :
    computeG eigh t vib R = .ok (gExact t vib R) :=
  gUnscaled_same eigh he t ht vib hv hsym R

/-- C75: if all surfaces have the same diagonal linear terms `l` then the value saved beside the
coordinates `R` is the integrand `g` at other coordinates, `R` moved by the centre of the oscillators. -/
theorem C75_common_displacement (eigh : Eigh) (he : EighSpec eigh) (t : ℝ) (ht : 0 < t)
    (vib : Vib A N) (hv : ∀ i, 0 < vib.omega i) (hsym : ∀ x, (potential vib x).IsSymm)
    (l : Fin N → ℝ) (hl : ∀ i a, vib.linear i a a = l i) (R : BeadPath N P) :
    computeGRaw eigh t vib R
      = .ok (gExact t vib fun i p => R i p - centre (l i) (vib.omega i)) := by
  have : shifted vib R = sameForAll fun i p => R i p - centre (l i) (vib.omega i) := by
    funext a i p
    simp [shifted, sameForAll, Vib.shift, centre, hl]
  unfold computeGRaw
  rw [this, gUnscaled_same eigh he t ht vib hv hsym]

/-- C75, the part that holds: without linear terms on the diagonal the saved value is `g` at the saved
coordinates.  Missing: models with linear terms on the diagonal, for which this is false
(`C75_raw_refuted`, `C75_refused`). -/
theorem C75_raw_partial (eigh : Eigh) (he : EighSpec eigh) (t : ℝ) (ht : 0 < t)
    (vib : Vib A N) (hv : ∀ i, 0 < vib.omega i) (hsym : ∀ x, (potential vib x).IsSymm)
    (hl : ∀ i a, vib.linear i a a = 0) (R : BeadPath N P) :
    computeGRaw eigh t vib R = .ok (gExact t vib R) := by
  rw [C75_common_displacement eigh he t ht vib hv hsym (fun _ => 0) hl R]
  simp [centre]

/-- C75: with symmetric energies and linear terms and no quadratic terms, training data for given
coordinates is refused exactly if the displacements of two surfaces differ along their coupling by more
than numpy's tolerance, which is relative to the coupling at the moved coordinates. -/
theorem C75_refused (eigh : Eigh) (t : ℝ) (vib : Vib A N)
    (hE : vib.energy.IsSymm) (hL : ∀ i, (vib.linear i).IsSymm) (hQ : ∀ i j, vib.quadratic i j = 0)
    (R : BeadPath N P) :
    computeGRaw eigh t vib R = .error .assertion ↔
      ∃ p a b, 1 / 10 ^ 8 + 1 / 10 ^ 5 * |vib.energy a b
          + ∑ i, vib.linear i a b * (R i p - centre (vib.linear i a a) (vib.omega i))|
        < |∑ i, vib.linear i a b * (centre (vib.linear i a a) (vib.omega i)
            - centre (vib.linear i b b) (vib.omega i))| := by
  have hbuild : ∃ o, buildOT A (vib.consts t) vib.shift (shifted vib R) = .ok o := by
    unfold buildOT
    rw [if_neg (lt_irrefl A)]
    exact ⟨_, rfl⟩
  obtain ⟨o, ho⟩ := hbuild
  have key : (∀ p a b, Py.Close ((couplingT vib.folded (shifted vib R) p).transpose a b)
        (couplingT vib.folded (shifted vib R) p a b)) ↔
      ∀ p a b, |∑ i, vib.linear i a b * (centre (vib.linear i a a) (vib.omega i)
            - centre (vib.linear i b b) (vib.omega i))| ≤ 1 / 10 ^ 8 + 1 / 10 ^ 5 * |vib.energy a b
          + ∑ i, vib.linear i a b * (R i p - centre (vib.linear i a a) (vib.omega i))| := by
    have diff : ∀ p a b, a ≠ b → couplingT vib.folded (shifted vib R) p a b
        - couplingT vib.folded (shifted vib R) p b a = -∑ i, vib.linear i a b *
          (centre (vib.linear i a a) (vib.omega i) - centre (vib.linear i b b) (vib.omega i)) := by
      intro p a b hab
      have h1 : vib.energy b a = vib.energy a b := hE.apply a b
      have h2 : ∀ i, vib.linear i b a = vib.linear i a b := fun i => (hL i).apply a b
      simp only [couplingT, Vib.folded, hQ, Matrix.zero_apply, mul_zero, zero_mul, sum_const_zero,
        zero_add, if_neg hab, if_neg (Ne.symm hab), h1, h2]
      rw [add_sub_add_right_eq_sub, ← sum_sub_distrib, ← sum_neg_distrib]
      refine sum_congr rfl fun i _ => ?_
      simp only [shifted, Vib.shift, centre]
      ring
    have value : ∀ p a b, a ≠ b → couplingT vib.folded (shifted vib R) p a b = vib.energy a b
        + ∑ i, vib.linear i a b * (R i p - centre (vib.linear i a a) (vib.omega i)) := by
      intro p a b hab
      simp only [couplingT, Vib.folded, hQ, Matrix.zero_apply, mul_zero, zero_mul, sum_const_zero,
        zero_add, if_neg hab, shifted, Vib.shift, centre]
      rw [add_comm]
    refine forall_congr' fun p => forall_congr' fun a => forall_congr' fun b => ?_
    by_cases hab : a = b
    · subst hab
      rw [Matrix.transpose_apply]
      simp only [sub_self, mul_zero, sum_const_zero, abs_zero]
      exact ⟨fun _ => by positivity, fun _ => Py.AllClose.refl _⟩
    · rw [Matrix.transpose_apply, Py.close_iff, abs_sub_comm, diff p a b hab, abs_neg, value p a b hab]
  unfold computeGRaw gUnscaled
  rw [ho]
  simp only [bind, Except.bind, diagonalizeT]
  by_cases h : ∀ p a b, Py.Close ((couplingT vib.folded (shifted vib R) p).transpose a b)
      (couplingT vib.folded (shifted vib R) p a b)
  · rw [if_pos h]
    refine ⟨fun h' => by simp at h', fun ⟨p, a, b, hab⟩ => absurd (key.mp h p a b) (not_le.mpr hab)⟩
  · rw [if_neg h]
    refine ⟨fun _ => ?_, fun _ => rfl⟩
    rw [key] at h
    push Not at h
    exact h

/-- C75: with symmetric energies and quadratic terms and no linear terms between different surfaces,
training data for given coordinates is never refused: the quadratic terms take one coordinate from
each of the two surfaces, so that the matrix stays symmetric. -/
theorem C75_quadratic_not_refused (eigh : Eigh) (t : ℝ) (vib : Vib A N) (hE : vib.energy.IsSymm)
    (hL : ∀ i a b, a ≠ b → vib.linear i a b = 0)
    (hQ : ∀ i j a b, vib.quadratic i j a b = vib.quadratic j i b a) (R : BeadPath N P) :
    ∃ g, computeGRaw eigh t vib R = .ok g := by
  have hsym : ∀ p, (couplingT vib.folded (shifted vib R) p).IsSymm := by
    intro p
    ext a b
    rw [Matrix.transpose_apply]
    by_cases hab : a = b
    · subst hab; rfl
    · have h1 : vib.energy b a = vib.energy a b := hE.apply a b
      simp only [couplingT, Vib.folded, if_neg hab, if_neg (Ne.symm hab), h1,
        hL _ _ _ hab, hL _ _ _ (Ne.symm hab), zero_mul, sum_const_zero, add_zero]
      congr 1
      rw [sum_comm]
      refine sum_congr rfl fun d _ => sum_congr rfl fun e _ => ?_
      rw [hQ e d b a]
      ring
  have hbuild : ∃ o, buildOT A (vib.consts t) vib.shift (shifted vib R) = .ok o := by
    unfold buildOT
    rw [if_neg (lt_irrefl A)]
    exact ⟨_, rfl⟩
  obtain ⟨o, ho⟩ := hbuild
  unfold computeGRaw gUnscaled
  rw [ho]
  simp only [bind, Except.bind, diagonalizeT,
    if_pos fun p a b => (by rw [(hsym p).eq]; exact Py.AllClose.refl _ :
      Py.Close ((couplingT vib.folded (shifted vib R) p).transpose a b) (couplingT vib.folded (shifted vib R) p a b))]
  exact ⟨_, rfl⟩

/-! ### C76 -/

/-- C76: for a sampling model with as many surfaces as the system, the value stored for the
coordinates `R` is made of the propagators of every surface at `R` moved by the centre of that surface
of the *system*. -/
theorem C76_value (t : ℝ) (ht : 0 < t) (vib : Vib A N) (rho : Rho A N) (hr : ∀ i, 0 < rho.omega i)
    (temp : Coords A N P) (R : BeadPath N P) :
    computeRhoRaw t vib rho temp R = .ok (∑ a, ∏ p,
      step t (rho.energy a) (fun i => rho.linear i a) rho.omega
        (fun i p => R i p - centre (vib.linear i a a) (vib.omega i)) p) := by
  unfold computeRhoRaw buildOT selectCoords
  simp only [lt_irrefl, if_false, dif_pos rfl, bind, Except.bind]
  congr 1
  simp only [denominator, Matrix.trace, Matrix.diag, Matrix.diagonal_apply_eq]
  refine sum_congr rfl fun a _ => prod_congr rfl fun p _ => ?_
  rw [if_pos a.2, Rho.oElement_eq t ht rho hr]
  rfl

/-- C76, the part that holds: if the system has no linear terms on the diagonal and the sampling model
has as many surfaces as the system, then the stored value is the sampling density at the given
coordinates, whatever was calculated before.  Missing: other systems and other sampling models, for
which this is false (`C76_refuted`, `C76_other_states_refuted`). -/
theorem C76_partial (t : ℝ) (ht : 0 < t) (vib : Vib A N) (rho : Rho A N) (hr : ∀ i, 0 < rho.omega i)
    (hl : ∀ i a, vib.linear i a a = 0) (temp : Coords A N P) (R : BeadPath N P) :
    computeRhoRaw t vib rho temp R = .ok (rhoExact t rho R) := by
  rw [C76_value t ht vib rho hr]
  simp [hl, centre, rhoExact]

/-- C76: a sampling model with fewer surfaces than the system is refused. -/
theorem C76_fewer_states {B : ℕ} (hB : B < A) (t : ℝ) (vib : Vib A N) (rho : Rho B N)
    (temp : Coords B N P) (R : BeadPath N P) :
    computeRhoRaw t vib rho temp R = .error .index := by
  unfold computeRhoRaw buildOT
  rw [if_pos hB]
  rfl

/-- C76: with more surfaces in the sampling model than in the system the stored value does not depend
on the given coordinates at all: it is made from what an earlier calculation left behind. -/
theorem C76_other_states {B : ℕ} (hB : A < B) (t : ℝ) (ht : 0 < t) (vib : Vib A N) (rho : Rho B N)
    (hr : ∀ i, 0 < rho.omega i) (temp : Coords B N P) (R : BeadPath N P) :
    computeRhoRaw t vib rho temp R = .ok (∑ a : Fin B, if a.1 < A then ∏ p,
      step t (rho.energy a) (fun i => rho.linear i a) rho.omega (temp a) p else 0) := by
  unfold computeRhoRaw buildOT selectCoords
  rw [dif_neg hB.ne', if_neg (not_lt.mpr hB.le)]
  simp only [bind, Except.bind]
  congr 1
  simp only [denominator, Matrix.trace, Matrix.diag, Matrix.diagonal_apply_eq]
  refine sum_congr rfl fun a _ => ?_
  by_cases h : a.1 < A
  · simp only [if_pos h]
    exact prod_congr rfl fun p _ => by rw [Rho.oElement_eq t ht rho hr]
  · simp only [if_neg h]
    exact prod_eq_zero (mem_univ (0 : Fin P)) rfl

end

/-! ### witnesses -/

/-- one surface and one mode of frequency 1, with a linear term -/
noncomputable def tilted : Vib 1 1 := ⟨0, fun _ => 1, fun _ => Matrix.of fun _ _ => 1, fun _ _ => 0⟩

theorem tilted_omega : ∀ i, 0 < tilted.omega i := fun _ => one_pos

theorem symm_one {N : ℕ} (m : Vib 1 N) : ∀ x, (potential m x).IsSymm := by
  intro x; ext a b
  rw [Subsingleton.elim a b]; rfl

/-- away from the centre the propagator is smaller than at the centre -/
theorem propagator_lt (t w x : ℝ) (h : 0 < t * w) (hx : x ≠ 0) :
    propagator t w x x < propagator t w 0 0 := by
  unfold propagator
  have hs : 0 < Real.sinh (t * w) := Real.sinh_pos_iff.mpr h
  refine div_lt_div_of_pos_right (Real.exp_lt_exp.mpr ?_) (Real.sqrt_pos.mpr hs)
  have hc : 1 < Real.cosh (t * w) := Real.one_lt_cosh.mpr h.ne'
  have : 0 < x ^ 2 := by positivity
  refine div_lt_div_of_pos_right ?_ (by linarith)
  nlinarith

/-- C75 is false in general: for a displaced oscillator the value saved beside the coordinates of its
centre is smaller than `g` there. -/
theorem C75_raw_refuted : ∃ (vib : Vib 1 1) (R : BeadPath 1 3), (∀ i, 0 < vib.omega i) ∧
    (∀ x, (potential vib x).IsSymm) ∧ ∀ eigh, EighSpec eigh →
      ∃ v, computeGRaw eigh 1 vib R = .ok v ∧ v < gExact 1 vib R := by
  refine ⟨tilted, fun _ _ => -1, tilted_omega, symm_one _, fun eigh he => ⟨_,
    C75_common_displacement eigh he 1 one_pos tilted tilted_omega (symm_one _) (fun _ => 1)
      (fun _ _ => rfl) _, ?_⟩⟩
  have hrem : ∀ (R : BeadPath 1 3) p, remainder tilted R p = 0 := by
    intro R p
    rw [← coupling_folded tilted (fun i => (tilted_omega i).ne')]
    ext a b
    rw [Subsingleton.elim a 0, Subsingleton.elim b 0]
    simp [coupling, Vib.folded, tilted]
  have hg : ∀ R : BeadPath 1 3, gExact 1 tilted R = ∏ p : Fin 3,
      step 1 (tilted.energy 0 0) (fun i => tilted.linear i 0 0) tilted.omega R p := by
    intro R
    unfold gExact gSplit
    simp only [hrem, smul_zero, NormedSpace.exp_zero, one_mul]
    rw [prod_diagonal, Matrix.trace_diagonal, Fin.sum_univ_one]
  rw [hg, hg]
  refine prod_lt_prod_of_nonempty (fun p _ => step_pos _ _ _ _ one_pos tilted_omega _ _)
    (fun p _ => ?_) univ_nonempty
  unfold step
  refine mul_lt_mul_of_pos_left ?_ (Real.exp_pos _)
  rw [Fin.prod_univ_one, Fin.prod_univ_one]
  have := propagator_lt 1 1 1 (by norm_num) one_ne_zero
  simpa [centre, tilted] using this

/-- C76 is false in general: for a displaced oscillator as its own sampling model, the value stored for
the coordinates of its centre is smaller than the sampling density there. -/
theorem C76_refuted : ∃ (vib : Vib 1 1) (R : BeadPath 1 3), (∀ i, 0 < vib.omega i) ∧
    ∀ temp, ∃ v, computeRhoRaw 1 vib (diagonalRho vib) temp R = .ok v ∧
      v < rhoExact 1 (diagonalRho vib) R := by
  refine ⟨tilted, fun _ _ => -1, tilted_omega, fun temp => ⟨_,
    C76_value 1 one_pos tilted (diagonalRho tilted) tilted_omega temp _, ?_⟩⟩
  unfold rhoExact
  rw [Fin.sum_univ_one, Fin.sum_univ_one]
  refine prod_lt_prod_of_nonempty (fun p _ => step_pos _ _ _ _ one_pos tilted_omega _ _)
    (fun p _ => ?_) univ_nonempty
  unfold step
  refine mul_lt_mul_of_pos_left ?_ (Real.exp_pos _)
  rw [Fin.prod_univ_one, Fin.prod_univ_one]
  have := propagator_lt 1 1 1 (by norm_num) one_ne_zero
  simpa [centre, tilted, diagonalRho] using this

/-- two surfaces without linear terms -/
noncomputable def flat : Rho 2 1 := ⟨fun _ => 0, fun _ => 1, fun _ _ => 0⟩

/-- C76 is false in general: with two surfaces in the sampling model and one in the system, the same
value is stored for two paths with different sampling densities. -/
theorem C76_other_states_refuted : ∃ (vib : Vib 1 1) (rho : Rho 2 1) (R R' : BeadPath 1 3),
    (∀ i, 0 < vib.omega i) ∧ (∀ i, 0 < rho.omega i) ∧ (∀ i a, vib.linear i a a = 0) ∧
    (∀ temp, ∃ v, computeRhoRaw 1 vib rho temp R = .ok v ∧ computeRhoRaw 1 vib rho temp R' = .ok v) ∧
    rhoExact 1 rho R < rhoExact 1 rho R' := by
  have ho : ∀ i, 0 < flat.omega i := fun _ => one_pos
  refine ⟨⟨0, fun _ => 1, fun _ => 0, fun _ _ => 0⟩, flat, fun _ _ => 1, fun _ _ => 0,
    fun _ => one_pos, ho, fun _ _ => rfl, fun temp => ⟨_,
    C76_other_states (by decide) 1 one_pos _ flat ho temp _,
    C76_other_states (by decide) 1 one_pos _ flat ho temp _⟩, ?_⟩
  unfold rhoExact
  refine sum_lt_sum_of_nonempty univ_nonempty fun a _ => ?_
  refine prod_lt_prod_of_nonempty (fun p _ => step_pos _ _ _ _ one_pos ho _ _)
    (fun p _ => ?_) univ_nonempty
  unfold step
  refine mul_lt_mul_of_pos_left ?_ (Real.exp_pos _)
  rw [Fin.prod_univ_one, Fin.prod_univ_one]
  have := propagator_lt 1 1 1 (by norm_num) one_ne_zero
  simpa [centre, flat] using this

/-! ### the hypotheses can be met -/

/-- C75: the coupled system with different displacements of `Props/PIMC.lean`, a path of four beads -/
example (R : BeadPath 2 4) : ∃ eigh : Eigh, EighSpec eigh ∧
    computeG eigh 1 demoVib R = .ok (gExact 1 demoVib R) := by
  obtain ⟨eigh, he⟩ := eigh_exists
  exact ⟨eigh, he, C75_sampled_exact eigh he 1 one_pos demoVib demoVib_omega demoVib_symm R⟩

/-- C75 (partial): coupled surfaces without linear terms on the diagonal -/
example (R : BeadPath 1 3) (eigh : Eigh) (he : EighSpec eigh) : ∃ m : Vib 2 1,
    m.linear 0 0 1 ≠ 0 ∧ computeGRaw eigh 1 m R = .ok (gExact 1 m R) := by
  refine ⟨⟨!![1, 0; 0, 2], fun _ => 1, fun _ => !![0, 1; 1, 0], fun _ _ => 0⟩, by simp,
    C75_raw_partial eigh he 1 one_pos _ (fun _ => one_pos) (fun x => ?_) (fun i a => ?_) R⟩
  · ext a b
    fin_cases a <;> fin_cases b <;> simp [potential, Matrix.transpose_apply]
  · fin_cases a <;> simp

/-- C75: a coupled model for which every request within a thousand units of length is refused -/
example (R : BeadPath 1 3) (hR : |R 0 0| ≤ 1000) (eigh : Eigh) : ∃ m : Vib 2 1, (∀ x, (potential m x).IsSymm) ∧
    computeGRaw eigh 1 m R = .error .assertion := by
  refine ⟨⟨0, fun _ => 1, fun _ => !![1, 1; 1, -1], fun _ _ => 0⟩, fun x => ?_, ?_⟩
  · ext a b
    fin_cases a <;> fin_cases b <;> simp [potential, Matrix.transpose_apply]
  · refine (C75_refused eigh 1 _ (by simp) (fun i => ?_) (fun _ _ => rfl) R).mpr ⟨0, 0, 1, ?_⟩
    · ext a b
      fin_cases a <;> fin_cases b <;> simp [Matrix.transpose_apply]
    · obtain ⟨h1, h2⟩ := abs_le.mp hR
      have h3 : |R 0 0 + 1| ≤ 1001 := abs_le.mpr ⟨by linarith, by linarith⟩
      simp [centre]
      norm_num
      linarith

end Pibronic.Props.Training
