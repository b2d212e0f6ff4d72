import Verif.Lemmas.Orthonormal
import Verif.Props.FakeCoupling

set_option autoImplicit false
set_option linter.unusedSectionVars false

/-!
# Tuned orthonormal matrices (C09) and the sequences behind them (C74)
-/
namespace Pibronic.Props.Orthonormal

open Pibronic.Py Pibronic.Orthonormal Pibronic.Spec.Orthonormal

theorem sksm_eq_skew (n : ℕ) : sksm n = skew n := by
  ext i j
  rw [sksm_apply]
  unfold skew
  rw [Matrix.of_apply]
  rcases lt_trichotomy i j with h | h | h
  · simp [h, ne_of_lt h]
  · subst h; simp
  · simp [h, ne_of_gt h, not_lt.mpr h.le]

theorem distance_rotation (n : ℕ) (x : ℝ) : distance n x = fromIdentity (rotation n x) := by
  rw [distance_eq, sksm_eq_skew]
  rfl

section lookup

variable {K : Type} [Field K] [LinearOrder K] [IsStrictOrderedRing K]

/-- For a proper sequence the look-up succeeds, and finds a row whose distance agrees with the wanted
one (up to the tolerance of numpy's comparison) or, failing that, the row of largest distance not
exceeding it. -/
theorem C09_entry (rows : List (K × K)) (t : K) (last : K × K) (hp : Proper rows)
    (hl : rows.getLast? = some last) (h0 : 0 ≤ t) (h1 : t ≤ 1) :
    ∃ r ∈ rows, selectPair rows t = .ok ⟨r.2, r.1⟩ ∧
      (|r.1 - last.1 * t| ≤ 1 / 10 ^ 8 + 1 / 10 ^ 5 * |last.1 * t| ∨
        r.1 ≤ last.1 * t ∧ ∀ q ∈ rows, q.1 ≤ last.1 * t → q.1 ≤ r.1) := by
  obtain ⟨hh, hs⟩ := hp
  cases rows with
  | nil => cases hh
  | cons r₀ rest =>
    simp at hh
    subst hh
    have hlast : ∀ q ∈ ((0, 0) : K × K) :: rest, q.1 ≤ last.1 := by
      intro q hq
      obtain ⟨ys, hy⟩ := List.getLast?_eq_some_iff.mp hl
      rw [hy] at hq hs
      rcases List.mem_append.mp hq with hq | hq
      · exact ((List.pairwise_append.mp hs).2.2 q hq last (by simp)).le
      · simp at hq; rw [hq]
    have hl0 : 0 ≤ last.1 := hlast (0, 0) (by simp)
    have hd : 0 ≤ last.1 * t := mul_nonneg hl0 h0
    unfold selectPair
    rw [if_pos ⟨h0, h1⟩, hl]
    simp only
    by_cases ht0 : t = 0
    · rw [if_pos ht0]
      refine ⟨(0, 0), by simp, rfl, .inr ⟨by simpa using hd, fun q hq hqd => ?_⟩⟩
      simpa [ht0] using hqd
    · rw [if_neg ht0]
      by_cases ht1 : t = 1
      · rw [if_pos ht1]
        refine ⟨last, List.mem_of_getLast? hl, rfl, .inr ⟨by simp [ht1], fun q hq _ => hlast q hq⟩⟩
      · rw [if_neg ht1]
        have htol := tol_nonneg hd
        rw [selectLoop_cons hd]
        by_cases hz : (0 : K) < last.1 * t - tol (last.1 * t)
        · rw [if_pos hz]
          have hex : ∃ r ∈ rest, last.1 * t ≤ r.1 := by
            have hle : last.1 * t ≤ last.1 := by nlinarith
            rcases List.mem_cons.mp (List.mem_of_getLast? hl) with h | h
            · exfalso
              have : last.1 = 0 := by rw [h]
              rw [this] at hz htol
              rw [zero_mul] at hz htol
              linarith
            · exact ⟨last, h, hle⟩
          exact selectLoop_found hd (0, 0) rest hd hex hs
        · rw [if_neg hz]
          have : (0 : K) ≤ last.1 * t + tol (last.1 * t) := by linarith
          rw [if_pos this]
          exact ⟨(0, 0), by simp, rfl, .inl ((isclose_iff hd).mpr ⟨le_of_not_gt hz, this⟩)⟩

/-- A larger tuning parameter never selects a row of smaller distance. -/
theorem C09_monotone (rows : List (K × K)) (t t' : K) (p p' : Pair K) (hp : Proper rows)
    (htt : t ≤ t') (h : selectPair rows t = .ok p) (h' : selectPair rows t' = .ok p') :
    p.y ≤ p'.y := by
  have hb : 0 ≤ t ∧ t ≤ 1 := by
    unfold selectPair at h
    by_contra hc
    rw [if_neg hc] at h
    cases h
  have hb' : 0 ≤ t' ∧ t' ≤ 1 := by
    unfold selectPair at h'
    by_contra hc
    rw [if_neg hc] at h'
    cases h'
  obtain ⟨hh, hs⟩ := hp
  cases rows with
  | nil => cases hh
  | cons r₀ rest =>
    simp at hh
    subst hh
    cases hl : (((0, 0) : K × K) :: rest).getLast? with
    | none => simp at hl
    | some last =>
      have hlast : ∀ q ∈ ((0, 0) : K × K) :: rest, 0 ≤ q.1 ∧ q.1 ≤ last.1 := by
        intro q hq
        constructor
        · rcases List.mem_cons.mp hq with rfl | hq
          · exact le_rfl
          · exact ((List.pairwise_cons.mp hs).1 q hq).le
        · obtain ⟨ys, hy⟩ := List.getLast?_eq_some_iff.mp hl
          rw [hy] at hq hs
          rcases List.mem_append.mp hq with hq | hq
          · exact ((List.pairwise_append.mp hs).2.2 q hq last (by simp)).le
          · simp at hq; rw [hq]
      have hl0 : 0 ≤ last.1 := (hlast (0, 0) (by simp)).2
      obtain ⟨r, hr, hr', -⟩ := C09_entry (((0, 0) : K × K) :: rest) t last ⟨rfl, hs⟩ hl hb.1 hb.2
      obtain ⟨r', hrm, hr'', -⟩ := C09_entry (((0, 0) : K × K) :: rest) t' last ⟨rfl, hs⟩ hl hb'.1 hb'.2
      have e1 : p = ⟨r.2, r.1⟩ := by rw [h] at hr'; exact Except.ok.inj hr'
      have e2 : p' = ⟨r'.2, r'.1⟩ := by rw [h'] at hr''; exact Except.ok.inj hr''
      have hpb : 0 ≤ p.y ∧ p.y ≤ last.1 := by rw [e1]; exact hlast r hr
      have hpb' : 0 ≤ p'.y ∧ p'.y ≤ last.1 := by rw [e2]; exact hlast r' hrm
      unfold selectPair at h h'
      rw [if_pos hb, hl] at h
      rw [if_pos hb', hl] at h'
      simp only at h h'
      by_cases ht0 : t = 0
      · rw [if_pos ht0] at h; cases h; exact hpb'.1
      · by_cases ht1' : t' = 1
        · have ht0' : t' ≠ 0 := by rw [ht1']; exact one_ne_zero
          rw [if_neg ht0', if_pos ht1'] at h'
          cases h'
          exact hpb.2
        · have ht1 : t ≠ 1 := fun h => ht1' (le_antisymm hb'.2 (h ▸ htt))
          have ht0' : t' ≠ 0 := fun h => ht0 (le_antisymm (h ▸ htt) hb.1)
          rw [if_neg ht0, if_neg ht1] at h
          rw [if_neg ht0', if_neg ht1'] at h'
          have hd : 0 ≤ last.1 * t := mul_nonneg hl0 hb.1
          have hd' : 0 ≤ last.1 * t' := mul_nonneg hl0 hb'.1
          have hdd : last.1 * t ≤ last.1 * t' := mul_le_mul_of_nonneg_left htt hl0
          rw [selectLoop_cons hd] at h
          rw [selectLoop_cons hd'] at h'
          have m1 := sub_tol_mono hdd
          have m2 := tol_nonneg hd
          have m3 := tol_nonneg hd'
          by_cases hz : (0 : K) < last.1 * t - tol (last.1 * t)
          · rw [if_pos hz] at h
            rw [if_pos (hz.trans_le m1)] at h'
            exact selectLoop_mono hd hdd (0, 0) rest p p' hs h h'
          · rw [if_neg hz, if_pos (by show (0 : K) ≤ _; linarith)] at h
            cases h
            exact hpb'.1

/-- Without a row at or below the wanted distance the look-up wraps around to the last row, the one
farthest from the identity: proper sequences start at distance zero for this reason. -/
theorem C09_wraps (r₀ : K × K) (rest : List (K × K)) (t : K) (last : K × K)
    (hl : (r₀ :: rest).getLast? = some last) (h0 : 0 < t) (h1 : t < 1)
    (hfar : 1 / 10 ^ 8 + 1 / 10 ^ 5 * |last.1 * t| < |r₀.1 - last.1 * t|) (habove : last.1 * t < r₀.1) :
    selectPair (r₀ :: rest) t = .ok ⟨last.2, last.1⟩ := by
  unfold selectPair
  rw [if_pos ⟨h0.le, h1.le⟩, hl]
  simp only
  rw [if_neg h0.ne', if_neg h1.ne, selectLoop, if_neg (show ¬ isclose r₀.1 (last.1 * t) from not_le.mpr hfar),
    if_pos habove]

example : Proper [((0 : ℚ), (0 : ℚ)), (1, 1 / 2), (2, 1)] :=
  ⟨rfl, by decide +kernel⟩

/-- half the largest distance is found exactly, three quarters of it fall back to the row below -/
example : selectPair [((0 : ℚ), (0 : ℚ)), (1, 1 / 2), (2, 1)] (1 / 2) = .ok ⟨1 / 2, 1⟩ ∧
    selectPair [((0 : ℚ), (0 : ℚ)), (1, 1 / 2), (2, 1)] (3 / 4) = .ok ⟨1 / 2, 1⟩ := by
  decide +kernel

/-- a sequence that starts above zero: the smallest parameters select the farthest row -/
example : selectPair [((1 : ℚ), (1 / 2 : ℚ)), (2, 1)] (1 / 100) = .ok ⟨1, 2⟩ := by decide +kernel

end lookup

/-- For every order, parameter in `[0, 1]` and proper sequence stored for that order, a matrix is
returned; it is orthonormal, and it is the rotation for one of the stored arguments. -/
theorem C09_orthonormal (files : Files) (order : ℤ) (t : ℝ) (rows : List (ℝ × ℝ)) (ho : 0 < order)
    (h0 : 0 ≤ t) (h1 : t ≤ 1) (hf : files order = some rows) (hp : Proper rows) :
    ∃ M, create files order t = .ok M ∧ M * M.transpose = 1 ∧ M.transpose * M = 1 ∧
      ∃ r ∈ rows, M = rotation order.toNat r.2 := by
  have hz : rotation order.toNat 0 = 1 := by
    unfold rotation
    rw [zero_smul, NormedSpace.exp_zero]
  have hmem0 : ((0, 0) : ℝ × ℝ) ∈ rows := List.mem_of_head? hp.1
  unfold create
  rw [if_pos ⟨h0, h1⟩]
  unfold buildSKSM
  rw [if_pos ho]
  simp only [bind, Except.bind]
  by_cases ht : t = 0
  · rw [if_pos ht]
    exact ⟨1, rfl, by simp, by simp, (0, 0), hmem0, hz.symm⟩
  · rw [if_neg ht]
    unfold loadSequence
    rw [hf]
    cases hl : rows.getLast? with
    | none => rw [List.getLast?_eq_none_iff.mp hl] at hmem0; cases hmem0
    | some last =>
      obtain ⟨r, hr, hs, -⟩ := C09_entry rows t last hp hl h0 h1
      simp only [hs]
      have ho := exp_sksm_orthonormal order.toNat r.2
      rw [if_pos (exp_sksm_close _ _)]
      refine ⟨_, rfl, ho, mul_eq_one_comm.mp ho, r, hr, ?_⟩
      unfold rotation
      rw [sksm_eq_skew]

/-- The parameter zero gives the identity, for every order, whether or not a sequence is stored. -/
theorem C09_zero (files : Files) (order : ℤ) (ho : 0 < order) : create files order 0 = .ok 1 := by
  unfold create buildSKSM
  rw [if_pos ⟨le_rfl, zero_le_one⟩, if_pos ho]
  simp [bind, Except.bind]

/-- Parameters outside `[0, 1]`, orders below one and orders without a stored sequence are rejected. -/
theorem C09_rejects (files : Files) (order : ℤ) (t : ℝ)
    (h : t < 0 ∨ 1 < t ∨ order ≤ 0 ∨ (t ≠ 0 ∧ files order = none)) :
    create files order t = .error .assertion := by
  unfold create
  by_cases hb : 0 ≤ t ∧ t ≤ 1
  · rw [if_pos hb]
    unfold buildSKSM
    by_cases ho : 0 < order
    · rw [if_pos ho]
      rcases h with h | h | h | ⟨h, hf⟩
      · linarith [hb.1]
      · linarith [hb.2]
      · omega
      · simp only [bind, Except.bind, if_neg h, loadSequence, hf]
    · rw [if_neg ho]; rfl
  · rw [if_neg hb]

/-- An empty sequence is no use. -/
theorem C09_empty (files : Files) (order : ℤ) (t : ℝ) (ho : 0 < order) (h0 : 0 < t) (h1 : t ≤ 1)
    (h : files order = some []) : create files order t = .error .index := by
  unfold create buildSKSM
  rw [if_pos ⟨h0.le, h1⟩, if_pos ho]
  simp [bind, Except.bind, h0.ne', loadSequence, h, selectPair, h0.le, h1]

/-- The search itself refuses a parameter outside the unit interval. -/
theorem C09_parameter_checked {K : Type} [Field K] [LinearOrder K] (rows : List (K × K)) (t : K) (h : t < 0 ∨ 1 < t) :
    selectPair rows t = .error .assertion := by
  unfold selectPair
  rw [if_neg]
  rintro ⟨h1, h2⟩
  rcases h with h | h
  · exact absurd h1 h.not_ge
  · exact absurd h2 h.not_ge

/-- A sequence none of whose distances reaches the one that is asked for is an error: this needs a last
row with a negative distance or a sequence that is not sorted. -/
theorem C09_no_row (files : Files) (order : ℤ) (t : ℝ) (rows : List (ℝ × ℝ)) (last : ℝ × ℝ)
    (ho : 0 < order) (h0 : 0 < t) (h1 : t < 1) (hf : files order = some rows)
    (hl : rows.getLast? = some last)
    (hb : ∀ r ∈ rows, r.1 < last.1 * t ∧
      1 / 10 ^ 8 + 1 / 10 ^ 5 * |last.1 * t| < |r.1 - last.1 * t|) :
    create files order t = .error .exception := by
  have key : ∀ (rs : List (ℝ × ℝ)) (prev : ℝ × ℝ), (∀ r ∈ rs, r.1 < last.1 * t ∧
      1 / 10 ^ 8 + 1 / 10 ^ 5 * |last.1 * t| < |r.1 - last.1 * t|) →
      selectLoop (last.1 * t) prev rs = .error .exception := by
    intro rs
    induction rs with
    | nil => intro prev _; rfl
    | cons r rs ih =>
      intro prev h
      obtain ⟨h2, h3⟩ := h r List.mem_cons_self
      rw [selectLoop, if_neg (show ¬ isclose r.1 (last.1 * t) from not_le.mpr h3), if_neg h2.not_gt]
      exact ih r fun q hq => h q (List.mem_cons_of_mem _ hq)
  unfold create buildSKSM
  rw [if_pos ⟨h0.le, h1.le⟩, if_pos ho]
  simp only [bind, Except.bind, if_neg h0.ne', loadSequence, hf, selectPair, if_pos (And.intro h0.le h1.le),
    hl, if_neg h1.ne, key rows last hb]

example (files : Files) (hf : files 2 = some [(-1, 0)]) : create files 2 (1 / 2) = .error .exception := by
  refine C09_no_row files 2 (1 / 2) _ (-1, 0) (by norm_num) (by norm_num) (by norm_num) hf rfl ?_
  intro r hr
  rw [List.mem_singleton] at hr
  subst hr
  norm_num [abs_of_neg]

/-- The larger the parameter, the farther the matrix is from the identity; the parameter one gives
the farthest of the stored rotations. -/
theorem C09_distance (files : Files) (order : ℤ) (t t' : ℝ) (rows : List (ℝ × ℝ)) (ho : 0 < order)
    (h0 : 0 ≤ t) (htt : t ≤ t') (h1 : t' ≤ 1) (hf : files order = some rows) (hp : Proper rows)
    (hr : Records order.toNat rows) :
    ∃ M M', create files order t = .ok M ∧ create files order t' = .ok M' ∧
      fromIdentity M ≤ fromIdentity M' ∧
      (t' = 1 → ∀ r ∈ rows, r.1 ≤ fromIdentity M') := by
  have key : ∀ s, 0 ≤ s → s ≤ 1 → ∃ M p, create files order s = .ok M ∧
      selectPair rows s = .ok p ∧ fromIdentity M = p.y := by
    intro s hs0 hs1
    have hmem0 : ((0, 0) : ℝ × ℝ) ∈ rows := List.mem_of_head? hp.1
    cases hl : rows.getLast? with
    | none => rw [List.getLast?_eq_none_iff.mp hl] at hmem0; cases hmem0
    | some last =>
      obtain ⟨r, hrm, hs, -⟩ := C09_entry rows s last hp hl hs0 hs1
      by_cases ht : s = 0
      · subst ht
        refine ⟨1, ⟨r.2, r.1⟩, C09_zero files order ho, hs, ?_⟩
        unfold selectPair at hs
        rw [if_pos ⟨hs0, hs1⟩, hl] at hs
        simp only [if_true] at hs
        rw [← Except.ok.inj hs, fromIdentity_one]
      · refine ⟨rotation order.toNat r.2, ⟨r.2, r.1⟩, ?_, hs, ?_⟩
        · unfold create buildSKSM
          rw [if_pos ⟨hs0, hs1⟩, if_pos ho]
          simp only [bind, Except.bind, if_neg ht, loadSequence, hf, hs]
          rw [if_pos (exp_sksm_close _ _), sksm_eq_skew]
          rfl
        · exact (hr r hrm).symm
  obtain ⟨M, p, hM, hpM, hdM⟩ := key t h0 (htt.trans h1)
  obtain ⟨M', p', hM', hpM', hdM'⟩ := key t' (h0.trans htt) h1
  refine ⟨M, M', hM, hM', ?_, ?_⟩
  · rw [hdM, hdM']
    exact C09_monotone rows t t' p p' hp htt hpM hpM'
  · rintro rfl r hrm
    rw [hdM']
    cases hl : rows.getLast? with
    | none => rw [List.getLast?_eq_none_iff.mp hl] at hrm; cases hrm
    | some last =>
      unfold selectPair at hpM'
      rw [if_pos ⟨zero_le_one, le_rfl⟩, hl] at hpM'
      simp only [one_ne_zero, if_false, if_true] at hpM'
      cases hpM'
      obtain ⟨ys, hy⟩ := List.getLast?_eq_some_iff.mp hl
      have hs := hp.2
      rw [hy] at hrm hs
      rcases List.mem_append.mp hrm with hq | hq
      · exact ((List.pairwise_append.mp hs).2.2 r hq last (by simp)).le
      · simp at hq; rw [hq]

/-! ### C05 with a tuning parameter -/

section tuned

open Pibronic.ModelIO Pibronic.Py Pibronic.Spec.ModelIO

/-- vibronic_model_io.py:796-799 and 822: the matrix made for a tuning parameter, as an array. -/
noncomputable def tuned (files : Files) (t : ℝ) (A : ℕ) : Except Err (NDArray ℝ) :=
  match create files A t with
  | .ok M => .ok ⟨[A, A], fun a b => M a b⟩
  | .error e => .error e

/-- `create_fake_coupled_model` called with a tuning parameter in `[0, 1]` succeeds for every symmetric
model with a stored proper sequence for its number of surfaces, and the model afterwards is the old one
in an orthonormal basis: every surface matrix keeps its eigenvalues. -/
theorem C05_tuned (vib orig : Str) (stored : Option (NDArray ℝ)) (disk : Disk ℝ) (files : Files) (t : ℝ)
    (v₀ : Verified ℝ .coupled) (rows : List (ℝ × ℝ)) (h₀ : load .coupled vib disk = .ok v₀)
    (hs : SurfaceSymmetric v₀.model.toDict) (hm : ModeSymmetric v₀.model.toDict) (hA : 0 < v₀.A)
    (h0 : 0 ≤ t) (h1 : t ≤ 1) (hf : files v₀.A = some rows) (hp : Proper rows) :
    ∃ ops, ∃ M : Matrix (Fin v₀.A) (Fin v₀.A) ℝ, createFake vib orig stored (.fresh (tuned files t)) disk
        = .ok (ops, ⟨[v₀.A, v₀.A], fun a b => M a b⟩) ∧
      create files v₀.A t = .ok M ∧ M * M.transpose = 1 ∧
      ∃ v₁, load .coupled vib (runOps ops disk) = .ok v₁ ∧ ∀ k idx, k ≠ .w → idx.length = order k →
        surfaceMatrix v₁.model.toDict v₀.A k idx
            = M * surfaceMatrix v₀.model.toDict v₀.A k idx * M.transpose ∧
        (surfaceMatrix v₁.model.toDict v₀.A k idx).charpoly
          = (surfaceMatrix v₀.model.toDict v₀.A k idx).charpoly := by
  obtain ⟨(M : Matrix (Fin v₀.A) (Fin v₀.A) ℝ), hM, ho, -, -⟩ := C09_orthonormal files v₀.A t rows (by exact_mod_cast hA) h0 h1 hf hp
  obtain ⟨ops, hops⟩ := Props.FakeCoupling.C05_succeeds vib orig stored disk v₀ M h₀ hs.near hm.near
    (by rw [ho]; exact NearOne.one)
  have hsame : createFake vib orig stored (.fresh (tuned files t)) disk
      = createFake vib orig stored (.given ⟨[v₀.A, v₀.A], fun a b => M a b⟩) disk := by
    unfold createFake
    cases hd : disk vib with
    | none => rfl
    | some old =>
      simp only [bind, Except.bind]
      rw [h₀]
      have e1 : chooseU v₀.A stored (.fresh (tuned files t)) = .ok (fun a b => M a b) := by
        simp only [chooseU, tuned, hM, bind, Except.bind, cast?_mk]
      have e2 : chooseU v₀.A stored (.given ⟨[v₀.A, v₀.A], fun a b => M a b⟩)
          = .ok (fun a b => M a b) := by
        simp only [chooseU, cast?_mk, bind, Except.bind]
        rw [if_pos]
        intro a b
        have h1 := congrFun (congrFun ho a) b
        exact h1 ▸ AllClose.refl _
      simp only [e1, e2]
  refine ⟨ops, M, hsame.trans hops, hM, ho, ?_⟩
  obtain ⟨M', hU, v₁, hl, -, -, -, hmat, -⟩ :=
    Props.FakeCoupling.C05_change_of_basis vib orig stored _ disk v₀ ops _ h₀ hops
  have : M = M' := by
    have h1 := eq_of_heq (NDArray.mk.inj hU).2
    ext a b
    exact congrFun (congrFun h1 a) b
  subst this
  refine ⟨v₁, hl, fun k idx hk hi => ⟨hmat k idx hk hi, ?_⟩⟩
  have ho' : M.transpose * M = 1 := mul_eq_one_comm.mp ho
  rw [hmat k idx hk hi, Matrix.charpoly_mul_comm, ← Matrix.mul_assoc, ho', Matrix.one_mul]

end tuned

/-! ### C74: the stored sequences -/

/-- A sequence generated for an order between two and fifteen (the code generates two to ten) starts
at the identity, its distances increase strictly, and every row records the distance of the rotation
for its argument.  So it satisfies what the look-up needs. -/
theorem C74_generated (n : ℕ) (rows : List (ℝ × ℝ)) (h2 : 2 ≤ n) (h15 : n ≤ 15)
    (h : generate (distance n) n 10000 = .ok rows) :
    Proper rows ∧ Records n rows ∧ 50 ≤ rows.length := by
  obtain ⟨h1, h3, h4⟩ := generate_proper h2 h15 h
  exact ⟨h1, fun r hr => by rw [h3 r hr, distance_rotation], h4⟩

/-- For matrices of order one there is nothing to rotate: the generation fails, so that no sequence is
stored and only the parameter zero is accepted. -/
theorem C74_order_one (bins : ℕ) : generate (distance 1) 1 bins = .error .index := by
  have hd : ∀ x, distance 1 x = 0 := by
    intro x
    have h := distance_sq_le 1 x
    have h0 := distance_nonneg 1 x
    norm_num at h
    exact h
  have hfold : ∀ xs : List ℝ, ∀ s : Turn, s.found = [] → s.descending = false → s.oldDistance = 0 →
      (xs.foldl (turnStep (distance 1)) s).found = [] := by
    intro xs
    induction xs with
    | nil => intro s h _ _; exact h
    | cons x xs ih =>
      intro s h1 h2 h3
      rw [List.foldl_cons]
      refine ih _ ?_ ?_ ?_ <;> simp [turnStep, hd, h1, h2, h3]
  unfold generate turningPoints
  rw [hfold _ _ rfl rfl rfl]
  rfl

/-- The generation succeeds for matrices of order two. -/
theorem C74_order_two : ∃ rows, generate (distance 2) 2 10000 = .ok rows ∧ Proper rows ∧ Records 2 rows := by
  obtain ⟨rows, h⟩ := generate_two
  obtain ⟨h1, h2, -⟩ := C74_generated 2 rows le_rfl (by norm_num) h
  exact ⟨rows, h, h1, h2⟩

/-- When no sequence is generated, the reason is told apart: turning points that do not come in pairs after
the first are an `IndexError`; when no sampled distance exceeds a quarter of the largest one, a plain
`Exception`; everything else is an `AssertionError`. -/
theorem C74_errors (dist : ℝ → ℝ) (order bins : ℕ) :
    let p := turningPoints dist (linspace 0 100 bins)
    let best := 2 * Real.sqrt order / 4
    let samples := linspace 0 (p.getLast?.getD ⟨0, 0⟩).x bins
    (p.length % 2 = 0 → generate dist order bins = .error .index) ∧
    (p.length % 2 = 1 → (∀ x ∈ samples, dist x ≤ best) → generate dist order bins = .error .exception) ∧
    (p.length % 2 = 1 → (∃ x ∈ samples, best < dist x) →
      ∀ e, generate dist order bins = .error e → e = .assertion) := by
  intro p best samples
  have hpair : ∀ n (l : List (Pair ℝ)), l.length ≤ n → (l.length % 2 = 0 → ∃ q, pairUp l = .ok q) ∧
      (l.length % 2 = 1 → pairUp l = .error .index) := by
    intro n
    induction n with
    | zero =>
      intro l hl
      rw [List.length_eq_zero_iff.1 (by omega : l.length = 0)]
      exact ⟨fun _ => ⟨_, rfl⟩, fun h => by simp at h⟩
    | succ n ih =>
      intro l hl
      match l with
      | [] => exact ⟨fun _ => ⟨_, rfl⟩, fun h => by simp at h⟩
      | [_] => exact ⟨fun h => by simp at h, fun _ => rfl⟩
      | a :: b :: rest =>
        simp only [List.length_cons] at hl ⊢
        obtain ⟨i1, i2⟩ := ih rest (by omega)
        constructor
        · intro h
          obtain ⟨q, hq⟩ := i1 (by omega)
          exact ⟨(a.x, b.x) :: q, by simp [pairUp, hq, bind, Except.bind]⟩
        · intro h
          simp [pairUp, i2 (by omega), bind, Except.bind]
  have hx : (p.length % 2 = 0 → xPairs p = .error .index) ∧
      (p.length % 2 = 1 → ∃ q, xPairs p = .ok q) := by
    cases p with
    | nil => exact ⟨fun _ => rfl, fun h => by simp at h⟩
    | cons a rest =>
      obtain ⟨i1, i2⟩ := hpair rest.length rest le_rfl
      simp only [List.length_cons]
      constructor
      · intro h
        simp [xPairs, i2 (by omega), bind, Except.bind]
      · intro h
        obtain ⟨q, hq⟩ := i1 (by omega)
        exact ⟨(0, a.x) :: q, by simp [xPairs, hq, bind, Except.bind]⟩
  have hgen : ∀ q, xPairs p = .ok q → generate dist order bins =
      (findBest dist best (((p.getLast?.getD ⟨0, 0⟩).x - 0) / (bins - 1)) samples).bind fun bestX =>
        saveSequence (prune q ((linspace 0 bestX bins).map fun x => (dist x, x))) := by
    intro q hq
    unfold generate
    simp only [bind, Except.bind]
    rw [show xPairs (turningPoints dist (linspace 0 100 bins)) = .ok q from hq]
  refine ⟨fun h => ?_, fun h hs => ?_, fun h hs e he => ?_⟩
  · unfold generate
    simp only [bind, Except.bind]
    rw [show xPairs (turningPoints dist (linspace 0 100 bins)) = .error .index from hx.1 h]
  · obtain ⟨q, hq⟩ := hx.2 h
    rw [hgen q hq]
    have : ∀ step (xs : List ℝ), (∀ x ∈ xs, dist x ≤ best) → findBest dist best step xs = .error .exception := by
      intro step xs
      induction xs with
      | nil => intro _; rfl
      | cons x xs ih =>
        intro h
        rw [findBest, if_neg (h x List.mem_cons_self).not_gt]
        exact ih fun y hy => h y (List.mem_cons_of_mem _ hy)
    rw [this _ _ hs]
    rfl
  · obtain ⟨q, hq⟩ := hx.2 h
    rw [hgen q hq] at he
    have : ∀ step (xs : List ℝ), (∃ x ∈ xs, best < dist x) →
        findBest dist best step xs = .error .assertion ∨ ∃ b, findBest dist best step xs = .ok b := by
      intro step xs
      induction xs with
      | nil => rintro ⟨x, hx, -⟩; cases hx
      | cons x xs ih =>
        rintro ⟨y, hy, hlt⟩
        rw [findBest]
        split
        · split
          · exact .inr ⟨_, rfl⟩
          · exact .inl rfl
        · next hn =>
          rcases List.mem_cons.1 hy with rfl | hy
          · exact absurd hlt hn
          · exact ih ⟨y, hy, hlt⟩
    rcases this _ _ hs with hb | ⟨b, hb⟩
    · rw [hb] at he
      cases he
      rfl
    · rw [hb] at he
      simp only [Except.bind, saveSequence] at he
      split at he
      · cases he
      · cases he; rfl

/-- two samples are not enough: there is no turning point at all -/
example : generate (fun _ => 0) 2 0 = .error .index :=
  (C74_errors (fun _ => 0) 2 0).1 (by simp [linspace, turningPoints])

/-- the hypotheses of C09 are met by the generated file for order two -/
example : ∃ files : Files, ∃ rows, files 2 = some rows ∧ Proper rows ∧ Records (2 : ℤ).toNat rows := by
  obtain ⟨rows, -, h1, h2⟩ := C74_order_two
  exact ⟨fun _ => some rows, rows, rfl, h1, h2⟩

end Pibronic.Props.Orthonormal
