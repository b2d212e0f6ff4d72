import Verif.Model.OpFile
import Mathlib.Tactic.Ring
import Mathlib.Tactic.LinearCombination
import Mathlib.Data.List.Basic
import Mathlib.Data.List.Pairwise
import Mathlib.Algebra.CharZero.Defs
import Mathlib.Data.List.Range

set_option autoImplicit false
set_option linter.unusedSectionVars false

/-! The arrays of an operator file: what the two loops do to them. -/
namespace Pibronic.OpFile
open Py ModelIO

variable {K : Type} [Field K]

/-- A block of surfaces with its mirror image in the modes. -/
def whole (g : Arr K) (a b : Nat) (i : List Nat) : K := g i a b + mirror (fun i => g i a b) i

theorem symStep_other (g : Arr K) (p : Nat × Nat) (i : List Nat) (a b : Nat) (h : (a, b) ≠ p) :
    symStep g p i a b = g i a b := by
  have : ¬ (a = p.1 ∧ b = p.2) := fun h' => h (Prod.ext h'.1 h'.2)
  simp [symStep, Arr.setBlock, this]

theorem symStep_offdiag (g : Arr K) (i : List Nat) (a b : Nat) (h : a ≠ b) :
    symStep g (a, b) i a b = whole g a b i + g i b a := by
  have : ¬ (b = a ∧ a = b) := fun h' => h h'.2
  simp [symStep, Arr.setBlock, whole, this]

theorem symStep_diag (g : Arr K) (i : List Nat) (a : Nat) :
    symStep g (a, a) i a a = whole g a a i + whole g a a i := by
  simp [symStep, Arr.setBlock, whole]

theorem foldl_other (ps : List (Nat × Nat)) (g : Arr K) (a b : Nat) (h : (a, b) ∉ ps) (i : List Nat) :
    ps.foldl symStep g i a b = g i a b := by
  induction ps generalizing g with
  | nil => rfl
  | cons p ps ih =>
    simp only [List.mem_cons, not_or] at h
    rw [List.foldl_cons, ih _ h.2, symStep_other _ _ _ _ _ h.1]

theorem whole_congr {g g' : Arr K} {a b : Nat} (h : ∀ i, g i a b = g' i a b) : whole g a b = whole g' a b := by
  funext i
  have : (fun i => g i a b) = fun i => g' i a b := funext h
  simp only [whole, h, this]

/-- The order in which `itertools.product` visits the pairs. -/
def Before (p q : Nat × Nat) : Prop := p.1 < q.1 ∨ p.1 = q.1 ∧ p.2 < q.2

theorem pairs_sorted (A : Nat) : (pairs A).Pairwise Before := by
  have key : ∀ l : List Nat, l.Pairwise (· < ·) →
      (l.flatMap fun a => (List.range A).map fun b => (a, b)).Pairwise Before := by
    intro l
    induction l with
    | nil => intro _; exact List.Pairwise.nil
    | cons a l ih =>
      intro h
      rw [List.pairwise_cons] at h
      rw [List.flatMap_cons, List.pairwise_append]
      refine ⟨?_, ih h.2, ?_⟩
      · rw [List.pairwise_map]
        exact (List.pairwise_lt_range).imp fun hx => Or.inr ⟨rfl, hx⟩
      · intro x hx y hy
        simp only [List.mem_map] at hx
        simp only [List.mem_flatMap, List.mem_map] at hy
        obtain ⟨b, _, rfl⟩ := hx
        obtain ⟨c, hc, d, _, rfl⟩ := hy
        exact Or.inl (h.1 c hc)
  exact key _ List.pairwise_lt_range

theorem mem_pairs {A a b : Nat} : (a, b) ∈ pairs A ↔ a < A ∧ b < A := by
  simp [pairs]

theorem Before.irrefl (p : Nat × Nat) : ¬ Before p p := by
  rintro (h | h) <;> omega

/-- The list of pairs around one of them. -/
theorem pairs_split {A a b : Nat} (ha : a < A) (hb : b < A) :
    ∃ P R, pairs A = P ++ (a, b) :: R ∧ (∀ p ∈ P, Before p (a, b)) ∧ (∀ p ∈ R, Before (a, b) p) := by
  obtain ⟨P, R, h⟩ := List.append_of_mem (mem_pairs.mpr ⟨ha, hb⟩)
  have hs := pairs_sorted A
  rw [h, List.pairwise_append, List.pairwise_cons] at hs
  exact ⟨P, R, h, fun p hp => hs.2.2 p hp _ (by simp), fun p hp => hs.2.1.1 p hp⟩

theorem sym_diag (g : Arr K) {A a : Nat} (ha : a < A) (i : List Nat) :
    (pairs A).foldl symStep g i a a = whole g a a i + whole g a a i := by
  obtain ⟨P, R, h, hP, hR⟩ := pairs_split ha ha
  have h1 : (a, a) ∉ P := fun hp => Before.irrefl _ (hP _ hp)
  have h2 : (a, a) ∉ R := fun hp => Before.irrefl _ (hR _ hp)
  rw [h, List.foldl_append, List.foldl_cons, foldl_other _ _ _ _ h2, symStep_diag,
    whole_congr (fun i => foldl_other P g a a h1 i)]

theorem sym_lt (g : Arr K) {A a b : Nat} (hab : a < b) (hb : b < A) (i : List Nat) :
    (pairs A).foldl symStep g i a b = whole g a b i + g i b a := by
  obtain ⟨P, R, h, hP, hR⟩ := pairs_split (hab.trans hb) hb
  have h1 : (a, b) ∉ P := fun hp => Before.irrefl _ (hP _ hp)
  have h2 : (a, b) ∉ R := fun hp => Before.irrefl _ (hR _ hp)
  have h3 : (b, a) ∉ P := by
    intro hp
    rcases hP _ hp with hx | hx <;> simp only at hx <;> omega
  rw [h, List.foldl_append, List.foldl_cons, foldl_other _ _ _ _ h2,
    symStep_offdiag _ _ _ _ hab.ne, whole_congr (fun i => foldl_other P g a b h1 i),
    foldl_other P g b a h3]

theorem sym_gt (g : Arr K) {A a b : Nat} (hab : a < b) (hb : b < A) (i : List Nat) :
    (pairs A).foldl symStep g i b a = whole g b a i + (whole g a b i + g i b a) := by
  obtain ⟨P, R, h, hP, hR⟩ := pairs_split hb (hab.trans hb)
  have h1 : (b, a) ∉ P := fun hp => Before.irrefl _ (hP _ hp)
  have h2 : (b, a) ∉ R := fun hp => Before.irrefl _ (hR _ hp)
  have h3 : (a, b) ∉ R := by
    intro hp
    rcases hR _ hp with hx | hx <;> simp only at hx <;> omega
  have h4 : P.foldl symStep g i a b = whole g a b i + g i b a := by
    rw [← sym_lt g hab hb i, h, List.foldl_append, List.foldl_cons, foldl_other _ _ _ _ h3,
      symStep_other _ _ _ _ _ (by simp [hab.ne])]
  rw [h, List.foldl_append, List.foldl_cons, foldl_other _ _ _ _ h2,
    symStep_offdiag _ _ _ _ hab.ne', whole_congr (fun i => foldl_other P g b a h1 i), h4]

/-! ### the division -/

theorem halve_self (g : Arr K) (a b : Nat) (i : List Nat) : halve a b g i a b = g i a b / 2 := by
  simp [halve, Arr.setBlock]

theorem halve_other (g : Arr K) (a b c d : Nat) (h : ¬ (c = a ∧ d = b)) (i : List Nat) :
    halve a b g i c d = g i c d := by
  simp [halve, Arr.setBlock, h]

theorem halves (f : Nat → Nat) (l : List Nat) (hl : l.Nodup) (g : Arr K) (i : List Nat) (a b : Nat) :
    l.foldl (fun g a => halve a (f a) g) g i a b = if a ∈ l ∧ b = f a then g i a b / 2 else g i a b := by
  induction l generalizing g with
  | nil => simp
  | cons c l ih =>
    rw [List.nodup_cons] at hl
    rw [List.foldl_cons, ih hl.2]
    by_cases hc : a = c
    · subst hc
      by_cases hb : b = f a
      · subst hb; simp [hl.1, halve_self]
      · simp [hb, halve_other]
    · rw [halve_other _ _ _ _ _ (fun h => hc h.1)]
      simp [hc]

theorem fixLinear_apply (A : Nat) (g : Arr K) (i : List Nat) (a b : Nat) :
    fixLinear A g i a b = if a < A ∧ b = a then (g i a b + g i b a) / 2 else g i a b + g i b a := by
  unfold fixLinear
  rw [halves (fun a => a) _ List.nodup_range]
  simp

theorem fixHigher_apply (A : Nat) (g : Arr K) (i : List Nat) (a b : Nat) :
    fixHigher A g i a b = if a < A ∧ b = A - 1 then (pairs A).foldl symStep g i a b / 2
      else (pairs A).foldl symStep g i a b := by
  unfold fixHigher
  rw [halves (fun _ => A - 1) _ List.nodup_range]
  simp

theorem mem_modeTuples {N r : Nat} {i : List Nat} :
    i ∈ modeTuples N r ↔ i.length = r ∧ ∀ j ∈ i, j < N := by
  induction r generalizing i with
  | zero => simp only [modeTuples, List.mem_singleton, List.length_eq_zero_iff]; constructor <;> (intro h; simp_all)
  | succ r ih =>
    cases i with
    | nil => simp [modeTuples]
    | cons j i =>
      simp only [modeTuples, List.mem_flatMap, List.mem_range, List.mem_map, List.cons.injEq,
        List.length_cons, List.mem_cons, forall_eq_or_imp, Nat.add_right_cancel_iff]
      constructor
      · rintro ⟨k, hk, x, hx, rfl, rfl⟩
        exact ⟨(ih.mp hx).1, hk, (ih.mp hx).2⟩
      · rintro ⟨h1, h2, h3⟩
        exact ⟨j, h2, i, ih.mpr ⟨h1, h3⟩, rfl, rfl⟩

end Pibronic.OpFile
