import Verif.Py.NDArray
import Mathlib.Tactic.Cases

set_option autoImplicit false

/-! Helper lemmas about arrays. -/
namespace Pibronic.Py
variable {α : Type}

theorem Tensor.nonzero_eq_false [Zero α] [DecidableEq α] (s : List Nat) (t : Tensor α s) :
    Tensor.nonzero s t = false ↔ t = Tensor.zeros s := by
  induction s with
  | nil =>
    simp only [Tensor.nonzero, Tensor.zeros, decide_eq_false_iff_not, not_not]
  | cons n s ih =>
    simp only [Tensor.nonzero, List.any_eq_false, Bool.not_eq_true, List.mem_finRange, true_implies]
    constructor
    · intro h; funext i; exact (ih (t i)).mp (h i)
    · intro h i; rw [ih]; rw [h]; rfl

theorem Tensor.nonzero_zeros [Zero α] [DecidableEq α] (s : List Nat) :
    Tensor.nonzero s (Tensor.zeros s : Tensor α s) = false := (Tensor.nonzero_eq_false s _).mpr rfl

theorem Tensor.pos_of_nonzero [Zero α] [DecidableEq α] (s : List Nat) (t : Tensor α s)
    (h : Tensor.nonzero s t = true) : ∀ n ∈ s, 0 < n := by
  induction s with
  | nil => simp
  | cons n s ih =>
    simp only [Tensor.nonzero, List.any_eq_true, List.mem_finRange, true_and] at h
    obtain ⟨i, hi⟩ := h
    intro m hm
    rcases List.mem_cons.mp hm with rfl | hm
    · exact Fin.pos i
    · exact ih (t i) hi m hm

theorem cast?_self (a : NDArray α) : a.cast? a.shape = some a.data := by simp [NDArray.cast?]

theorem cast?_mk (s : List Nat) (t : Tensor α s) : (NDArray.mk s t).cast? s = some t :=
  cast?_self ⟨s, t⟩

theorem cast?_eq_some {a : NDArray α} {s : List Nat} {t : Tensor α s} :
    a.cast? s = some t ↔ a = ⟨s, t⟩ := by
  constructor
  · intro h
    unfold NDArray.cast? at h
    split at h
    · next hs =>
      obtain ⟨s', d⟩ := a
      subst hs
      simp only [Option.some.injEq] at h
      rw [h]
    · cases h
  · rintro rfl; exact cast?_mk s t

theorem mapM_some_of {β γ : Type} (f : β → Option γ) (g : β → γ) (l : List β)
    (h : ∀ b ∈ l, f b = some (g b)) : l.mapM f = some (l.map g) := by
  induction l with
  | nil => rfl
  | cons b l ih =>
    rw [List.mapM_cons, h b (by simp), ih (fun b hb => h b (by simp [hb]))]
    rfl

theorem stack_ofFn {n : Nat} (hn : 0 < n) (s : List Nat) (t : Fin n → Tensor α s) :
    stack (List.ofFn fun i => (⟨s, t i⟩ : NDArray α)) = .ok ⟨n :: s, t⟩ := by
  have hm : (List.ofFn fun i => (⟨s, t i⟩ : NDArray α)).mapM (fun b => NDArray.cast? b s)
      = some (List.ofFn t) := by
    have : List.ofFn (fun i => (⟨s, t i⟩ : NDArray α)) = (List.ofFn t).map (fun x => ⟨s, x⟩) := by
      rw [List.map_ofFn]; rfl
    rw [this, List.mapM_map]
    have h2 := mapM_some_of (fun x : Tensor α s => NDArray.cast? (⟨s, x⟩ : NDArray α) s) id (List.ofFn t)
      (fun x _ => cast?_mk s x)
    rw [List.map_id] at h2
    exact h2
  obtain ⟨n, rfl⟩ : ∃ m, n = m + 1 := ⟨n - 1, by omega⟩
  rw [List.ofFn_succ] at hm ⊢
  rw [stack]
  simp only at hm ⊢
  rw [hm]
  simp only [Except.ok.injEq]
  have hl : (List.ofFn t).length = n + 1 := List.length_ofFn
  have key : ∀ (l : List (Tensor α s)) (h : l.length = n + 1), l = List.ofFn t →
      (⟨l.length :: s, fun i => l[i]⟩ : NDArray α) = ⟨(n + 1) :: s, t⟩ := by
    intro l h he
    have : ∀ (m : Nat) (h : l.length = m) (u : Fin m → Tensor α s), (∀ i : Fin l.length,
        l[i] = u (Fin.cast h i)) → (⟨l.length :: s, fun i => l[i]⟩ : NDArray α) = ⟨m :: s, u⟩ := by
      intro m h u hu
      subst h
      congr 1
      funext i
      exact hu i
    refine this (n + 1) h t fun i => ?_
    subst he
    rw [Fin.getElem_fin, List.getElem_ofFn]
    rfl
  exact key _ hl rfl

theorem npArrays_ofFn [NatCast α] {n : Nat} (f : Fin n → J α) (g : Fin n → NDArray α)
    (h : ∀ i, npArray (f i) = .ok (g i)) : npArrays (List.ofFn f) = .ok (List.ofFn g) := by
  induction n with
  | zero => simp [npArrays]
  | succ n ih =>
    rw [List.ofFn_succ, List.ofFn_succ, npArrays, h 0, ih _ _ (fun i => h i.succ)]
    rfl

/-- `np.array(a.tolist())` is `a` when no axis has length zero. -/
theorem npArray_tolist [NatCast α] (s : List Nat) (t : Tensor α s) (h : ∀ n ∈ s, 0 < n) :
    npArray (Tensor.tolist s t) = .ok ⟨s, t⟩ := by
  induction s with
  | nil => rw [Tensor.tolist.eq_def, npArray.eq_def]
  | cons n s ih =>
    rw [Tensor.tolist, npArray,
      npArrays_ofFn _ (fun i => ⟨s, t i⟩) (fun i => ih (t i) (fun m hm => h m (by simp [hm])))]
    exact stack_ofFn (h n (by simp)) s t

theorem tolist_cons (n : Nat) (s : List Nat) (t : Tensor α (n :: s)) :
    ∃ l, Tensor.tolist (n :: s) t = .list l := ⟨_, by rw [Tensor.tolist]⟩

theorem bcastShapes_self (s : List Nat) : bcastShapes s s = true := by
  induction s with
  | nil => rw [bcastShapes]
  | cons n s ih => rw [bcastShapes]; simp [ih]

theorem bcastData_self (s : List Nat) (t : Tensor α s) : bcastData s s t = .ok t := by
  induction s with
  | nil => rw [bcastData]
  | cons n s ih =>
    rw [bcastData]
    simp only [lt_irrefl, if_false, dite_true, ih, Fin.cast_eq_self]
    have : ∀ l : List (Fin n), l.mapM (fun i => (Except.ok (t i) : Except Err (Tensor α s)))
        = Except.ok (l.map t) := by
      intro l
      induction l with
      | nil => rfl
      | cons a l ih => rw [List.mapM_cons, ih]; rfl
    rw [this]
    have hl : (List.map t (List.finRange n)).length = n := by
      rw [List.length_map, List.length_finRange]
    simp only [bind, Except.bind]
    rw [dif_pos hl, Except.ok.injEq]
    funext i
    rw [Fin.getElem_fin, List.getElem_map, List.getElem_finRange]
    rfl

/-- Assigning an array of the same shape copies it. -/
theorem assignAll_self (s : List Nat) (t : Tensor α s) : assignAll ⟨s, t⟩ s = .ok t := by
  rw [assignAll]; simp [bcastShapes_self, bcastData_self]

end Pibronic.Py
