import Verif.Model.ModelIO
import Verif.Lemmas.NDArray

set_option autoImplicit false

/-! Helper lemmas for the model file theorems. -/
namespace Pibronic.ModelIO
open Py
variable {α : Type}

theorem Key.mem_all (k : Key) : k ∈ Key.all := by cases k <;> decide

theorem Key.nodup_all : Key.all.Nodup := by decide

theorem Key.name_injective {k k' : Key} (h : k.name = k'.name) : k = k' := by
  revert h; cases k <;> cases k' <;> decide

theorem Key.find_name (k : Key) : Key.all.find? (fun k' => k'.name == k.name) = some k := by
  cases k <;> decide

theorem Key.name_ne (k : Key) : k.name ≠ nameN ∧ k.name ≠ nameA := by
  cases k <;> decide

theorem shape_ne_nil (kind : Kind) (A N : Nat) (k : Key) : shape kind A N k ≠ [] := by
  cases k <;> cases kind <;> simp [shape, modes, surf]

theorem tolist_list (s : List Nat) (hs : s ≠ []) (t : Tensor α s) :
    ∃ l, Tensor.tolist s t = .list l := by
  cases s with
  | nil => exact absurd rfl hs
  | cons n s => exact tolist_cons n s t

theorem verify_toDict {kind : Kind} {A N : Nat} (m : Model α kind A N) :
    verify kind m.toDict = .ok ⟨A, N, m⟩ := by
  have h : (Key.all.all fun k => match m.toDict.arr k with
      | none => true
      | some a => decide (a.shape = shape kind A N k)) = true := by
    rw [List.all_eq_true]
    intro k _
    simp only [Model.toDict]
    cases m.arr k <;> simp
  have hv : verify kind m.toDict = if (Key.all.all fun k => match m.toDict.arr k with
      | none => true
      | some a => decide (a.shape = shape kind A N k)) = true then
        .ok ⟨A, N, ⟨fun k => (m.toDict.arr k).bind fun a => a.cast? _⟩⟩ else .error .assertion := rfl
  rw [hv, if_pos h]
  congr 2
  cases m with
  | mk arr =>
    congr 1
    funext k
    simp only [Model.toDict]
    cases arr k with
    | none => rfl
    | some t => exact cast?_mk _ t

theorem verify_ok {kind : Kind} {d : Dict α} {v : Verified α kind} (h : verify kind d = .ok v) :
    d = v.model.toDict := by
  unfold verify at h
  obtain ⟨dN, dA, arr⟩ := d
  cases dN with
  | none => cases h
  | some N =>
    cases dA with
    | none => cases h
    | some A =>
      simp only at h
      split at h
      · next hall =>
        cases h
        simp only [Model.toDict]
        congr 1
        funext k
        have hk := List.all_eq_true.mp hall k (Key.mem_all k)
        cases ha : arr k with
        | none => rfl
        | some a =>
          rw [ha] at hk
          simp only [decide_eq_true_eq] at hk
          obtain ⟨s, t⟩ := a
          simp only at hk
          subst hk
          simp [cast?_mk]
      · cases h

theorem verify_error {kind : Kind} {d : Dict α} {e : Err} (h : verify kind d = .error e) :
    e = .assertion := by
  unfold verify at h
  split at h
  · cases h; rfl
  · split at h
    · cases h; rfl
    · split at h
      · cases h
      · cases h; rfl

variable [CommRing α] [DecidableEq α]

/-- What a file keeps of a model: arrays with a non-zero entry. -/
def kept {kind : Kind} {A N : Nat} (m : Model α kind A N) : Model α kind A N :=
  ⟨fun k => (m.arr k).bind fun t => if Tensor.nonzero _ t then some t else none⟩

theorem kept_get {kind : Kind} {A N : Nat} (m : Model α kind A N) (k : Key) :
    (kept m).get k = m.get k := by
  simp only [Model.get, kept]
  cases h : m.arr k with
  | none => rfl
  | some t =>
    simp only [Option.bind_some, Option.getD_some]
    split
    · rfl
    · next hz =>
      rw [Bool.not_eq_true, Tensor.nonzero_eq_false] at hz
      rw [hz]; rfl

theorem foldlM_keys {kind : Kind} {A N : Nat} (m : Model α kind A N) (ks : List Key) (hks : ks.Nodup)
    (d : Dict α) :
    (ks.filterMap fun k => match m.toDict.arr k with
      | some a => if Tensor.nonzero a.shape a.data then
          some (k.name, Tensor.tolist a.shape a.data) else none
      | none => none).foldlM readMember d
    = .ok { d with arr := fun k => if k ∈ ks then
        (match (kept m).arr k with | some t => some ⟨_, t⟩ | none => d.arr k) else d.arr k } := by
  induction ks generalizing d with
  | nil => simp [pure, Except.pure]
  | cons k ks ih =>
    obtain ⟨hk, hks⟩ := List.nodup_cons.mp hks
    rw [List.filterMap_cons]
    cases hm : m.arr k with
    | none =>
      have : m.toDict.arr k = none := by simp [Model.toDict, hm]
      rw [this]
      simp only
      rw [ih hks d]
      congr 2
      funext k'
      by_cases h1 : k' = k
      · subst h1; simp [hk, kept, hm]
      · simp [h1]
    | some t =>
      have ht : m.toDict.arr k = some ⟨_, t⟩ := by simp [Model.toDict, hm]
      rw [ht]
      simp only
      by_cases hz : Tensor.nonzero (shape kind A N k) t = true
      · rw [if_pos hz]
        simp only [List.foldlM_cons]
        have hr : readMember d (k.name, Tensor.tolist (shape kind A N k) t) =
            .ok { d with arr := fun k' => if k' = k then some ⟨_, t⟩ else d.arr k' } := by
          obtain ⟨l, hl⟩ := tolist_list _ (shape_ne_nil kind A N k) t
          have hnp := npArray_tolist (shape kind A N k) t (Tensor.pos_of_nonzero _ t hz)
          unfold readMember
          rw [if_neg k.name_ne.1, if_neg k.name_ne.2, Key.find_name]
          rw [hl] at hnp ⊢
          simp only [hnp, bind, Except.bind]
        rw [hr]
        simp only [bind, Except.bind]
        rw [ih hks]
        congr 2
        funext k'
        by_cases h1 : k' = k
        · subst h1; simp [hk, kept, hm, hz]
        · simp [h1]
      · rw [if_neg hz]
        simp only
        rw [ih hks d]
        congr 2
        funext k'
        by_cases h1 : k' = k
        · subst h1; simp [hk, kept, hm, hz]
        · simp [h1]

theorem readFile_toFile {kind : Kind} {A N : Nat} (m : Model α kind A N) :
    readFile (toFile m.toDict) = .ok (kept m).toDict := by
  have e : toFile m.toDict = (nameN, J.int N) :: (nameA, J.int A) ::
      (Key.all.filterMap fun k => match m.toDict.arr k with
      | some a => if Tensor.nonzero a.shape a.data then
          some (k.name, Tensor.tolist a.shape a.data) else none
      | none => none) := rfl
  rw [e]; unfold readFile
  simp only [List.foldlM_cons]
  have h1 : readMember (α := α) { N := none, A := none, arr := fun _ => none } (nameN, J.int N)
      = .ok { N := some N, A := none, arr := fun _ => none } := rfl
  have h2 : readMember (α := α) { N := some N, A := none, arr := fun _ => none } (nameA, J.int A)
      = .ok { N := some N, A := some A, arr := fun _ => none } := by
    unfold readMember
    rw [if_neg (by show ¬ nameA = nameN; decide), if_pos rfl]
  rw [h1]
  simp only [bind, Except.bind]
  rw [h2]
  simp only
  rw [foldlM_keys m Key.all Key.nodup_all]
  simp only [Model.toDict]
  congr 2
  funext k
  rw [if_pos (Key.mem_all k)]
  cases (kept m).arr k <;> rfl

/-- What loading a file that holds the model `m` gives. -/
theorem loadDict_toFile {kind : Kind} {A N : Nat} (m : Model α kind A N) :
    loadDict (toFile m.toDict) = .ok (match (kept m).arr .E with
      | some _ => (kept m).toDict
      | none => { (kept m).toDict with
          arr := fun k => if k = .E then some ⟨[A, A], Tensor.zeros [A, A]⟩ else (kept m).toDict.arr k }) := by
  unfold loadDict
  rw [readFile_toFile]
  simp only [bind, Except.bind]
  cases h : (kept m).arr .E with
  | some t => 
    have : (kept m).toDict.arr .E = some ⟨_, t⟩ := by simp [Model.toDict, h]
    rw [this]
  | none =>
    have : (kept m).toDict.arr .E = none := by simp [Model.toDict, h]
    rw [this]
    rfl

end Pibronic.ModelIO
