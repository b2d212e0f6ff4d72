import Verif.Py.Str
import Mathlib.Data.Fin.Tuple.Basic

set_option autoImplicit false

/-!
numpy arrays as used for model parameters: `Tensor α [n₁,...,n_k]` is an array with that shape, an
`NDArray` is an array with any shape.  Entries are exact (no rounding).
-/
namespace Pibronic.Py

/-- The contents of an array of shape `s`. -/
@[reducible] def Tensor (α : Type) : List Nat → Type
  | [] => α
  | n :: s => Fin n → Tensor α s

/-- A numpy array: its shape and its contents. -/
structure NDArray (α : Type) where
  shape : List Nat
  data : Tensor α shape

variable {α : Type}

/-- `np.zeros(shape)` -/
def Tensor.zeros [Zero α] : (s : List Nat) → Tensor α s
  | [] => (0 : α)
  | _ :: s => fun _ => Tensor.zeros s

/-- `np.count_nonzero(a) > 0` -/
def Tensor.nonzero [Zero α] [DecidableEq α] : (s : List Nat) → Tensor α s → Bool
  | [], x => decide ((show α from x) ≠ 0)
  | n :: s, t => (List.finRange n).any fun i => Tensor.nonzero s (t i)

/-- A value of a JSON document, restricted to numbers and lists. -/
inductive J (α : Type) where
  | int (n : Nat)
  | num (x : α)
  | list (l : List (J α))

/-- `a.tolist()` -/
def Tensor.tolist : (s : List Nat) → Tensor α s → J α
  | [], x => .num x
  | _ :: s, t => .list (List.ofFn fun i => Tensor.tolist s (t i))

/-- View an array as an array of shape `s`. -/
def NDArray.cast? (a : NDArray α) (s : List Nat) : Option (Tensor α s) :=
  if h : a.shape = s then some (h ▸ a.data) else none

/-- Combine arrays of the same shape along a new first axis; arrays of different shapes raise
`ValueError` (`np.array` of a ragged list with `dtype=float64`). -/
def stack : List (NDArray α) → Except Err (NDArray α)
  | [] => .ok ⟨[0], fun i => i.elim0⟩
  | a :: as =>
    match (a :: as).mapM (fun b => NDArray.cast? b a.shape) with
    | none => .error .value
    | some l => .ok ⟨l.length :: a.shape, fun i => l[i]⟩

mutual
/-- `np.array(value, dtype=float64)` of a nested list of numbers. -/
def npArray [NatCast α] : J α → Except Err (NDArray α)
  | .int n => .ok ⟨[], (n : α)⟩
  | .num x => .ok ⟨[], x⟩
  | .list l => do stack (← npArrays l)
/-- `npArray` of every item. -/
def npArrays [NatCast α] : List (J α) → Except Err (List (NDArray α))
  | [] => .ok []
  | v :: l => do
    let a ← npArray v
    let as ← npArrays l
    .ok (a :: as)
end

/-- numpy's rule whether an array of shape `s` can be assigned to `target[:]` of shape `t`: trailing
axes are aligned, an axis of length one is repeated, superfluous leading axes must have length
one. -/
def bcastShapes : List Nat → List Nat → Bool
  | [], _ => true
  | n :: s, [] => n == 1 && bcastShapes s []
  | n :: s, m :: t =>
    if s.length < t.length then bcastShapes (n :: s) t
    else if t.length < s.length then n == 1 && bcastShapes s (m :: t)
    else (n == m || n == 1) && bcastShapes s t

/-- The contents of the broadcast array. -/
def bcastData : (s t : List Nat) → Tensor α s → Except Err (Tensor α t)
  | [], [], x => .ok x
  | [], _ :: t, x => do
    let y ← bcastData [] t x
    .ok fun _ => y
  | n :: s, [], x => if h : n = 1 then bcastData s [] (x ⟨0, by omega⟩) else .error .value
  | n :: s, m :: t, x =>
    if s.length < t.length then do
      let y ← bcastData (n :: s) t x
      .ok fun _ => y
    else if t.length < s.length then
      if h : n = 1 then bcastData s (m :: t) (x ⟨0, by omega⟩) else .error .value
    else if h : n = m then do
      let y ← (List.finRange m).mapM fun i => bcastData s t (x (Fin.cast h.symm i))
      if hy : y.length = m then .ok fun i => y[i] else .error .value
    else if h : n = 1 then do
      let y ← bcastData s t (x ⟨0, by omega⟩)
      .ok fun _ => y
    else .error .value

/-- `target[:] = source` for a target of shape `t`: the new contents of the target, or
`ValueError`. -/
def assignAll (source : NDArray α) (t : List Nat) : Except Err (Tensor α t) :=
  if bcastShapes source.shape t then bcastData source.shape t source.data else .error .value

/-- Apply `f` to the trailing part of an array with leading axes `ms`. -/
def Tensor.onTail {β : Type} {s t : List Nat} (f : Tensor α s → Tensor β t) :
    (ms : List Nat) → Tensor α (ms ++ s) → Tensor β (ms ++ t)
  | [], x => f x
  | _ :: ms, x => fun i => Tensor.onTail f ms (x i)

end Pibronic.Py
