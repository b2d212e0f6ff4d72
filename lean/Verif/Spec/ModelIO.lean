import Verif.Model.ModelIO
import Mathlib.LinearAlgebra.Matrix.Trace

set_option autoImplicit false

/-! Specification vocabulary for vibronic models and their files, in terms of single entries. -/
namespace Pibronic.Spec.ModelIO
open Py Pibronic.ModelIO
variable {α : Type}

/-- The entry of an array at an index; 0 outside the array. -/
def at_ [Zero α] : (s : List Nat) → Tensor α s → List Nat → α
  | [], x, [] => x
  | n :: s, t, i :: is => if h : i < n then at_ s (t ⟨i, h⟩) is else 0
  | _, _, _ => 0

/-- The value of a parameter: the entry of the array, 0 when the array is absent. -/
def entry [Zero α] (d : Dict α) (k : Key) (idx : List Nat) : α :=
  match d.arr k with
  | none => 0
  | some a => at_ a.shape a.data idx

/-- Two dictionaries describe the same model. -/
def SameModel [Zero α] (d d' : Dict α) : Prop :=
  d.A = d'.A ∧ d.N = d'.N ∧ ∀ k idx, entry d k idx = entry d' k idx

/-- The shape convention of the model files. -/
def expected : Kind → Nat → Nat → Key → List Nat
  | _, _, N, .w => [N]
  | .coupled, A, _, .E => [A, A]
  | .coupled, A, N, .G1 => [N, A, A]
  | .coupled, A, N, .G2 => [N, N, A, A]
  | .coupled, A, N, .G3 => [N, N, N, A, A]
  | .coupled, A, N, .G4 => [N, N, N, N, A, A]
  | .diagonal, A, _, .E => [A]
  | .diagonal, A, N, .G1 => [N, A]
  | .diagonal, A, N, .G2 => [N, N, A]
  | .diagonal, A, N, .G3 => [N, N, N, A]
  | .diagonal, A, N, .G4 => [N, N, N, N, A]

/-- A dictionary follows the conventions. -/
def WellFormed (kind : Kind) (d : Dict α) : Prop :=
  ∃ A N, d.A = some A ∧ d.N = some N ∧ ∀ k a, d.arr k = some a → a.shape = expected kind A N k

/-- The number of mode axes of a parameter with surface axes. -/
def order : Key → Nat
  | .E => 0
  | .w => 0
  | .G1 => 1
  | .G2 => 2
  | .G3 => 3
  | .G4 => 4

/-- The surface matrix of parameter `k` at the mode index `idx`. -/
def surfaceMatrix [Zero α] (d : Dict α) (A : Nat) (k : Key) (idx : List Nat) :
    Matrix (Fin A) (Fin A) α := fun a b => entry d k (idx ++ [a.1, b.1])

/-- All surface matrices of all parameters are symmetric. -/
def SurfaceSymmetric [Zero α] (d : Dict α) : Prop :=
  ∀ k idx a b, k ≠ .w → idx.length = order k → entry d k (idx ++ [a, b]) = entry d k (idx ++ [b, a])

/-- The quadratic terms do not change when the modes are exchanged, the quartic terms do not change
when the first two and the last two are exchanged. -/
def ModeSymmetric [Zero α] (d : Dict α) : Prop :=
  (∀ i j a b, entry d .G2 [i, j, a, b] = entry d .G2 [j, i, a, b]) ∧
  (∀ i j k l a b, entry d .G4 [i, j, k, l, a, b] = entry d .G4 [j, i, l, k, a, b])

/-! The same notions for numbers that are equal to numpy's precision. -/

/-- Two dictionaries describe the same model to numpy's precision. -/
def NearModel [Zero α] [AllClose α] (d d' : Dict α) : Prop :=
  d.A = d'.A ∧ d.N = d'.N ∧ ∀ k idx, Close (entry d k idx) (entry d' k idx)

/-- All surface matrices are symmetric to numpy's precision. -/
def SurfaceNear [Zero α] [AllClose α] (d : Dict α) : Prop :=
  ∀ k idx a b, k ≠ .w → idx.length = order k → Close (entry d k (idx ++ [a, b])) (entry d k (idx ++ [b, a]))

/-- `ModeSymmetric` to numpy's precision. -/
def ModeNear [Zero α] [AllClose α] (d : Dict α) : Prop :=
  (∀ i j a b, Close (entry d .G2 [i, j, a, b]) (entry d .G2 [j, i, a, b])) ∧
  (∀ i j k l a b, Close (entry d .G4 [i, j, k, l, a, b]) (entry d .G4 [j, i, l, k, a, b]))

/-- A matrix is the identity to numpy's precision. -/
def NearOne [Zero α] [One α] [AllClose α] {A : Nat} (M : Matrix (Fin A) (Fin A) α) : Prop :=
  ∀ a b, Close (M a b) (if a = b then 1 else 0)

theorem SurfaceSymmetric.near [Zero α] [AllClose α] {d : Dict α} (h : SurfaceSymmetric d) : SurfaceNear d :=
  fun k idx a b hk hl => by rw [h k idx a b hk hl]; exact AllClose.refl _

theorem ModeSymmetric.near [Zero α] [AllClose α] {d : Dict α} (h : ModeSymmetric d) : ModeNear d :=
  ⟨fun i j a b => by rw [h.1 i j a b]; exact AllClose.refl _,
    fun i j k l a b => by rw [h.2 i j k l a b]; exact AllClose.refl _⟩

theorem NearOne.one [Zero α] [One α] [AllClose α] {A : Nat} : NearOne (1 : Matrix (Fin A) (Fin A) α) :=
  fun a b => by rw [Matrix.one_apply]; exact AllClose.refl _

end Pibronic.Spec.ModelIO

namespace Pibronic.Spec.ModelIO
open Py Pibronic.ModelIO
variable {α : Type} [Field α]

/-- The potential of surface `a` of a diagonal model with `N` modes at the point `q` (no quadratic
terms): energy, harmonic term and linear displacement. -/
def oscillator (d : Dict α) (N : Nat) (a : Nat) (q : Fin N → α) : α :=
  entry d .E [a] + ∑ i : Fin N, (entry d .w [i.1] * q i ^ 2 / 2 + entry d .G1 [i.1, a] * q i)

/-- The potential energy matrix of a coupled model with `N` modes and `A` surfaces at the point `q`
(no quadratic terms). -/
def potentialMatrix (d : Dict α) (A N : Nat) (q : Fin N → α) : Matrix (Fin A) (Fin A) α := fun b c =>
  entry d .E [b.1, c.1] + (if b = c then ∑ i : Fin N, entry d .w [i.1] * q i ^ 2 / 2 else 0) +
    ∑ i : Fin N, entry d .G1 [i.1, b.1, c.1] * q i

end Pibronic.Spec.ModelIO
