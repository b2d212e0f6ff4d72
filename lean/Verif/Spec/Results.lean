import Verif.Model.Results

set_option autoImplicit false

/-! Independent vocabulary for the theorems about result files: what a file stores, which files are
usable, and which are well formed.  Nothing here refers to the loaders. -/
namespace Pibronic.Spec.Results
open Pibronic.Py Pibronic.Results

variable {V : Type}

/-- The file has every entry the class needs. -/
def Usable (cls : Cls) (f : ResultFile V) : Prop :=
  (∃ n, f.number = some n) ∧ (∃ a, f.rho = some a) ∧ (∃ a, f.g = some a) ∧
    (cls = .pm → (∃ a, f.gP = some a) ∧ ∃ a, f.gM = some a)

/-- Its arrays have as many entries as the number of samples it states. -/
def WellFormed (f : ResultFile V) : Prop :=
  ∀ n, f.number = some n →
    (∀ a, f.rho = some a → a.length = n) ∧ (∀ a, f.g = some a → a.length = n) ∧
    (∀ a, f.gP = some a → a.length = n) ∧ (∀ a, f.gM = some a → a.length = n)

/-- The number of samples stored at a path (0 if there is none). -/
def numberAt (d : Disk V) (p : Str) : Nat := ((d p).bind (·.number)).getD 0
/-- The arrays stored at a path (empty if there is none). -/
def rhoAt (d : Disk V) (p : Str) : Arr V := ((d p).bind (·.rho)).getD []
@[inherit_doc rhoAt] def gAt (d : Disk V) (p : Str) : Arr V := ((d p).bind (·.g)).getD []
@[inherit_doc rhoAt] def gPAt (d : Disk V) (p : Str) : Arr V := ((d p).bind (·.gP)).getD []
@[inherit_doc rhoAt] def gMAt (d : Disk V) (p : Str) : Arr V := ((d p).bind (·.gM)).getD []

/-- `order` lists the usable ones among `paths`, each once. -/
def ListsUsable (d : Disk V) (cls : Cls) (paths order : List Str) : Prop :=
  order.Nodup ∧ ∀ p, p ∈ order ↔ p ∈ paths ∧ ∃ f, d p = some f ∧ Usable cls f

/-- The samples available in a list of files. -/
def total (d : Disk V) (order : List Str) : Nat := (order.map (numberAt d)).sum

/-- Reading the files one after the other, the limit `k` falls strictly inside a file that is not
the first one with samples. -/
def SplitsLaterFile (d : Disk V) (order : List Str) (k : Nat) : Prop :=
  ∃ before p after, order = before ++ p :: after ∧
    0 < total d before ∧ total d before < k ∧ k < total d before + numberAt d p

end Pibronic.Spec.Results
