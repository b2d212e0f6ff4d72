import Verif.Model.Analytic

set_option autoImplicit false

/-! Vocabulary for the theorems about the results files of the external programs. -/
namespace Pibronic.Spec.Analytic
open Pibronic.Py Pibronic.Analytic

variable {V : Type}

/-- The values that a program printed for a model text, under the names used in the results file:
the program was not killed, every non-empty line had one colon, and there was at least one line. -/
def Printed (float : Str → Except Err V) (prog : Program) (text : Str) (m : Method) (T : Nat)
    (e : Str → Option V) : Prop :=
  compute float false (prog text m T) = .ok (some e)

/-- Which stored hash speaks about the model that the method reads. -/
def hashKey : Method → Str
  | .sampling => c!"hash_rho"
  | _ => c!"hash_vib"

/-- Every temperature entry of the file was printed by the program for a model with the hash that
the file carries. -/
def Honest (hash : Str → Str) (float : Str → Except Err V) (prog : Program) (m : Method)
    (c : Contents V) : Prop :=
  ∀ d, c = .dict d → ∀ T e, d (tempStr T) = some (.entry e) →
    ∃ text, d (hashKey m) = some (.hash (hash text)) ∧ Printed float prog text m T e

/-- The FileStructure object holds the hashes of the current model files. -/
def Current (hash : Str → Str) (w : World V) : Prop := w.hashes = ⟨hash w.vib, hash w.rho⟩

/-- The states of a history. -/
def after (hash : Str → Str) (float : Str → Except Err V) (prog : Program) (w : World V)
    (es : List Event) : World V :=
  es.foldl (World.step hash float prog) w

/-- In this history the hashes are current whenever a calculation starts. -/
def CurrentAtCalculations (hash : Str → Str) (float : Str → Except Err V) (prog : Program)
    (w : World V) (es : List Event) : Prop :=
  ∀ before m T k rest, es = before ++ .calc m T k :: rest →
    Current hash (after hash float prog w before)

end Pibronic.Spec.Analytic
