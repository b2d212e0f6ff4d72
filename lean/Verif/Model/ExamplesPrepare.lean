import Verif.Model.Setup

set_option autoImplicit false

/-!
Model of `automate_prepare_model` in `examples/artificial_systems/setup_models.py` and
`examples/paper_1.5025058/setup_models.py`: all data sets of all systems are prepared in one process.

Simplification: what the process meets (random matrices, the job of the iterative method, the input files) is given for
each data set.
-/
namespace Pibronic.ExamplesPrepare
open Py FileName Examples Setup
variable {α : Type}

/-- artificial_systems/setup_models.py:147-148, paper_1.5025058/setup_models.py:136-137: the systems and data sets in
the order of the two loops. -/
def targets (p : Project) : List (Str × Nat) := p.systems.flatMap fun s => s.2.map fun d => (s.1, d)

/-- artificial_systems/setup_models.py:147-149, paper_1.5025058/setup_models.py:136-138: the body of the loops for one
data set after the other. -/
def prepareEach (one : Str → Nat → Step α) : List (Str × Nat) → Step α
  | [] => fun w => (.ok (), w)
  | (name, d) :: rest => andThen (one name d) (prepareEach one rest)

/-- paper_1.5025058/setup_models.py:132-139 `automate_prepare_model`, which is all that paper_1.5025058/setup_models.py:142-143
`main` calls -/
def automatePaper [Field α] [DecidableEq α] (e : Nat → Env α) : Step α :=
  prepareEach (fun name d => preparePaperModel (e d) none name d) (targets paper)

variable [Field α] [DecidableEq α] [AllClose α]

/-- artificial_systems/setup_models.py:143-150 `automate_prepare_model`, which is all that
artificial_systems/setup_models.py:153-154 `main` calls -/
noncomputable def automateArtificial (e : Nat → Env α) : Step α :=
  prepareEach (fun name d => prepareModel (e d) none name d) (targets artificial)

end Pibronic.ExamplesPrepare
