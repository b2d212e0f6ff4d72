import Verif.Model.Setup

set_option autoImplicit false

/-!
Model of `examples/artificial_systems/generate_initial_model_parameters.py`: new input models for the larger systems.

Simplifications: `np.random.uniform(lo, hi)` is `lo + (hi - lo) * u` where `u` is an arbitrary input; the keys
`quadratic_scaling` and `nonadiabatic` are left out, no line reads them.
-/
namespace Pibronic.ExamplesGenerate
open Py FileName FileStructure ModelIO Setup
variable {α : Type} [Field α] [DecidableEq α] [AllClose α]

/-- One entry of `parameters`. -/
structure GenParams (α : Type) where
  frequencyLow : α
  frequencyHigh : α
  energyLow : α
  energyHigh : α
  linearScaling : α
  states : Nat
  modes : Nat

/-- artificial_systems/generate_initial_model_parameters.py:15-38 `parameters` -/
def parameters : List (Str × GenParams α) :=
  [(c!"4x6", ⟨14 / 100, 45 / 100, 103 / 10, 109 / 10, 4 / 100, 4, 6⟩),
   (c!"7x12", ⟨10 / 100, 39 / 100, 140 / 10, 148 / 10, 4 / 100, 7, 12⟩)]

/-- `np.random.uniform(lo, hi)`, vibronic_model_io.py:336, 387 -/
def uniform (lo hi u : α) : α := lo + (hi - lo) * u

/-- vibronic_model_io.py:392 `l_shift` -/
def displacement (p : GenParams α) (i : Fin p.modes) : α :=
  p.linearScaling / linspace p.frequencyLow p.frequencyHigh p.modes i

/-- The random numbers of one call of `generate_vibronic_model_data`. -/
structure Draws (α : Type) where
  energy : Nat → Nat → α
  linear : Nat → Nat → Nat → α

/-- artificial_systems/generate_initial_model_parameters.py:41-47 `generate_input_file` with
vibronic_model_io.py:353-416 `generate_vibronic_model_data`. -/
noncomputable def generateInput (scriptDir name : Str) (u : Draws α) (disk : ModelIO.Disk α) :
    Except Err Unit × ModelIO.Disk α :=
  let path := join (join scriptDir c!"input_json") (c!"model_" ++ name ++ c!".json")
  match parameters.lookup name with
  | none => (.error .key, disk)
  | some p =>
    match generateCoupled p.states p.modes p.frequencyLow p.frequencyHigh
        (fun a b => uniform p.energyLow p.energyHigh (u.energy a.1 b.1))
        (fun i a b => uniform (-displacement p i) (displacement p i) (u.linear i.1 a.1 b.1)) with
    | .error err => (.error err, disk)
    | .ok d => save .coupled path d disk

/-- artificial_systems/generate_initial_model_parameters.py:50-53: the whole program. -/
noncomputable def generateAll (scriptDir : Str) (u : Str → Draws α) : List Str → ModelIO.Disk α →
    Except Err Unit × ModelIO.Disk α
  | [], disk => (.ok (), disk)
  | name :: rest, disk =>
    match generateInput scriptDir name (u name) disk with
    | (.error err, disk) => (.error err, disk)
    | (.ok (), disk) => generateAll scriptDir u rest disk

end Pibronic.ExamplesGenerate
