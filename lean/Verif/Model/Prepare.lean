import Verif.Model.ModelIO
import Verif.Model.PIMC
import Verif.Model.Results
import Mathlib.Data.Real.Basic

set_option autoImplicit false

/-!
Model of the preparation of a calculation in `pibronic/pimc/pimc.py`: a `BoxData` object, its
temperatures and the two models that are loaded from files.

Simplifications: arrays of real numbers; a file is the parsed JSON object (see `Model/ModelIO.lean`);
`np.random.choice` and the other numerical steps of `precompute` do not fail.
-/
namespace Pibronic.Prepare
open Py Pibronic.ModelIO Pibronic.PIMC

/-! ### dimensions -/

/-- vibronic_model_keys.py:39-44: `cls(key)` accepts the text of a member of the enumeration. -/
def knownKey (s : Str) : Bool := s == nameN || s == nameA || Key.all.any fun k => k.name == s

/-- `int(dictionary[key])`; the last member with a name counts (`json.loads`).  Simplification: a number
with a decimal point, which `int` would truncate, is refused like a list. -/
def lookupInt {α : Type} (f : List (Str × J α)) (name : Str) : Except Err Nat :=
  match f.reverse.find? fun m : Str × J α => m.1 == name with
  | none => .error .key
  | some (_, .int n) => .ok n
  | some (_, _) => .error .type

/-- vibronic_model_io.py:473-477, 483-484 `_extract_dimensions_from_dictionary` after the keys were
converted: `(A, N)`. -/
def dimsOf {α : Type} (f : List (Str × J α)) : Except Err (Nat × Nat) :=
  if f.all (fun m : Str × J α => knownKey m.1) then do
    let N ← lookupInt f nameN
    let A ← lookupInt f nameA
    .ok (A, N)
  else .error .value

/-- vibronic_model_io.py:480-487 `_extract_dimensions_from_file`; vibronic_model_io.py:489-498
`extract_dimensions_of_model`, vibronic_model_io.py:501-514 `extract_dimensions_of_diagonal_model` are wrappers that choose the
path. -/
def extractDims {α : Type} (path : Str) (disk : Disk α) : Except Err (Nat × Nat) :=
  match disk path with
  | none => .error .assertion
  | some f => dimsOf f

/-! ### loading the two models -/

/-- pimc.py:156-166 and 301-316: the dictionary that the models hand to the loader: zeros of the four
kinds of parameters that they use, with the dimensions `A`, `N` and arrays made for `A`, `M`. -/
noncomputable def template (kind : Kind) (A N M : Nat) : ModelIO.Dict ℝ :=
  { N := some N, A := some A
    arr := fun k => match k with
      | .G3 => none
      | .G4 => none
      | k => some ⟨shape kind A M k, Tensor.zeros _⟩ }

/-- pimc.py:118-147 `ModelClass.load_model` for a `ModelVibronic`, whose arrays exist already
(lines 161-166): the arrays of the given dimensions are overwritten from the file. -/
noncomputable def loadVib (path : Str) (A N : Nat) (disk : Disk ℝ) :
    Except Err (Σ A N : Nat, Vib A N) := do
  let v ← loadInplace .coupled path (template .coupled A N N) disk
  .ok ⟨v.A, v.N,
    { energy := fun a b => ((v.model.arr .E).getD (Tensor.zeros _)) a b
      omega := fun i => ((v.model.arr .w).getD (Tensor.zeros _)) i
      linear := fun i a b => ((v.model.arr .G1).getD (Tensor.zeros _)) i a b
      quadratic := fun i j a b => ((v.model.arr .G2).getD (Tensor.zeros _)) i j a b }⟩

/-- pimc.py:282-318 `ModelSampling.load_model`: the number of surfaces and modes are those in the file
(lines 283-287), the arrays are made with the number of modes `M` of the system (line 292, from
`param_dict`). -/
noncomputable def loadRho (path : Str) (M : Nat) (disk : Disk ℝ) :
    Except Err (Σ A N : Nat, Rho A N) := do
  let (A, N) ← extractDims path disk
  let v ← loadInplace .diagonal path (template .diagonal A N M) disk
  .ok ⟨v.A, v.N,
    { energy := fun a => ((v.model.arr .E).getD (Tensor.zeros _)) a
      omega := fun i => ((v.model.arr .w).getD (Tensor.zeros _)) i
      linear := fun i a => ((v.model.arr .G1).getD (Tensor.zeros _)) i a }⟩

/-! ### the object -/

/-- pimc.py:421-470, 682-688: the attributes of a `BoxData` (or `BoxDataPM`) object. -/
structure Data where
  states : Nat
  modes : Nat
  beads : Nat
  temperature : ℝ
  deltaBeta : ℝ
  beta : ℝ
  tau : ℝ
  betaPlus : ℝ
  betaMinus : ℝ
  tauPlus : ℝ
  tauMinus : ℝ
  pathVib : Str
  pathRho : Str
  hashVib : Option Str
  hashRho : Option Str

/-- pimc.py:421-470, 691-701: the class attributes; `BoxData()` and `BoxDataPM(delta_beta)`. -/
noncomputable def Data.new (deltaBeta : ℝ) : Data :=
  ⟨0, 0, 0, 0, deltaBeta, 0, 0, 0, 0, 0, 0, [], [], none, none⟩

/-- pimc.py:472-486 `from_FileStructure` -/
noncomputable def fromFileStructure (pathVib pathRho : Str) (deltaBeta : ℝ) (disk : Disk ℝ) :
    Except Err Data := do
  let (A, N) ← extractDims pathVib disk
  .ok { Data.new deltaBeta with pathVib := pathVib, pathRho := pathRho, states := A, modes := N }

/-- What the calculation reads from the objects made by the preparation: the time steps of the model
objects (pimc.py:154-155, 204, 257-266) and the models. -/
structure Engine where
  A : Nat
  N : Nat
  vib : Vib A N
  B : Nat
  M : Nat
  rho : Rho B M
  tau : ℝ
  tauPlus : ℝ
  tauMinus : ℝ

/-- pimc.py:647-686 `BoxData.preprocess` with the models of `BoxDataPM` (pimc.py:703-716, 246-269):
`beta` and `tau` are set, fewer than three beads are refused, the models are loaded; the model object
makes its own plus and minus time steps from `data.beta` (lines 262-266). -/
noncomputable def preprocessBase (d : Data) (disk : Disk ℝ) : Except Err (Data × Engine) := do
  let beta := Constants.beta d.temperature
  let tau := beta / d.beads
  if d.beads < 3 then .error .assertion else
  let ⟨A, N, vib⟩ ← loadVib d.pathVib d.states d.modes disk
  let ⟨B, M, rho⟩ ← loadRho d.pathRho d.modes disk
  .ok ({ d with beta := beta, tau := tau },
    ⟨A, N, vib, B, M, rho, tau, (beta + d.deltaBeta) / d.beads, (beta - d.deltaBeta) / d.beads⟩)

/-- pimc.py:718-738 `BoxDataPM.preprocess`: the object's own plus and minus values are made from the
`beta` that it has *before* the inherited method sets it. -/
noncomputable def preprocess (d : Data) (disk : Disk ℝ) : Except Err (Data × Engine) :=
  if d.beads = 0 then .error .zeroDivision else
  preprocessBase
    { d with
      betaPlus := d.beta + d.deltaBeta
      betaMinus := d.beta - d.deltaBeta
      tauPlus := (d.beta + d.deltaBeta) / d.beads
      tauMinus := (d.beta - d.deltaBeta) / d.beads } disk

/-! ### a whole calculation -/

/-- pimc.py:1465-1535 `simple_wrapper`, `plus_minus_wrapper` and any caller that does the same: a result
object is made from the prepared object and gets its directory, all blocks are computed, the results
are saved.  `T` is the temperature in hundredths. -/
def calculate {V : Type} (cls : Results.Cls) (hashVib hashRho : Option Str) (P T X B blocks : Nat)
    (root : Str) (vals : Results.BlockValues V) (disk : Results.Disk V) :
    Except Err (Results.Box V × Results.Disk V) :=
  let b : Results.Box V := Results.init cls (some ⟨P, T, X, hashVib, hashRho⟩) none
  Results.blockCompute vals X B blocks disk { b with pathRoot := some root }

end Pibronic.Prepare
