import Verif.Model.FileStructure
import Mathlib.Order.Defs.LinearOrder

set_option autoImplicit false

/-!
Model of `pibronic/plotting/grid_plots.py`: figures with one square for each pair of surfaces.

Simplifications: a figure is the path it is saved under, the number shown by the colour of each square,
and the texts written on the squares (colours, ticks, titles and labels are not modelled); the set up of
matplotlib and LaTeX succeeds; `none` is NaN; the arrays of a model file have the dimensions of the
file (C01).
-/
namespace Pibronic.Grids
open Py FileStructure

variable {K : Type}

/-- A model file as loaded by grid_plots.py:34-46 `load_original_models`, `load_coupled_models`
(54-59 `load_data`): the arrays that are plotted; `none`: the key is missing. -/
structure ModelFile (K : Type) where
  A : Nat
  N : Nat
  energy : Option (Nat → Nat → Option K)
  linear : Option (Nat → Nat → Nat → Option K)
  quadratic : Option (Nat → Nat → Nat → Nat → Option K)

/-- A text at the position `(x, y)`. -/
structure Mark where
  x : Nat
  y : Nat
  text : Char
  deriving DecidableEq, Repr

/-- A saved figure: `square x y` is the number shown in column `x` and row `y`. -/
structure Grid (K : Type) where
  path : Str
  size : Nat
  square : Nat → Nat → Option K
  marks : List Mark

section
variable [LinearOrder K] [Zero K]

/-- grid_plots.py:93-99 `generate_sign_array`: the text for one entry. -/
def signMark : Option K → Char
  | none => 'y'
  | some v => if 0 < v then '+' else if v < 0 then '-' else '0'

/-- grid_plots.py:71-75, in `annotate_intensity_grid` (61-91): `ax.text(a, b, annotations[a, b])` for
all pairs of surfaces of the sampling model; `n` is the number of surfaces of the plotted model. -/
def annotate (A n : Nat) (data : Nat → Nat → Option K) : Except Err (List Mark) :=
  if A ≤ n then
    .ok ((List.range A).flatMap fun a => (List.range A).map fun b => ⟨a, b, signMark (data a b)⟩)
  else .error .index

/-- grid_plots.py:101-113 `plot_single_energy_grid`, 141-153 `plot_single_linear_grid`, 189-201
`plot_single_quadratic_grid`: `imshow(data, origin='upper')` shows `data[y, x]` at `(x, y)`.  `dims` is
the result of `extract_dimensions_of_diagonal_model` (line 63). -/
def singleGrid (dims : Except Err (Nat × Nat)) (s : FS) (n : Nat) (data : Nat → Nat → Option K)
    (filename : Str) : Except Err (Grid K) := do
  let d ← dims
  let marks ← annotate d.1 n data
  .ok ⟨join s.pathVibPlots filename, n, fun x y => data y x, marks⟩

/-- Figures are drawn and saved one after the other until one fails. -/
def saveAll : List (Except Err (Grid K)) → List (Grid K) × Option Err
  | [] => ([], none)
  | .error e :: _ => ([], some e)
  | .ok g :: rest => let r := saveAll rest; (g :: r.1, r.2)

/-- grid_plots.py:115-129 `plot_original_energy_grid`, `plot_coupled_energy_grid`; `kind` is `original`
or `coupled`. -/
def energyTask (dims : Except Err (Nat × Nat)) (s : FS) (kind : Str) (m : ModelFile K) :
    Except Err (Grid K) :=
  match m.energy with
  | none => .error .key
  | some e => singleGrid dims s m.A e (kind ++ c!"_energy_grid_D" ++ natStr s.idData ++ c!".pdf")

/-- grid_plots.py:131-139 `plot_energy`. -/
def plotEnergy (dims : Except Err (Nat × Nat)) (s : FS) (orig coup : ModelFile K) :
    List (Grid K) × Option Err :=
  saveAll [energyTask dims s c!"original" orig, energyTask dims s c!"coupled" coup]

/-- grid_plots.py:155-171 `plot_original_linear_grids`, `plot_coupled_linear_grids`: one figure for each
mode of the sampling model. -/
def linearTasks (dims : Except Err (Nat × Nat)) (s : FS) (kind : Str) (m : ModelFile K)
    (data : Nat → Nat → Nat → Option K) : List (Except Err (Grid K)) :=
  match dims with
  | .error e => [.error e]
  | .ok d => (List.range d.2).map fun j =>
    if j < m.N then singleGrid dims s m.A (data j)
      (kind ++ c!"_linear_grid_D" ++ natStr s.idData ++ c!"_N" ++ natStr (j + 1) ++ c!".pdf")
    else .error .index

/-- grid_plots.py:173-187 `plot_linear_coupling`. -/
def plotLinear (dims : Except Err (Nat × Nat)) (s : FS) (orig coup : ModelFile K) :
    List (Grid K) × Option Err :=
  match coup.linear with
  | none => ([], some .exception)
  | some c =>
    match orig.linear with
    | none => ([], some .key)
    | some o => saveAll (linearTasks dims s c!"original" orig o ++ linearTasks dims s c!"coupled" coup c)

/-- grid_plots.py:203-219 `plot_original_quadratic_grids`, `plot_coupled_quadratic_grids`. -/
def quadraticTasks (dims : Except Err (Nat × Nat)) (s : FS) (kind : Str) (m : ModelFile K)
    (data : Nat → Nat → Nat → Nat → Option K) : List (Except Err (Grid K)) :=
  match dims with
  | .error e => [.error e]
  | .ok d => (List.range d.2).flatMap fun j1 => (List.range d.2).map fun j2 =>
    if j1 < m.N ∧ j2 < m.N then singleGrid dims s m.A (data j1 j2)
      (kind ++ c!"_quadratic_grid_D" ++ natStr s.idData ++ c!"_N" ++ natStr (j1 + 1) ++ c!"_N" ++
        natStr (j2 + 1) ++ c!".pdf")
    else .error .index

/-- grid_plots.py:221-235 `plot_quadratic_coupling`. -/
def plotQuadratic (dims : Except Err (Nat × Nat)) (s : FS) (orig coup : ModelFile K) :
    List (Grid K) × Option Err :=
  match coup.quadratic, orig.quadratic with
  | some c, some o =>
    saveAll (quadraticTasks dims s c!"original" orig o ++ quadraticTasks dims s c!"coupled" coup c)
  | _, _ => ([], some .exception)

end
end Pibronic.Grids
