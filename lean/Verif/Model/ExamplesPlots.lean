import Verif.Model.Examples
import Verif.Model.Grids
import Verif.Model.Plotting

set_option autoImplicit false

/-!
Model of the programs of the example projects that draw figures for every data set of a system.

Simplifications: those of `Model/Plotting.lean` and `Model/Grids.lean`; a figure is not read again by these programs and
the directories they make do not matter for each other, so every figure is drawn from the disk as it was at the
beginning; what is printed is the list of the pairs reported as finished.
-/
namespace Pibronic.ExamplesPlots
open Py FileName FileStructure Examples Plotting

/-- What the programs meet: the name of the host, absolute paths, the model files as texts, the hash function, the
results, the dimensions of the sampling model and the model files as numbers. -/
structure Site where
  host : Str
  absolute : Str → Str
  texts : FileStructure.Disk
  hash : Str → Str
  results : Plotting.Disk ℝ
  dims : FS → Except Err (Nat × Nat)
  model : Str → Except Err (Grids.ModelFile ℝ)

/-- artificial_systems/generate_z_plots.py:25-29, paper_1.5025058/generate_z_plots.py:25-29, the body of the `try`: the
figure that compares the sampling distributions 0 and `r`. -/
noncomputable def versusPair (x : Site) (root : Str) (d r : Nat) : Except Err InsetFigure := do
  let (s0, _) ← construct root (x.absolute root) d 0 false x.texts
  let (s1, _) ← construct root (x.absolute root) d r false x.texts
  let all ← initTwo x.hash x.texts x.results [s0, s1]
  match all with
  | [a, b] => do
    let l0 ← loadVersus x.results a.1 a.2.1 a.2.2
    let l1 ← loadVersus x.results b.1 b.2.1 b.2.2
    drawVersus (x.dims a.1) a.1 b.1 l0 l1
  | _ => .error .exception

/-- artificial_systems/generate_z_plots.py:22-33, paper_1.5025058/generate_z_plots.py:22-33: the loops with `try` and
`continue`: the saved figures and the pairs reported as finished. -/
noncomputable def versusLoop (x : Site) (root : Str) : List (Nat × Nat) → List InsetFigure × List (Nat × Nat)
  | [] => ([], [])
  | (d, r) :: rest =>
    let others := versusLoop x root rest
    match versusPair x root d r with
    | .ok fig => (fig :: others.1, (d, r) :: others.2)
    | .error _ => others

/-- The checks before the loops of all of these programs: the root and the pairs to visit. -/
def prepareLoop (p : Project) (x : Site) (name : Str) : Except Err (Str × List (Nat × Nat)) := do
  p.assertName name
  let root ← p.chooseRoot x.host
  let visits ← p.visits name
  .ok (root, visits)

/-- artificial_systems/generate_z_plots.py:15-34, paper_1.5025058/generate_z_plots.py:15-34
`automate_simple_z_plots` -/
noncomputable def automateVersus (p : Project) (x : Site) (name : Str) :
    (List InsetFigure × List (Nat × Nat)) × Option Err :=
  match prepareLoop p x name with
  | .error e => (([], []), some e)
  | .ok (root, visits) => (versusLoop x root visits, none)

/-- paper_1.5025058/generate_plots.py:25-28, the body of the `try`: the figures saved for a pair, and the exception. -/
noncomputable def testPair (x : Site) (root : Str) (d r : Nat) : List Figure × Option Err :=
  match (do
    let (s, _) ← construct root (x.absolute root) d r false x.texts
    let (s, paths, l) ← initOne x.hash x.texts x.results s
    let t ← loadPimcData false x.results l paths
    .ok (s, t)) with
  | .error e => ([], some e)
  | .ok (s, t) => plotTest s t

/-- paper_1.5025058/generate_plots.py:22-32: the loops. -/
noncomputable def testLoop (x : Site) (root : Str) : List (Nat × Nat) → List Figure × List (Nat × Nat)
  | [] => ([], [])
  | (d, r) :: rest =>
    let others := testLoop x root rest
    match testPair x root d r with
    | (figs, none) => (figs ++ others.1, (d, r) :: others.2)
    | (figs, some _) => (figs ++ others.1, others.2)

/-- paper_1.5025058/generate_plots.py:15-33 `automate_simple_z_plots` -/
noncomputable def automateTest (p : Project) (x : Site) (name : Str) :
    (List Figure × List (Nat × Nat)) × Option Err :=
  match prepareLoop p x name with
  | .error e => (([], []), some e)
  | .ok (root, visits) => (testLoop x root visits, none)

/-- artificial_systems/generate_energy_plots.py:22-26: the figures of one data set, and the exception. -/
noncomputable def gridSet (x : Site) (root : Str) (d : Nat) : List (Grids.Grid ℝ) × Option Err :=
  match (do
    let (s, _) ← construct root (x.absolute root) d 0 false x.texts
    let orig ← x.model s.pathOrigModel
    let coup ← x.model s.pathVibModel
    .ok (s, orig, coup)) with
  | .error e => ([], some e)
  | .ok (s, orig, coup) =>
    match Grids.plotEnergy (x.dims s) s orig coup with
    | (figs, some e) => (figs, some e)
    | (figs, none) => (figs ++ (Grids.plotLinear (x.dims s) s orig coup).1, (Grids.plotLinear (x.dims s) s orig coup).2)

/-- artificial_systems/generate_energy_plots.py:21-27: the loop, without `try`. -/
noncomputable def gridLoop (x : Site) (root : Str) : List Nat → (List (Grids.Grid ℝ) × List Nat) × Option Err
  | [] => (([], []), none)
  | d :: rest =>
    match gridSet x root d with
    | (figs, some e) => ((figs, []), some e)
    | (figs, none) =>
      let others := gridLoop x root rest
      ((figs ++ others.1.1, d :: others.1.2), others.2)

/-- artificial_systems/generate_energy_plots.py:15-28 `automate_energy_grid_plots` -/
noncomputable def automateGrids (p : Project) (x : Site) (name : Str) :
    (List (Grids.Grid ℝ) × List Nat) × Option Err :=
  match (do
    p.assertName name
    let root ← p.chooseRoot x.host
    let ids ← dictItem p.systems name
    .ok (root, ids)) with
  | .error e => (([], []), some e)
  | .ok (root, ids) => gridLoop x root ids

end Pibronic.ExamplesPlots
