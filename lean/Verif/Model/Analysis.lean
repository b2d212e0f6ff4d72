import Verif.Model.Stats
import Verif.Model.Results
import Verif.Model.Postprocessing
import Verif.Model.Analytic

set_option autoImplicit false

/-!
Model of the drivers of `pibronic/stats/stats.py`: `statistical_analysis_of_pimc`,
`jackknife_analysis_of_pimc` and `starmap_wrapper`.

Simplifications: a path holds an array file, a thermo file, a file of analytic results or some other
text; the numbers of an array file are exact reals or NaN, and the statistics of samples with a NaN
are not spelled out (`none`); a temperature is given in hundredths of a kelvin; the processes of the
pool are modelled by the order in which the tasks take effect (a task reads its inputs, then writes
one file; the writes are atomic).
-/
namespace Pibronic.Analysis
open Py FileName FileStructure Postprocessing

/-- The four operations (stats.py:182, 199, 271, 302). -/
inductive Op where
  | basic | alpha | basicJackknife | alphaJackknife
  deriving DecidableEq, Repr

/-- The dictionary that an operation returns. -/
inductive Stat where
  | plain (e : Stats.Estimate)
  | jackknife (o : Stats.Output)

/-- The call `statistical_operation(T, pimc_results, rhoData)` (stats.py:165) on arrays of
numbers. -/
noncomputable def Op.run (op : Op) (T : ℝ) {X : ℕ} (d : Stats.Samples X) (an : Stats.Analytic) : Stat :=
  match op with
  | .basic => .plain (Stats.basicStatisticalAnalysis T d an)
  | .alpha => .plain (Stats.alphaStatisticalAnalysis T d an)
  | .basicJackknife => .jackknife (Stats.basicJackknifeAnalysis T d an)
  | .alphaJackknife => .jackknife (Stats.alphaJackknifeAnalysis T d an)

/-- An array without NaN as a list of numbers. -/
def numbers (a : Results.Arr ℝ) : Option (List ℝ) := a.mapM id

/-- A list of `X` numbers as an array. -/
def column (X : ℕ) (l : List ℝ) : Stats.Arr X := fun i => l.getD i 0

/-- The statistics of the arrays of a result object with `X` samples; `none` if there is a NaN (or if
an array has the wrong length). -/
noncomputable def statsOf (op : Op) (T : ℝ) (X : ℕ) (rho g gP gM : Results.Arr ℝ)
    (an : Stats.Analytic) : Option Stat :=
  match numbers rho, numbers g, numbers gP, numbers gM with
  | some r, some g, some p, some m =>
    if r.length = X ∧ g.length = X ∧ p.length = X ∧ m.length = X then
      some (op.run T (⟨column X r, column X g, column X p, column X m⟩ : Stats.Samples X) an)
    else none
  | _, _, _, _ => none

/-- A thermo file (stats.py:168-179). -/
structure Thermo where
  hashVib : Str
  hashRho : Str
  values : Option Stat

/-- What a path holds. -/
inductive Content where
  | npz (f : Results.ResultFile ℝ)
  | thermo (t : Thermo)
  | analytic (c : Analytic.Contents ℝ)
  | text (s : Str)

/-- The disk, with a list of the existing files (in the order in which `glob` finds them). -/
structure Disk where
  files : Str → Option Content
  listing : List Str

/-- Write one file. -/
def Disk.write (d : Disk) (p : Str) (c : Content) : Disk :=
  { files := fun q => if q = p then some c else d.files q
    listing := if p ∈ d.listing then d.listing else d.listing ++ [p] }

/-- What `np.load` finds (other files cannot be loaded: an exception). -/
def Disk.npz (d : Disk) : Results.Disk ℝ := fun p =>
  match d.files p with
  | some (.npz f) => some f
  | _ => none

/-- What `json.loads(file.read())` of the analytic results finds. -/
def Disk.analytic (d : Disk) (p : Str) : Analytic.Contents ℝ :=
  match d.files p with
  | none => .absent
  | some (.analytic c) => c
  | some _ => .broken

/-- The files whose text is hashed. -/
def Disk.texts (d : Disk) : FileStructure.Disk where
  files := fun p => match d.files p with
    | some (.text s) => some s
    | _ => none
  dirs := []

/-- The format arguments `P=P, T=T, X=samples`. -/
def thermoArgs (P T X : Nat) : Str → Option Arg := fun name =>
  if name = c!"P" then some (.int P)
  else if name = c!"T" then some (.float T)
  else if name = c!"X" then some (.int X)
  else none

/-- stats.py:148-176 `starmap_wrapper` up to the writing: the path and the contents of the thermo
file. -/
noncomputable def analyse (setOrder : List Str → List Str) (s : FS) (op : Op) (d : Disk) (P T : Nat) :
    Except Err (Str × Thermo) := do
  let files ← pimcFilesFor s d.listing P T
  let box ← Results.loadMultiple setOrder d.npz (Results.init .pm none none) files none
  match s.hashVib, s.hashRho with
  | some hv, some hr =>
    let an ← Analytic.loadAnalytic ⟨hv, hr⟩ T (d.analytic s.pathAnalyticRho)
    let values := statsOf op (T / 100) box.samples.val box.scaledRho box.scaledG box.gofrPlus
      box.gofrMinus ⟨an.E, an.Cv, an.alphaPlus, an.alphaMinus⟩
    -- `pimc_results.samples is not 0`
    if box.samples.isZeroLit then .error .assertion
    else
      let path ← format (thermoArgs P T box.samples.val) s.templateJackknife
      .ok (path, ⟨hv, hr, values⟩)
  | _, _ => .error .attribute

/-- stats.py:148-179 `starmap_wrapper`. -/
noncomputable def starmapWrapper (setOrder : List Str → List Str) (s : FS) (op : Op) (d : Disk)
    (P T : Nat) : Except Err Disk := do
  let (path, t) ← analyse setOrder s op d P T
  .ok (d.write path (.thermo t))

/-- The tasks `ran` take effect one after the other; an exception of one does not stop the other
processes.  The exception is one of those that occurred. -/
noncomputable def runTasks (setOrder : List Str → List Str) (s : FS) (op : Op) :
    List (Nat × Nat) → Disk → Disk × Option Err
  | [], d => (d, none)
  | (P, T) :: rest, d =>
    match starmapWrapper setOrder s op d P T with
    | .ok d' => runTasks setOrder s op rest d'
    | .error e => ((runTasks setOrder s op rest d).1, some e)

/-- What `Pool.starmap` may do with `tasks`: run all of them in some order, or only some of them
if one of these raises. -/
def Scheduled (setOrder : List Str → List Str) (s : FS) (op : Op) (d : Disk)
    (tasks ran : List (Nat × Nat)) : Prop :=
  ran.Perm tasks ∨ (ran.Subperm tasks ∧ (runTasks setOrder s op ran d).2 ≠ none)

/-- A Python text object: `is` compares objects; a literal of the caller's source is the same object
as the equal literal in stats.py (both are interned), a text computed at run time is not. -/
structure PyStr where
  text : Str
  interned : Bool

/-- `x is "literal"` -/
def PyStr.isLit (x : PyStr) (lit : Str) : Bool := x.interned && x.text == lit

/-- stats.py:219-229, 336-346: the hashes, the lists of beads and temperatures, and their pairs. -/
def plan (hash : Str → Str) (s : FS) (d : Disk) : Except Err (FS × List (Nat × Nat)) := do
  let s ← s.generateModelHashes hash d.texts false
  let list := retrivePimcFileList s d.listing
  let beads ← extractBeadList list
  let temperatures ← extractTemperatureList list
  .ok (s, beads.flatMap fun P => temperatures.map fun T => (P, T))

/-- stats.py:239-246, 354-358: the operation, if the method is known. -/
def chooseOp (jackknife : Bool) (method : PyStr) : Option Op :=
  if method.isLit c!"basic" then some (if jackknife then .basicJackknife else .basic)
  else if method.isLit c!"alpha" then some (if jackknife then .alphaJackknife else .alpha)
  else none

/-- stats.py:219-268 `statistical_analysis_of_pimc` and 336-377 `jackknife_analysis_of_pimc`;
`schedule` picks what the pool does with a list of tasks. -/
noncomputable def analysisOfPimc (hash : Str → Str) (setOrder : List Str → List Str)
    (jackknife : Bool) (method location : PyStr) (schedule : List (Nat × Nat) → List (Nat × Nat))
    (s : FS) (d : Disk) : Disk × Option Err :=
  match plan hash s d with
  | .error e => (d, some e)
  | .ok (s, tasks) =>
    match chooseOp jackknife method with
    | none =>
      if jackknife = false then (d, some .exception)
      else if location.isLit c!"local" then (d, some .unbound)
      else if location.isLit c!"server" then (d, some .assertion)
      else (d, some .exception)
    | some op =>
      if location.isLit c!"local" then runTasks setOrder s op (schedule tasks) d
      else if location.isLit c!"server" then (d, some .assertion)
      else (d, some .exception)

/-- Analyses of the same FileStructure object one after the other, up to the first exception; the object
keeps the hashes.  A method is a pair: jackknife or not, `"alpha"` or `"basic"`. -/
noncomputable def analyses (hash : Str → Str) (setOrder : List Str → List Str)
    (schedule : List (Nat × Nat) → List (Nat × Nat)) : List (Bool × Bool) → FS → Disk → Disk × Option Err
  | [], _, d => (d, none)
  | (jackknife, alpha) :: rest, s, d =>
    match analysisOfPimc hash setOrder jackknife ⟨if alpha then c!"alpha" else c!"basic", true⟩
        ⟨c!"local", true⟩ schedule s d with
    | (d', some e) => (d', some e)
    | (d', none) =>
      match s.generateModelHashes hash d.texts false with
      | .ok s' => analyses hash setOrder schedule rest s' d'
      | .error e => (d', some e)

/-- stats.py:380-386 `testing_execution` (stats.py:389-396 `main` calls it for an object made from the
command line). -/
noncomputable def testingExecution (hash : Str → Str) (setOrder : List Str → List Str)
    (schedule : List (Nat × Nat) → List (Nat × Nat)) (s : FS) (d : Disk) : Disk × Option Err :=
  analyses hash setOrder schedule [(false, false), (false, true), (true, false), (true, true)] s d

end Pibronic.Analysis
