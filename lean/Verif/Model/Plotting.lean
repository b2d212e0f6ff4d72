import Verif.Model.Postprocessing
import Verif.Model.Analytic
import Verif.Model.Constants

set_option autoImplicit false
set_option linter.unusedSectionVars false

/-!
Model of `pibronic/plotting/virtual.py` and `pibronic/plotting/plotting.py`: which files are read,
which numbers are computed from them and which points a saved figure shows.

Simplifications: a figure is the path it is saved under, its curves and its horizontal line (colours,
labels, titles and axes are not modelled); the set up of matplotlib and LaTeX succeeds; a temperature
is given in hundredths of a kelvin; `none` is NaN; numbers are elements of a field (numpy's division by
zero is not modelled).  The files are those of the disk at one moment: nothing writes while they are
read.  For several FileStructure objects the work is done object by object; the code loops over the
objects for each step, which differs only in which of two exceptions is raised.
-/
namespace Pibronic.Plotting
open Py FileName FileStructure Postprocessing
open Pibronic.Analytic (Contents ADict AVal getKey)

variable {K : Type}

/-- A value of a thermo file: a number or a text (the hashes). -/
inductive Val (K : Type) where
  | num (x : Option K)
  | text (s : Str)
  deriving DecidableEq

/-- The dictionary in a thermo file, as the list of its items. -/
abbrev ThermoDict (K : Type) := List (Str × Val K)

/-- `data[key]` when it is a text. -/
def textOf (d : ThermoDict K) (key : Str) : Option Str :=
  match d.find? fun p => p.1 == key with
  | some (_, .text s) => some s
  | _ => none

/-- What `prune_results_using_hashes` looks at in a thermo file (postprocessing.py:187-193).  A number
stored as hash counts as a missing hash: in both cases the file is dropped. -/
def storedHashes (d : ThermoDict K) : StoredHashes := ⟨textOf d c!"hash_vib", textOf d c!"hash_rho"⟩

/-- What the plotting classes read: the existing files, the thermo files among them, and the files with
analytic, sum over states and Trotter results. -/
structure Disk (K : Type) where
  listing : List Str
  thermo : Str → Option (ThermoDict K)
  results : Str → Contents K

/-- `with open(path, 'r') as file: data = json.loads(file.read())` for a thermo file. -/
def Disk.read (k : Disk K) (path : Str) : Except Err (ThermoDict K) :=
  match k.thermo path with
  | none => .error .os
  | some d => .ok d

/-- `pp.prune_results_using_hashes(FS, pp.retrive_jackknife_file_list(FS))`
(plotting.py:135-142, 234-240, 953-959 `generate_file_lists`). -/
def fileList (s : FS) (k : Disk K) : Except Err (List Str) :=
  pruneResultsUsingHashes s.hashVib s.hashRho (fun p => (k.read p).map storedHashes)
    (retriveJackknifeFileList s k.listing)

/-- `lst_P`, `lst_T`, `lst_X` of one FileStructure object. -/
structure Lists where
  P : List Nat
  T : List Nat
  X : List Nat
  deriving DecidableEq, Repr

/-- plotting.py:144-165, 242-265, 961-984 `generate_parameter_lists` (with
postprocessing.py:160-172, the three extractors for thermo files). -/
def generateParameterLists (paths : List Str) : Except Err Lists := do
  let p ← paths.mapM extractBead
  let t ← paths.mapM extractTemperatureThermo
  let x ← paths.mapM extractSamples
  .ok ⟨uniqueSorted p, uniqueSorted t, uniqueSorted x⟩

/-- plotting.py:186-190, 278-282, 997-1001: the names of the fields of one entry of the array. -/
def fields : List Str :=
  [c!"Z", c!"Z error", c!"E", c!"E error", c!"Cv", c!"Cv error", c!"jk_E", c!"jk_E error", c!"jk_Cv",
   c!"jk_Cv error"]

/-- The value of each field; `none` is NaN. -/
abbrev Cell (K : Type) := Str → Option K

/-- `self.arr` with the lists that describe its axes: the entry at three indices. -/
structure Table (K : Type) where
  lists : Lists
  cell : Nat → Nat → Nat → Cell K

/-- `np.full(dims, np.nan, dtype=dicttype)` -/
def emptyTable (l : Lists) : Table K := ⟨l, fun _ _ _ _ => none⟩

/-- `self.arr[i, j, k] = c` -/
def Table.put (t : Table K) (i j k : Nat) (c : Cell K) : Table K :=
  { t with cell := fun i' j' k' => if i' = i ∧ j' = j ∧ k' = k then c else t.cell i' j' k' }

/-- `list.index(n)` -/
def index (l : List Nat) (n : Nat) : Except Err Nat :=
  if n ∈ l then .ok (l.idxOf n) else .error .value

/-- plotting.py:219-221, 300-302, 1019-1021: the fields of an entry are overwritten by the items of
the dictionary, except for the hashes; an unknown name or a text is a `ValueError`. -/
def setFields (c : Cell K) : ThermoDict K → Except Err (Cell K)
  | [] => .ok c
  | (key, v) :: rest =>
    if key = c!"hash_vib" ∨ key = c!"hash_rho" then setFields c rest
    else if key ∉ fields then .error .value
    else match v with
      | .num x => setFields (fun f => if f = key then x else c f) rest
      | .text _ => .error .value

/-- The body of the loop of plotting.py:203-221, 286-302, 1005-1021.  `skip`: a number of beads that
is not in the list is skipped (only in 208-209). -/
def place (skip : Bool) (k : Disk K) (t : Table K) (path : Str) : Except Err (Table K) := do
  let P ← extractBead path
  let T ← extractTemperatureThermo path
  let X ← extractSamples path
  if skip && !t.lists.P.contains P then .ok t
  else
    let iP ← index t.lists.P P
    let iT ← index t.lists.T T
    let iX ← index t.lists.X X
    let d ← k.read path
    let c ← setFields (t.cell iP iT iX) d
    .ok (t.put iP iT iX c)

/-- plotting.py:176-222 `load_pimc_data` (several objects; plotting.py:224-227 `load_data`),
plotting.py:272-302 `load_pimc_data` (one object), plotting.py:991-1022 `load_data` of `plot_Z_test`. -/
def loadPimcData (skip : Bool) (k : Disk K) (l : Lists) (paths : List Str) : Except Err (Table K) :=
  paths.foldlM (place skip k) (emptyTable l)

/-! ### The exact results -/

/-- `with open(path, 'r') as file: data = json.loads(file.read())` for a file of results. -/
def parse : Contents K → Except Err (ADict K)
  | .absent => .error .os
  | .short => .error .value
  | .broken => .error .value
  | .dict d => .ok d

/-- `for T in lst: out[f"{T:.2f}"] = data[f"{T:.2f}"]` -/
def pick (data : ADict K) (out : ADict K) : List Nat → Except Err (ADict K)
  | [] => .ok out
  | T :: rest =>
    match data (tempStr T) with
    | none => .error .key
    | some v => pick data (out.set (tempStr T) v) rest

/-- plotting.py:23-38 `load_analytical_original`, plotting.py:41-56 `load_analytical_sampling`,
plotting.py:304-323 `load_analytical_data`, for one FileStructure object: the results at the listed temperatures.  The
stored hashes are not looked at. -/
def loadAnalytical (c : Contents K) (l : Lists) : Except Err (ADict K) := do
  let data ← parse c
  pick data (fun _ => none) l.T

/-- `d[f"{T:.2f}"][key]` -/
def getEntry (d : ADict K) (T : Nat) (key : Str) : Except Err K :=
  match d (tempStr T) with
  | none => .error .key
  | some (.hash _) => .error .type
  | some (.entry e) => getKey e key

/-- plotting.py:69-71: the variable `data` after one object (`none`: unbound). -/
def sosData (data : Option (ADict K)) : Contents K → Except Err (Option (ADict K))
  | .absent => .ok data
  | c => (parse c).map some

/-- plotting.py:73-74: the results at the listed temperatures. -/
def sosEntry (data : Option (ADict K)) (Ts : List Nat) : Except Err (ADict K) :=
  match data with
  | none => match Ts with
    | [] => .ok (fun _ => none)
    | _ :: _ => .error .unbound
  | some d => pick d (fun _ => none) Ts

/-- plotting.py:59-76 `load_sos`: a missing file is skipped, and the variable `data` then still holds
the results of the previous object (it is unbound for the first one). -/
def loadSos : Option (ADict K) → List (Contents K × Lists) → Except Err (List (ADict K))
  | _, [] => .ok []
  | data, (c, l) :: rest => do
    let data ← sosData data c
    let out ← sosEntry data l.T
    let others ← loadSos data rest
    .ok (out :: others)

/-- plotting.py:91 `trotter_key_list` -/
def trotterKeys : List Str := [c!"Z_trotter", c!"E_trotter", c!"SvN_trotter", c!"S2_trotter"]

/-- plotting.py:98-116: the value of one key for one number of beads; every exception is caught and
gives NaN.  `path` is the result of `template_trotter_vib.format(...)`. -/
def trotterValue (k : Disk K) (path : Str) (T : Nat) (key : Str) : Option K :=
  match parse (k.results path) with
  | .error _ => none
  | .ok d =>
    match d (tempStr T) with
    | some (.entry e) => e key
    | _ => none

/-- plotting.py:79-120 `load_trotter_coupled` for one FileStructure object: for every temperature and
key the array over the numbers of beads. -/
def loadTrotter (s : FS) (k : Disk K) (l : Lists) (B : Nat) :
    Except Err (List (Str × List (Str × List (Option K)))) :=
  l.T.mapM fun T => do
    let paths ← l.P.mapM fun P => (Analytic.Method.trotter P B).dst s
    .ok (tempStr T, trotterKeys.map fun key => (key, paths.map fun p => trotterValue k p T key))

/-! ### The numbers that are shown -/

section arithmetic
variable [Field K]

/-- `self.arr[:, idx_T, :]["Z"] *= z; self.arr[:, idx_T, :]["Z error"] *= z` -/
def Table.scale (t : Table K) (iT : Nat) (z : K) : Table K :=
  { t with cell := fun i j k f =>
      if j = iT ∧ (f = c!"Z" ∨ f = c!"Z error") then (t.cell i j k f).map (· * z) else t.cell i j k f }

/-- plotting.py:338-342, 475-480: the percent error and its error bar in the entries selected by
`sel`. -/
def Table.percent (t : Table K) (sel : Nat → Nat → Bool) (exact : K) : Table K :=
  { t with cell := fun i j k f =>
      if sel j k then
        if f = c!"Z" then (t.cell i j k f).map fun z => (z - exact) * 100 / exact
        else if f = c!"Z error" then (t.cell i j k f).map fun z => z * 100 / exact
        else t.cell i j k f
      else t.cell i j k f }

/-- plotting.py:327-331, 453-458, 664-669: multiply by the partition function of the sampling model. -/
def scaleAll (rho : ADict K) (t : Table K) : Except Err (Table K) :=
  t.lists.T.foldlM (fun (t : Table K) (T : Nat) => do
    let z ← getEntry rho T c!"Z_sampling"
    let i ← index t.lists.T T
    .ok (t.scale i z)) t

/-- plotting.py:336-342: the percent error, temperature by temperature. -/
def percentAll (orig : ADict K) (t : Table K) : Except Err (Table K) :=
  t.lists.T.foldlM (fun (t : Table K) (T : Nat) => do
    let i ← index t.lists.T T
    let e ← getEntry orig T c!"Z_coupled"
    .ok (t.percent (fun j _ => j == i) e)) t

/-- plotting.py:466-480: the percent error, for every number of samples and every temperature. -/
def percentEach (orig : ADict K) (t : Table K) : Except Err (Table K) :=
  t.lists.X.foldlM (fun (t : Table K) (X : Nat) => do
    let iX ← index t.lists.X X
    t.lists.T.foldlM (fun (t : Table K) (T : Nat) => do
      let i ← index t.lists.T T
      let e ← getEntry orig T c!"Z_coupled"
      .ok (t.percent (fun j k => j == i && k == iX) e)) t) t

/-- What `load_data` of `plot_original_Z_test` and of `plot_original_Z_vs_diagonal_test` keeps of one
FileStructure object. -/
structure Loaded (K : Type) where
  table : Table K
  orig : ADict K

/-- plotting.py:267-270, 986-989 `__init__` (virtual.py:43-60) of the classes for one FileStructure object:
the hashes (file_structure.py:231-240), the files and the lists. -/
def initOne (hash : Str → Str) (texts : FileStructure.Disk) (k : Disk K) (s : FS) :
    Except Err (FS × List Str × Lists) := do
  let s ← s.generateModelHashes hash texts false
  let paths ← fileList s k
  let l ← generateParameterLists paths
  .ok (s, paths, l)

/-- plotting.py:345-350 `load_data` of `plot_original_Z_test` with plotting.py:325-343 `prepare_data`. -/
def loadOriginal (k : Disk K) (s : FS) (paths : List Str) (l : Lists) : Except Err (Loaded K) := do
  let t ← loadPimcData false k l paths
  let orig ← loadAnalytical (k.results s.pathAnalyticOrig) l
  let rho ← loadAnalytical (k.results s.pathAnalyticRho) l
  let t ← scaleAll rho t
  let t ← percentAll orig t
  .ok ⟨t, orig⟩

/-- plotting.py:167-174 `__init__` of `plot_Z_multiple_FS`. -/
def initMany (hash : Str → Str) (texts : FileStructure.Disk) (k : Disk K) (ss : List FS) :
    Except Err (List (FS × List Str × Lists)) := do
  let all ← ss.mapM (initOne hash texts k)
  if all.all fun a => a.2.1.isEmpty then .error .exception else .ok all

/-- plotting.py:440-443 `__init__` of `plot_original_Z_vs_diagonal_test` (and plotting.py:656-659, of
`plot_sos_Z_vs_rho_n`). -/
def initTwo (hash : Str → Str) (texts : FileStructure.Disk) (k : Disk K) (ss : List FS) :
    Except Err (List (FS × List Str × Lists)) :=
  if ss.length = 2 then initMany hash texts k ss else .error .assertion

/-- plotting.py:483-488 `load_data` of `plot_original_Z_vs_diagonal_test` with
plotting.py:445-481, for one of the objects. -/
def loadVersus (k : Disk K) (s : FS) (paths : List Str) (l : Lists) : Except Err (Loaded K) := do
  let t ← loadPimcData true k l paths
  let orig ← loadAnalytical (k.results s.pathAnalyticOrig) l
  let rho ← loadAnalytical (k.results s.pathAnalyticRho) l
  let t ← scaleAll rho t
  let t ← percentEach orig t
  .ok ⟨t, orig⟩

/-- plotting.py:694-699 `load_data` of `plot_sos_Z_vs_rho_n` with plotting.py:661-692 `prepare_data`: the
attribute `sos_params` is never set, so that `plot_Z` (lines 701-854), which reads it
too, cannot be reached with data and is not modelled. -/
def loadSosVersus (B : Nat) (k : Disk K) (all : List (FS × List Str × Lists)) :
    Except Err (List (Table K)) := do
  let ts ← all.mapM fun a => loadPimcData true k a.2.2 a.2.1
  let cs ← all.mapM fun a => do
    let p ← (Analytic.Method.sos B).dst a.1
    .ok (k.results p, a.2.2)
  let _ ← loadSos none cs
  let rhos ← all.mapM fun a => loadAnalytical (k.results a.1.pathAnalyticRho) a.2.2
  let ts ← (ts.zip rhos).mapM fun p => scaleAll p.2 p.1
  if ts.any fun t => !t.lists.X.isEmpty && !t.lists.T.isEmpty then .error .attribute else .ok ts

/-- plotting.py:918-925 `load_data` of `plot_rectangle` with plotting.py:875-916 `prepare_data`: a float has no
`view`.  The figure itself (lines 935-947) is an empty function. -/
def loadRectangle (B : Nat) (k : Disk K) (all : List (FS × List Str × Lists)) :
    Except Err (List (Table K)) := do
  let ts ← all.mapM fun a => loadPimcData true k a.2.2 a.2.1
  let cs ← all.mapM fun a => do
    let p ← (Analytic.Method.sos B).dst a.1
    .ok (k.results p, a.2.2)
  let _ ← loadSos none cs
  let _ ← all.mapM fun a => loadTrotter a.1 k a.2.2 B
  let rhos ← all.mapM fun a => loadAnalytical (k.results a.1.pathAnalyticRho) a.2.2
  (ts.zip rhos).mapM fun p =>
    match p.1.lists.T with
    | [] => .ok p.1
    | T :: _ => do
      let _ ← getEntry p.2 T c!"Z_sampling"
      .error .attribute

end arithmetic

/-! ### The figures -/

/-- plotting.py:124-129, 353-358, 491-496, 928-933 `generate_tau_values`. -/
noncomputable def tauValues (l : Lists) (T : Nat) : List ℝ :=
  l.P.map fun (P : Nat) => Constants.beta ((T : ℝ) / 100) / (P : ℝ)

/-- One call of `errorbar`: the temperature and the number of samples in its label, and the points. -/
structure Curve where
  T : Nat
  X : Nat
  x : List ℝ
  y : List (Option ℝ)
  yerr : List (Option ℝ)

/-- A saved figure; `line` is the height of the horizontal line. -/
structure Figure where
  path : Str
  curves : List Curve
  line : Option ℝ

/-- `self.arr[:, idx_T, idx_X][field]` -/
def Table.column {K : Type} (t : Table K) (iT iX : Nat) (f : Str) : List (Option K) :=
  (List.range t.lists.P.length).map fun i => t.cell i iT iX f

/-- The arguments of `errorbar` for one temperature and number of samples. -/
noncomputable def curve (t : Table ℝ) (T X iT iX : Nat) (f : Str) : Curve :=
  ⟨T, X, tauValues t.lists T, t.column iT iX f, t.column iT iX (f ++ c!" error")⟩

/-- The curves of one temperature, one for each number of samples (plotting.py:371-380, 1037-1046). -/
noncomputable def curvesAt (t : Table ℝ) (T iT : Nat) (f : Str) : Except Err (List Curve) :=
  t.lists.X.mapM fun X => do
    let iX ← index t.lists.X X
    -- `ax` is one object, which was put into a list only if there is one temperature
    if t.lists.T.length = 1 then .ok (curve t T X iT iX f) else .error .type

/-- plotting.py:1024-1055 `plot_Z`, plotting.py:1057-1088 `plot_E`, plotting.py:1090-1121 `plot_Cv`
of `plot_Z_test`; `hasTau` is false in `plot_Cv`, which calls a method the class does not have. -/
noncomputable def drawTest (s : FS) (t : Table ℝ) (f : Str) (hasTau : Bool) : Except Err Figure := do
  let cs ← t.lists.T.mapM fun T => do
    let iT ← index t.lists.T T
    if hasTau = false then .error .attribute else curvesAt t T iT f
  let name := f ++ c!"_D" ++ natStr s.idData ++ c!"_R" ++ natStr s.idRho ++ c!".pdf"
  .ok ⟨join s.pathRhoPlots name, cs.flatten, none⟩

/-- plotting.py:1123-1133 `plot` of `plot_Z_test`: the figures that were saved, and the exception. -/
noncomputable def plotTest (s : FS) (t : Table ℝ) : List Figure × Option Err :=
  match drawTest s t c!"Z" true with
  | .error e => ([], some e)
  | .ok z =>
    match drawTest s t c!"E" true with
    | .error e => ([z], some e)
    | .ok en =>
      match drawTest s t c!"Cv" false with
      | .error e => ([z, en], some e)
      | .ok cv => ([z, en, cv], none)

/-- plotting.py:360-421 `plot_Z` (plotting.py:423-432 `plot`) of `plot_original_Z_test`; `dims` is the result of
`extract_dimensions_of_diagonal_model`. -/
noncomputable def drawOriginal (dims : Except Err (Nat × Nat)) (s : FS) (d : Loaded ℝ) :
    Except Err Figure := do
  let t := d.table
  let cs ← t.lists.T.mapM fun T => do
    let iT ← index t.lists.T T
    let cs ← curvesAt t T iT c!"Z"
    let _ ← getEntry d.orig T c!"Z_coupled"
    .ok cs
  -- `ax[0]`
  if t.lists.T.length = 1 then
    let _ ← dims
    let name := c!"Z_orig_D" ++ natStr s.idData ++ c!"_R" ++ natStr s.idRho ++ c!".pdf"
    .ok ⟨join s.pathRhoPlots name, cs.flatten, some 0⟩
  else .error .type

/-- plotting.py:513-537: the curve of one object and temperature, for the largest number of samples.
There are labels for five values of `id_rho` only. -/
noncomputable def versusCurve (s : FS) (d : Loaded ℝ) (T : Nat) : Except Err Curve := do
  let t := d.table
  let iT ← index t.lists.T T
  match t.lists.X.getLast? with
  | none => .error .index
  | some X =>
    let iX ← index t.lists.X X
    if s.idRho ≤ 4 then
      -- `ax` has one element
      if iT = 0 then
        let _ ← getEntry d.orig T c!"Z_coupled"
        .ok (curve t T X iT iX c!"Z")
      else .error .index
    else .error .key

/-- plotting.py:560-581, 583-593: the point of one object in the inset: the last number of beads, the
first temperature, the largest number of samples; its abscissa is that of 300 K. -/
noncomputable def insetCurve (d : Loaded ℝ) : Except Err Curve :=
  let t := d.table
  match t.lists.P.getLast?, t.lists.T, t.lists.X.getLast? with
  | some P, _ :: _, some X =>
    let iP := t.lists.P.length - 1
    let iX := t.lists.X.length - 1
    .ok ⟨30000, X, [Constants.beta ((30000 : ℕ) / 100) / (P : ℝ)], [t.cell iP 0 iX c!"Z"],
      [t.cell iP 0 iX c!"Z error"]⟩
  | _, _, _ => .error .index

/-- A figure with an inset (plotting.py:539-602). -/
structure InsetFigure extends Figure where
  inset : Option (List Curve)

/-- plotting.py:539-602: the inset, drawn for data sets from 10 on. -/
noncomputable def drawInset (s : FS) (d d' : Loaded ℝ) : Except Err (Option (List Curve)) :=
  if s.idData ≥ 10 then do
    let a ← insetCurve d
    let b ← insetCurve d'
    let _ ← getEntry d.orig 30000 c!"Z_coupled"
    .ok (some [a, b])
  else .ok none

/-- plotting.py:498-639 `plot_Z` (plotting.py:641-650 `plot`) of `plot_original_Z_vs_diagonal_test`. -/
noncomputable def drawVersus (dims : Except Err (Nat × Nat)) (s s' : FS) (d d' : Loaded ℝ) :
    Except Err InsetFigure := do
  let cs ← d.table.lists.T.mapM (versusCurve s d)
  let cs' ← d'.table.lists.T.mapM (versusCurve s' d')
  let inset ← drawInset s d d'
  let _ ← dims
  let name := c!"Z_orig_D" ++ natStr s.idData ++ c!"_R" ++ natStr s.idRho ++ c!"_R" ++ natStr s'.idRho
    ++ c!".pdf"
  .ok ⟨⟨join s.pathVibPlots name, cs ++ cs', some 0⟩, inset⟩

end Pibronic.Plotting
