import Verif.Model.Analysis
import Verif.Model.Plotting
import Verif.Lemmas.JsonDefault

set_option autoImplicit false

/-!
The text of thermo files: what `starmap_wrapper` of `pibronic/stats/stats.py` writes and what
`prune_results_using_hashes` and the plotting classes read.  `Model/Analysis.lean` and
`Model/Plotting.lean` take the contents of a thermo file as parsed; here they are computed from the
text, and a crash may leave a part of it.
-/
namespace Pibronic.ThermoText
open Py Analysis FileStructure Postprocessing
open Plotting (ThermoDict Val Lists)

/-- How floats are written and read: `float.__repr__` of the float nearest to a number, and
`float(token)` (`none`: NaN). -/
structure Floats where
  repr : ℝ → Str
  number : Str → Option ℝ
  tok : ∀ x, FloatTok (repr x)

/-- stats.py:119-122: the items of `return_dictionary`. -/
def estimateItems (fl : Floats) (e : Stats.Estimate) : List (Str × Json) :=
  [(c!"Z", .float (fl.repr e.Z)), (c!"Z error", .float (fl.repr e.Zerr)),
   (c!"E", .float (fl.repr e.E)), (c!"E error", .float (fl.repr e.Eerr)),
   (c!"Cv", .float (fl.repr e.Cv)), (c!"Cv error", .float (fl.repr e.Cverr))]

/-- jackknife.py:102-105: the items of `return_dictionary`. -/
def jkItems (fl : Floats) (e : Stats.JkEstimate) : List (Str × Json) :=
  [(c!"E", .float (fl.repr e.E)), (c!"E error", .float (fl.repr e.Eerr)),
   (c!"Cv", .float (fl.repr e.Cv)), (c!"Cv error", .float (fl.repr e.Cverr))]

/-- The items of `output_dict` (stats.py:294-299, 328-333 rename those of the jackknife). -/
def statItems (fl : Floats) : Stat → List (Str × Json)
  | .plain e => estimateItems fl e
  | .jackknife o => estimateItems fl o.basic ++ (jkItems fl o.jk).map fun p => (c!"jk_" ++ p.1, p.2)

/-- stats.py:168-179: the hashes are added and the dictionary goes through `json.dumps`. -/
def thermoText (fl : Floats) (hv hr : Str) (st : Stat) : Str :=
  dumpsDefault (.dict (statItems fl st ++ [(c!"hash_vib", .str hv), (c!"hash_rho", .str hr)]))

/-- The existing files and their texts. -/
structure TextDisk where
  listing : List Str
  files : Str → Option Str

/-- stats.py:178-179: `open(path, mode='w')` and `write`. -/
def TextDisk.write (d : TextDisk) (p text : Str) : TextDisk :=
  { files := fun q => if q = p then some text else d.files q
    listing := if p ∈ d.listing then d.listing else d.listing ++ [p] }

/-- A value of a thermo file, as numpy stores it in a field (`null` becomes NaN).  Simplification: lists and
dictionaries are treated as an empty text, which no field accepts. -/
def valOf (fl : Floats) : Json → Val ℝ
  | .int z => .num (some z)
  | .float t => .num (fl.number t)
  | .str s => .text s
  | .bool b => .num (some (if b then 1 else 0))
  | .null => .num none
  | _ => .text []

/-- `json.loads(text)` and the entries of the dictionary (plotting.py:216-217, 297-298, 1016-1017).  For another value
looking up an entry is a `TypeError`. -/
def readThermo (fl : Floats) (text : Str) : Except Err (ThermoDict ℝ) := do
  match ← loads text with
  | .dict l => .ok (l.map fun p => (p.1, valOf fl p.2))
  | _ => .error .type

/-- `with open(path, 'r') as file: data = json.loads(file.read())` (postprocessing.py:188-189,
plotting.py:216-217, 297-298, 1016-1017). -/
def TextDisk.read (fl : Floats) (d : TextDisk) (path : Str) : Except Err (ThermoDict ℝ) :=
  match d.files path with
  | none => .error .os
  | some text => readThermo fl text

/-- postprocessing.py:188-193: the hashes in the text of a thermo file.  In a list or a text Python looks for the names
of the hashes like in a dictionary; both missing and one missing are the same to the caller. -/
def readHashes (fl : Floats) (text : Str) : Except Err StoredHashes := do
  match ← loads text with
  | .dict l => .ok (Plotting.storedHashes (l.map fun p => (p.1, valOf fl p.2)))
  | .list l =>
    let has (name : Str) : Bool := l.any fun v => match v with | .str s => s == name | _ => false
    if has c!"hash_vib" && has c!"hash_rho" then .error .type else .ok ⟨none, none⟩
  | .str s => if (find c!"hash_vib" s).isSome && (find c!"hash_rho" s).isSome then .error .type else .ok ⟨none, none⟩
  | _ => .error .type

/-- postprocessing.py:187-189: the hashes in a thermo file. -/
def TextDisk.hashes (fl : Floats) (d : TextDisk) (path : Str) : Except Err StoredHashes :=
  match d.files path with
  | none => .error .os
  | some text => readHashes fl text

/-- The files as `Model/Plotting.lean` sees them, if they can be read. -/
def TextDisk.view (fl : Floats) (d : TextDisk) : Plotting.Disk ℝ where
  listing := d.listing
  thermo := fun p => (d.read fl p).toOption
  results := fun _ => .absent

/-- plotting.py:135-142, 234-240, 953-959 `generate_file_lists` with postprocessing.py:187-193. -/
def fileList (fl : Floats) (s : FS) (d : TextDisk) : Except Err (List Str) :=
  pruneResultsUsingHashes s.hashVib s.hashRho (d.hashes fl)
    (retriveJackknifeFileList s d.listing)

/-- plotting.py:267-270, 986-989 `__init__` (virtual.py:43-60): the hashes, the files and the lists. -/
def initOne (hash : Str → Str) (texts : FileStructure.Disk) (fl : Floats) (d : TextDisk) (s : FS) :
    Except Err (FS × List Str × Lists) := do
  let s ← s.generateModelHashes hash texts false
  let paths ← fileList fl s d
  let l ← Plotting.generateParameterLists paths
  .ok (s, paths, l)

/-- The thermo files after an analysis as texts, with the other texts.  Simplification: a thermo file
calculated from samples with a NaN has no text here, like the files with arrays and analytic
results. -/
def textsOf (fl : Floats) (d : Analysis.Disk) : TextDisk where
  listing := d.listing
  files := fun p => match d.files p with
    | some (.thermo ⟨hv, hr, some st⟩) => some (thermoText fl hv hr st)
    | some (.text s) => some s
    | _ => none

end Pibronic.ThermoText
