import Verif.Model.Postprocessing
import Verif.Model.Analytic

set_option autoImplicit false

/-!
Model of the functions of `pibronic/data/postprocessing.py` for the older analysis with sum over states
results.  A temperature is given in hundredths of a kelvin.
-/
namespace Pibronic.Postprocessing
open Py FileName FileStructure

/-- `value_dict`; `samples` is empty when the key does not exist. -/
structure ValueDict where
  beads : List Nat
  basis : List Nat
  temperatures : List Nat
  samples : List Nat
  deriving DecidableEq, Repr

/-- postprocessing.py:239 `int(path.split("/P")[1].split("_T")[0])`. -/
def extractBeadSlash (path : Str) : Except Err Nat := do pyInt (← between c!"/P" c!"_T" path)

/-- postprocessing.py:281 `int(path.split("results/P")[1].split("_T")[0])`. -/
def extractBeadResults (path : Str) : Except Err Nat := do pyInt (← between c!"results/P" c!"_T" path)

/-- postprocessing.py:210-249 `extract_pimc_parameters`; the first argument is a list of thermo files. -/
def extractPimcParameters (thermo coupled sampling : List Str) : Except Err ValueDict := do
  let b ← extractBasisList coupled sampling
  let t ← thermo.mapM extractTemperatureThermo
  let x ← thermo.mapM extractSamples
  let p ← thermo.mapM extractBeadSlash
  .ok ⟨uniqueSorted p, b, uniqueSorted t, uniqueSorted x⟩

/-- postprocessing.py:252-291 `extract_jackknife_parameters`. -/
def extractJackknifeParameters (pimcFiles coupled sampling : List Str) : Except Err ValueDict := do
  let b ← extractBasisList coupled sampling
  let t ← pimcFiles.mapM extractTemperature
  let p ← pimcFiles.mapM extractBeadResults
  .ok ⟨uniqueSorted p, b, uniqueSorted t, []⟩

/-- postprocessing.py:199-206 `retrive_file_paths_for_jackknife`. -/
def retriveFilePathsForJackknife (s : FS) (listing : List Str) : List Str × List Str × List Str :=
  (retrivePimcFileList s listing, retriveSosCoupledFileList s listing c!"*",
    retriveSosSamplingFileList s listing c!"*")

variable {V : Type}

/-- What a sum over states file may hold; `unreadable`: the file exists and `open` raises `OSError`. -/
inductive SosContents (V : Type) where
  | absent
  | unreadable
  | broken
  /-- the list of temperatures and the lists of results (`none`: no such key) -/
  | dict (temperature : Option (List Nat)) (lists : Str → Option (List V))

/-- `rho_dict[key][i]` -/
def sosItem (lists : Str → Option (List V)) (key : Str) (i : Nat) : Except Err V :=
  match lists key with
  | none => .error .key
  | some l => match l[i]? with
    | none => .error .index
    | some v => .ok v

/-- postprocessing.py:346-372 `load_rho_sos_data`: the new value of `rho_args` (`args` if nothing is
stored); the file is the one at `FS.template_sos_rho.format(B=B)`, and `P` is not used. -/
def loadRhoSosData [Div V] [Zero V] [DecidableEq V] (c : SosContents V) (T : Nat)
    (args : Option (Analytic.AnalyticData V)) : Except Err (Option (Analytic.AnalyticData V)) :=
  match c with
  | .absent => .error .assertion
  | .unreadable => .ok args
  | .broken => .error .value
  | .dict none _ => .error .key
  | .dict (some ts) lists =>
    if T ∈ ts then do
      let i := ts.idxOf T
      let z ← sosItem lists c!"Z_sampling" i
      let e ← sosItem lists c!"E_sampling" i
      let cv ← sosItem lists c!"Cv_sampling" i
      let plus ← Analytic.pyDiv z (← sosItem lists c!"Z_sampling+beta" i)
      let minus ← Analytic.pyDiv z (← sosItem lists c!"Z_sampling-beta" i)
      .ok (some ⟨z, e, cv, plus, minus⟩)
    else .error .value

end Pibronic.Postprocessing
