import Verif.Model.FileStructure
import Mathlib.Data.List.Dedup
import Mathlib.Data.List.Sort

set_option autoImplicit false

/-!
Model of `pibronic/data/postprocessing.py`.

Simplifications: the file system is a list `listing` of existing file paths, and readers of result
files are functions from paths to stored values (arbitrary, they may raise).
-/
namespace Pibronic.Postprocessing
open Py FileName FileStructure

/-- `int(path.split(sep1)[1].split(sep2)[0])`, the shape of most extractors. -/
def between (sep1 sep2 path : Str) : Except Err Str := do
  let x ← item (split sep1 path) 1
  item (split sep2 x) 0

/-- postprocessing.py:118-120 `extract_bead_value_from_pimc_file_path`
(and 160-162, the thermo version, which is the same). -/
def extractBead (path : Str) : Except Err Nat := do pyInt (← between c!"P" c!"_T" path)

/-- postprocessing.py:131-133 `extract_temperature_value_from_pimc_file_path`. -/
def extractTemperature (path : Str) : Except Err Nat := do pyFloat2 (← between c!"_T" c!"_J" path)

/-- postprocessing.py:147-149 `extract_job_value_from_pimc_file_path`. -/
def extractJob (path : Str) : Except Err Nat := do pyInt (← between c!"_J" c!"_data_" path)

/-- postprocessing.py:165-167 `extract_temperature_value_from_thermo_file_path`. -/
def extractTemperatureThermo (path : Str) : Except Err Nat := do
  pyFloat2 (← between c!"_T" c!"_X" path)

/-- postprocessing.py:170-172 `extract_sample_value_from_thermo_file_path`. -/
def extractSamples (path : Str) : Except Err Nat := do pyInt (← between c!"_X" c!"_thermo" path)

/-- postprocessing.py:103-105 `extract_basis_value_from_sos_file_path`. -/
def extractBasis (path : Str) : Except Err Nat := do pyInt (← between c!"_B" c!".json" path)

/-- postprocessing.py:87-89 `extract_bead_value_from_trotter_file_path`: `int` is applied to the
list returned by the second `split`, which raises `TypeError`. -/
def extractTrotter (path : Str) : Except Err Nat := do
  let x ← item (split c!"trotter_P" path) 1
  let _l := split c!"_B" x
  .error .type

/-- postprocessing.py:92-100 `extract_trotter_paramater_list` (the loop body is never reached with a
value because the extractor raises). -/
def extractTrotterList (paths : List Str) : Except Err (List Nat) := paths.mapM extractTrotter

/-- `l = list(set(values)); l.sort()` -/
def uniqueSorted (values : List Nat) : List Nat := values.dedup.mergeSort (· ≤ ·)

/-- postprocessing.py:123-128 `extract_bead_paramater_list`. -/
def extractBeadList (paths : List Str) : Except Err (List Nat) := do
  .ok (uniqueSorted (← paths.mapM extractBead))

/-- postprocessing.py:136-144 `extract_temperature_paramater_list`. -/
def extractTemperatureList (paths : List Str) : Except Err (List Nat) := do
  .ok (uniqueSorted (← paths.mapM extractTemperature))

/-- postprocessing.py:108-115 `extract_sos_basis_paramater_list`: `set(cL) & set(sL)`, sorted. -/
def extractBasisList (vib rho : List Str) : Except Err (List Nat) := do
  let c ← vib.mapM extractBasis
  let s ← rho.mapM extractBasis
  .ok (uniqueSorted (c.filter fun b => s.contains b))

/-- `path[-n:]` -/
def lastN (n : Nat) (path : Str) : Str := path.drop (path.length - n)

/-- The two stored hashes of a result file: `none` for a missing key. -/
structure StoredHashes where
  vib : Option Str
  rho : Option Str
  deriving DecidableEq

/-- The body of the loop of `prune_results_using_hashes` once a file was read
(postprocessing.py:183-186, 190-193).  `ownVib`, `ownRho` are `FS.hash_vib`, `FS.hash_rho`
(`none`: the attribute does not exist, reading it raises `AttributeError`). -/
def keepFile (ownVib ownRho : Option Str) (h : StoredHashes) : Except Err Bool :=
  match h.vib, h.rho with
  | some v, some r =>
    match ownVib with
    | none => .error .attribute
    | some v' => if v = v' then
        match ownRho with
        | none => .error .attribute
        | some r' => .ok (r == r')
      else .ok false
  | _, _ => .ok false

/-- postprocessing.py:175-196 `prune_results_using_hashes`.  `read` returns the stored hashes of a
result file (`.npz` or thermo) or raises. -/
def pruneResultsUsingHashes (ownVib ownRho : Option Str) (read : Str → Except Err StoredHashes) :
    List Str → Except Err (List Str)
  | [] => .ok []
  | path :: rest =>
    if lastN 4 path = c!".npz" ∨ lastN 6 path = c!"thermo" then do
      let h ← read path
      let keep ← keepFile ownVib ownRho h
      let out ← pruneResultsUsingHashes ownVib ownRho read rest
      .ok (if keep then path :: out else out)
    else .error .exception

/-- The format arguments `P=P, T=T, J="*"`. -/
def pimcArgs (P T : Nat) (J : Str) : Str → Option Arg := fun name =>
  if name = c!"P" then some (.int P)
  else if name = c!"T" then some (.float T)
  else if name = c!"J" then some (.str J)
  else none

/-- `glob.glob(pattern)` on a file system with the given files. -/
def glob (listing : List Str) (pattern : Str) : List Str := listing.filter (globMatch pattern)

/-- postprocessing.py:48-51 `retrive_pimc_file_list`. -/
def retrivePimcFileList (s : FS) (listing : List Str) : List Str :=
  glob listing (s.pathRhoResults ++ pimc c!"*" c!"*" c!"*")

/-- postprocessing.py:54-57 `retrive_jackknife_file_list`. -/
def retriveJackknifeFileList (s : FS) (listing : List Str) : List Str :=
  glob listing (s.pathRhoResults ++ jackknife c!"*" c!"*" c!"*")

/-- postprocessing.py:60-63 `retrive_sos_coupled_file_list` (the argument `B` is ignored). -/
def retriveSosCoupledFileList (s : FS) (listing : List Str) (_B : Str) : List Str :=
  glob listing (s.pathVibParams ++ sos c!"*")

/-- postprocessing.py:66-69 `retrive_sos_sampling_file_list` (the argument `B` is ignored). -/
def retriveSosSamplingFileList (s : FS) (listing : List Str) (_B : Str) : List Str :=
  glob listing (s.pathRhoParams ++ sos c!"*")

/-- postprocessing.py:72-80 `retrive_all_file_paths`. -/
def retriveAllFilePaths (s : FS) (listing : List Str) :
    List Str × List Str × List Str × List Str :=
  (retrivePimcFileList s listing, retriveJackknifeFileList s listing,
    retriveSosCoupledFileList s listing c!"*", retriveSosSamplingFileList s listing c!"*")

/-- postprocessing.py:149-154 `extract_parameter_lists`: beads, temperatures, basis sizes. -/
def extractParameterLists (pimcFiles vib rho : List Str) :
    Except Err (List Nat × List Nat × List Nat) := do
  let bL ← extractBasisList vib rho
  let pL ← extractBeadList pimcFiles
  let tL ← extractTemperatureList pimcFiles
  .ok (pL, tL, bL)

/-- postprocessing.py:294-307 `load_pimc_data`: the list of files it loads. -/
def pimcFilesFor (s : FS) (listing : List Str) (P T : Nat) : Except Err (List Str) := do
  let pattern ← format (pimcArgs P T c!"*") s.templatePimc
  .ok (glob listing pattern)

end Pibronic.Postprocessing
