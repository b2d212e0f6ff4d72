import Verif.Py.Json
import Verif.Model.FileStructure
import Mathlib.Data.Real.Basic

set_option autoImplicit false

/-!
The parameters of a simulation as they travel from the submitting process to the job:
`BoxData.json_serialize`, `encode_self`, `load_json_string`, `from_json_string`, `from_json_file`
(pibronic/pimc/pimc.py), and the part of `prepare_job_*` (pibronic/server/job_boss.py) that calls
them.
-/
namespace Pibronic.JobParams
open Py Pibronic.FileStructure

/-- pimc.py:464-465, 512-515 `json_serialize`: `json.dumps` with `_SEPARATORS = (";", ":")`. -/
def jsonSerialize (params : List (Str × Json)) : Str := dumps ';' (.dict params)

/-- job_boss.py:225-233, 285-293, 340-348: the entries `prepare_job_*` adds before serialising.
The texts `copy_from` and `copy_to` carry their own quotation marks. -/
def executionParameters (params : List (Str × Json)) (jobName copyFrom copyTo : Str) : Str :=
  let p := dictSet c!"job_name" (.str jobName) params
  let p := dictSet c!"copy_from" (.str ('"' :: (copyFrom ++ ['"']))) p
  let p := dictSet c!"copy_to" (.str ('"' :: (copyTo ++ ['"']))) p
  jsonSerialize p

/-! ### decoding -/

/-- server.py:11-23 `ServerExecutionParameters`: the members and their values. -/
inductive Sep where
  | X | nBlk | A | P | N | T | BlkS | dB | D | R | beta | tau
  deriving DecidableEq

/-- server.py:11-23 `SEP.x.value` -/
def Sep.value : Sep → Str
  | .X => c!"number_of_samples"
  | .nBlk => c!"number_of_blocks"
  | .A => c!"number_of_states"
  | .P => c!"number_of_beads"
  | .N => c!"number_of_modes"
  | .T => c!"temperature"
  | .BlkS => c!"block_size"
  | .dB => c!"delta_beta"
  | .D => c!"id_data"
  | .R => c!"id_rho"
  | .beta => c!"beta"
  | .tau => c!"tau"

/-- A number: the one read, or one the code calculates. -/
inductive Quantity where
  | given (j : Json)
  | calculated (x : ℝ)

/-- The value of a JSON number (`val` gives the value of a float's text); `none`: not a number, on
which arithmetic raises `TypeError`. -/
noncomputable def number (val : Str → ℝ) : Json → Option ℝ
  | .int z => some z
  | .float t => some (val t)
  | .bool b => some (if b then 1 else 0)
  | _ => none

/-- the value of a quantity -/
noncomputable def Quantity.number (val : Str → ℝ) : Quantity → Option ℝ
  | .given j => JobParams.number val j
  | .calculated x => some x

/-- The members that `load_json_string` sets. -/
structure BoxParams where
  samples : Json
  blocks : Json
  states : Json
  beads : Json
  modes : Json
  temperature : Json
  blockSize : Json
  idData : Json
  idRho : Json
  beta : Quantity
  tau : Quantity
  deltaBeta : Quantity
  pathVibModel : Str
  pathRhoModel : Str
  hashVib : Option Str
  hashRho : Option Str

/-- What the decoding needs from outside: the value of `constants.boltzman`, of a float's text, the
absolute path of a root directory, the digest, and the disk. -/
structure Env where
  boltzman : ℝ
  val : Str → ℝ
  abspath : Str → Str
  hash : Str → Str
  disk : Disk

/-- pimc.py:566-569 `1.0 / (constants.boltzman * self.temperature)` -/
noncomputable def betaOf (env : Env) (temperature : Json) : Except Err Quantity :=
  match number env.val temperature with
  | none => .error .type
  | some t => open Classical in
    if env.boltzman * t = 0 then .error .zeroDivision
    else .ok (.calculated (1 / (env.boltzman * t)))

/-- pimc.py:571-574 `self.beta / self.beads` -/
noncomputable def tauOf (env : Env) (beta : Quantity) (beads : Json) : Except Err Quantity :=
  match beta.number env.val, number env.val beads with
  | some b, some p => open Classical in
    if p = 0 then .error .zeroDivision else .ok (.calculated (b / p))
  | _, _ => .error .type

/-- pimc.py:565-569: the given inverse temperature, or the calculated one -/
noncomputable def readBeta (env : Env) (params : List (Str × Json)) (temperature : Json) :
    Except Err Quantity :=
  if dictHas Sep.beta.value params then (dictGet Sep.beta.value params).map Quantity.given
  else betaOf env temperature

/-- pimc.py:570-574: the given time step, or the calculated one -/
noncomputable def readTau (env : Env) (params : List (Str × Json)) (beta : Quantity)
    (beads : Json) : Except Err Quantity :=
  if dictHas Sep.tau.value params then (dictGet Sep.tau.value params).map Quantity.given
  else tauOf env beta beads

/-- pimc.py:576-579: `delta_beta` only if it is a float -/
def deltaBetaOf (old : Quantity) (params : List (Str × Json)) : Quantity :=
  match dictGet Sep.dB.value params with
  | .ok (.float t) => .given (.float t)
  | _ => old

/-- pimc.py:582-588: the paths and the hashes.  Simplification: ids that are not non-negative
integers are errors (Python formats negative integers and booleans too). -/
def fillPaths (env : Env) (root idData idRho : Json) : Except Err FS :=
  match root, idData, idRho with
  | .str root, .int (.ofNat d), .int (.ofNat r) =>
    let FS := new root (env.abspath root) d r false env.disk
    FS.1.generateModelHashes env.hash FS.2 false
  | .str _, _, _ => .error .value
  | _, _, _ => .error .type

/-- pimc.py:555-588 on the decoded dictionary; `deltaBeta` is the value the object had before. -/
noncomputable def readParams (env : Env) (deltaBeta : Quantity) (params : List (Str × Json)) :
    Except Err BoxParams := do
  let samples ← dictGet Sep.X.value params
  let blocks ← dictGet Sep.nBlk.value params
  let states ← dictGet Sep.A.value params
  let beads ← dictGet Sep.P.value params
  let modes ← dictGet Sep.N.value params
  let temperature ← dictGet Sep.T.value params
  let blockSize ← dictGet Sep.BlkS.value params
  let idData ← dictGet Sep.D.value params
  let idRho ← dictGet Sep.R.value params
  let beta ← readBeta env params temperature
  let tau ← readTau env params beta beads
  let root ← dictGet c!"path_root" params
  let FS ← fillPaths env root idData idRho
  .ok { samples := samples, blocks := blocks, states := states, beads := beads, modes := modes
        temperature := temperature, blockSize := blockSize, idData := idData, idRho := idRho
        beta := beta, tau := tau, deltaBeta := deltaBetaOf deltaBeta params
        pathVibModel := FS.pathVibModel, pathRhoModel := FS.pathRhoModel
        hashVib := FS.hashVib, hashRho := FS.hashRho }

/-- pimc.py:546-547: every semicolon of the text becomes a comma, then `json.loads`. -/
def decode (text : Str) : Except Err Json := loads (replaceChar ';' ',' text)

/-- pimc.py:543-593 `load_json_string` (and 502-507 `from_json_string`, on a new object whose
`delta_beta` is `deltaBeta`). -/
noncomputable def loadJsonString (env : Env) (deltaBeta : Quantity) (text : Str) :
    Except Err BoxParams := do
  match ← decode text with
  | .dict params => readParams env deltaBeta params
  | _ => .error .type

/-! ### encoding an object's own members -/

/-- A dictionary key: a string, or a member of the enumeration. -/
inductive Key where
  | str (s : Str)
  | member (m : Sep)
  deriving DecidableEq

/-- `json.dumps` of a dictionary whose keys may be members of the enumeration: they are not
`str`, `int`, `float`, `bool` or `None`, so it raises `TypeError`. -/
def stringKeys : List (Key × Json) → Except Err (List (Str × Json))
  | [] => .ok []
  | (.str k, v) :: l => do .ok ((k, v) :: (← stringKeys l))
  | (.member _, _) :: _ => .error .type

/-- pimc.py:517-540 `encode_self`: without parameters the keys are members of the enumeration. -/
def encodeSelf (members : Sep → Json) (params : Option (List (Str × Json))) : Except Err Str :=
  let dict : List (Key × Json) := match params with
    | none => [.X, .nBlk, .A, .P, .N, .T, .BlkS, .dB, .D, .R, .beta, .tau].map fun m =>
        (Key.member m, members m)
    | some ps => ps.map fun p => (Key.str p.1, p.2)
  do .ok (jsonSerialize (← stringKeys dict))

end Pibronic.JobParams
