import Verif.Model.FileStructure

set_option autoImplicit false

/-!
Model of `pibronic/julia_wrapper.py` (the files with analytic, sum over states and Trotter results)
and of `load_analytic_data` of `pibronic/data/postprocessing.py`, which reads one of them.

Simplifications: the external Julia programs are functions from the text of the model file they read,
the method and the temperature to their standard output (a call may also be killed); `float` is a
parameter; a results file is absent, too short to be looked at, not readable as JSON, or a
dictionary; `beta` is given by the temperature it belongs to in hundredths of a kelvin (C43), so that
the key `"{:.2f}".format(extract_T_from_beta(beta))` is `tempStr T`.
-/
namespace Pibronic.Analytic
open Py FileName FileStructure

/-- A value of the top level dictionary: a hash or the results at one temperature. -/
inductive AVal (V : Type) where
  | hash (h : Str)
  | entry (e : Str → Option V)

/-- The top level dictionary of a results file. -/
abbrev ADict (V : Type) := Str → Option (AVal V)

/-- `old_dict[k] = v` -/
def ADict.set {V : Type} (d : ADict V) (k : Str) (v : AVal V) : ADict V :=
  fun j => if j = k then some v else d j

/-- What a path holds. -/
inductive Contents (V : Type) where
  | absent
  /-- at most one character: ignored, `len(data) > 1` fails -/
  | short
  /-- text that `json.loads` rejects -/
  | broken
  | dict (d : ADict V)

variable {V : Type}

/-- julia_wrapper.py:25-53 `keyDict`: new name, name printed by the program. -/
def keyDict : List (Str × Str) :=
  [(c!"Z_MC", c!"Z_MC"), (c!"E_MC", c!"E_MC"), (c!"Cv_MC", c!"Cv_MC"), (c!"SvN_MC", c!"SvN_MC"),
   (c!"S2_MC", c!"S2_MC"), (c!"Z_trotter", c!"Z_trotter"), (c!"E_trotter", c!"E_trotter"),
   (c!"Cv_trotter", c!"Cv_trotter"), (c!"SvN_trotter", c!"SvN_trotter"),
   (c!"S2_trotter", c!"S2_trotter"), (c!"Z_sos", c!"Z_sos"), (c!"E_sos", c!"E_sos"),
   (c!"Cv_sos", c!"Cv_sos"), (c!"SvN_sos", c!"SvN_sos"), (c!"S2_sos", c!"S2_sos"),
   (c!"E0_exact", c!"E0_exact"), (c!"SvN_exact", c!"SvN_exact"), (c!"S2_exact", c!"S2_exact"),
   (c!"Z_rho", c!"Z_analytical"), (c!"E_rho", c!"E_analytical"), (c!"Cv_rho", c!"Cv_analytical"),
   (c!"SvN_rho", c!"SvN_analytical"), (c!"S2_rho", c!"S2_analytical"), (c!"beta", c!"beta"),
   (c!"tau", c!"tau")]

/-- `dict(pairs)`: the last value of a key counts. -/
def dictOf (pairs : List (Str × Str)) : Str → Option Str :=
  fun k => (pairs.reverse.find? fun p => p.1 == k).map (·.2)

/-- One line of the output as a pair; `dict` raises `ValueError` unless there is exactly one colon. -/
def linePair (line : Str) : Except Err (Str × Str) :=
  match split c!":" line with
  | [k, v] => .ok (k, v)
  | _ => .error .value

/-- julia_wrapper.py:56-69 `parse_ouput`: the pairs of the non-empty lines. -/
def parseOutput (out : Str) : Except Err (List (Str × Str)) :=
  let lines := (split c!"\n" out).filter fun l => !l.isEmpty
  if lines.all fun l => l.contains ':' then lines.mapM linePair else .error .assertion

/-- julia_wrapper.py:78-82: the renamed values; `float` may raise. -/
def convertEntry (float : Str → Except Err V) (out : Str → Option Str) :
    List (Str × Str) → Except Err (Str → Option V)
  | [] => .ok fun _ => none
  | (new, old) :: rest =>
    match out old with
    | none => convertEntry float out rest
    | some text => do
      let v ← float text
      let e ← convertEntry float out rest
      .ok fun k => if k = new then some v else e k

/-- julia_wrapper.py:92-116 `compute` with 72-89 `convert_keys`: the new entry; `none` when `False`
is returned. `killed`: the text `Killed` occurs in the error output. -/
def compute (float : Str → Except Err V) (killed : Bool) (out : Str) :
    Except Err (Option (Str → Option V)) :=
  if killed then .ok none
  else do
    let pairs ← parseOutput out
    if pairs = [] then .ok none
    else .ok (some (← convertEntry float (dictOf pairs) keyDict))

/-- The methods, each with its own results file(s). -/
inductive Method where
  /-- `analytic_of_sampling_model` -/
  | sampling
  /-- `analytic_of_original_coupled_model` -/
  | original
  /-- `sos_of_coupled_model` with a basis size -/
  | sos (B : Nat)
  /-- `trotter_of_coupled_model` with a number of beads and a basis size -/
  | trotter (P B : Nat)
  deriving DecidableEq

/-- julia_wrapper.py:192, 206, 229, 257: the results file. -/
def Method.dst (s : FS) : Method → Except Err Str
  | .sampling => .ok s.pathAnalyticRho
  | .original => .ok s.pathAnalyticOrig
  | .sos B => format (fun n => if n = c!"B" then some (.int B) else none) s.templateSosVib
  | .trotter P B => format (fun n => if n = c!"P" then some (.int P)
      else if n = c!"B" then some (.int B) else none) s.templateTrotterVib

/-- The hashes of the FileStructure object. -/
structure Hashes where
  vib : Str
  rho : Str

/-- Does the method check the hash of the sampling model too? (julia_wrapper.py:191, 205, 228, 256) -/
def Method.checksRho : Method → Bool
  | .sampling => true
  | _ => false

/-- `old_dict[k] != h` is false -/
def hasHash (d : ADict V) (k h : Str) : Bool :=
  match d k with
  | some (.hash h') => h' == h
  | _ => false

/-- julia_wrapper.py:119-151 `validate_old_rho_data`, `validate_old_model_data`. -/
def validate (rhoToo : Bool) (h : Hashes) (d : ADict V) : ADict V :=
  let keep := hasHash d c!"hash_vib" h.vib && (!rhoToo || hasHash d c!"hash_rho" h.rho)
  let d : ADict V := if keep then d else fun _ => none
  let d := d.set c!"hash_vib" (.hash h.vib)
  if rhoToo then d.set c!"hash_rho" (.hash h.rho) else d

/-- julia_wrapper.py:156-162: the old dictionary. -/
def readOld : Contents V → Except Err (ADict V)
  | .absent => .ok fun _ => none
  | .short => .ok fun _ => none
  | .broken => .error .value
  | .dict d => .ok d

/-- julia_wrapper.py:154-173 `base_func`: the new contents of the results file (the file is opened for
writing only after the calculation succeeded, so on error it keeps its contents). -/
def baseFunc (float : Str → Except Err V) (rhoToo : Bool) (h : Hashes) (T : Nat) (killed : Bool)
    (out : Str) (old : Contents V) : Except Err (Contents V) := do
  let d ← readOld old
  let d := validate rhoToo h d
  match ← compute float killed out with
  | none => .error .exception
  | some e => .ok (.dict (validate rhoToo h (d.set (tempStr T) (.entry e))))

/-! ### Histories -/

/-- The external programs: model text, method, temperature ↦ standard output. -/
abbrev Program := Str → Method → Nat → Str

/-- The state of the world: the texts of the three model files, the hashes that the FileStructure
object holds, and the results files. -/
structure World (V : Type) where
  vib : Str
  rho : Str
  orig : Str
  hashes : Hashes
  files : Method → Contents V

/-- julia_wrapper.py:193, 207, 215, 241: the model file that the program reads. -/
def World.source (w : World V) : Method → Str
  | .sampling => w.rho
  | .original => w.orig
  | .sos _ => w.vib
  | .trotter _ _ => w.vib

/-- What can happen. -/
inductive Event where
  | setVib (text : Str)
  | setRho (text : Str)
  | setOrig (text : Str)
  /-- `FS.generate_model_hashes(force_flag=True)` (or a new FileStructure object) -/
  | regenerate
  /-- a calculation; `killed` when the program was killed -/
  | calc (m : Method) (T : Nat) (killed : Bool)
  /-- a crash during the final write leaves an empty or an unreadable file -/
  | crash (m : Method) (unreadable : Bool)

/-- One event.  A failing calculation changes nothing. -/
def World.step (hash : Str → Str) (float : Str → Except Err V) (prog : Program) (w : World V) :
    Event → World V
  | .setVib t => { w with vib := t }
  | .setRho t => { w with rho := t }
  | .setOrig t => { w with orig := t }
  | .regenerate => { w with hashes := ⟨hash w.vib, hash w.rho⟩ }
  | .calc m T killed =>
    match baseFunc float m.checksRho w.hashes T killed (prog (w.source m) m T) (w.files m) with
    | .error _ => w
    | .ok c => { w with files := fun m' => if m' = m then c else w.files m' }
  | .crash m u =>
    let c : Contents V := if u then .broken else .short
    { w with files := fun m' => if m' = m then c else w.files m' }

/-! ### The consumer -/

/-- What the statistics get. -/
structure AnalyticData (V : Type) where
  Z : V
  E : V
  Cv : V
  alphaPlus : V
  alphaMinus : V

/-- `entry[k]` -/
def getKey (e : Str → Option V) (k : Str) : Except Err V :=
  match e k with
  | some v => .ok v
  | none => .error .key

/-- `a / b` of two Python floats -/
def pyDiv [Div V] [Zero V] [DecidableEq V] (a b : V) : Except Err V :=
  if b = 0 then .error .zeroDivision else .ok (a / b)

/-- postprocessing.py:313-343 `load_analytic_data`. -/
def loadAnalytic [Div V] [Zero V] [DecidableEq V] (h : Hashes) (T : Nat) (c : Contents V) :
    Except Err (AnalyticData V) :=
  match c with
  | .absent => .error .assertion
  | .short => .error .value
  | .broken => .error .value
  | .dict d =>
    match d c!"hash_vib" with
    | none => .error .key
    | some _ =>
      if hasHash d c!"hash_vib" h.vib = false then .error .assertion
      else match d c!"hash_rho" with
        | none => .error .key
        | some _ =>
          if hasHash d c!"hash_rho" h.rho = false then .error .assertion
          else match d (tempStr T) with
            | none => .error .assertion
            | some (.hash _) => .error .type
            | some (.entry e) => do
              let z ← getKey e c!"Z_sampling"
              let en ← getKey e c!"E_sampling"
              let cv ← getKey e c!"Cv_sampling"
              let plus ← pyDiv z (← getKey e c!"Z_sampling+beta")
              let minus ← pyDiv z (← getKey e c!"Z_sampling-beta")
              .ok ⟨z, en, cv, plus, minus⟩

end Pibronic.Analytic
