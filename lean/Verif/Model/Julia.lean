import Verif.Model.Slurm
import Verif.Model.Analytic
import Verif.Model.Constants

set_option autoImplicit false

/-!
Model of the part of `pibronic/julia_wrapper.py` that builds the commands for Julia, of the
iterative method, of its command line, and of the script `pibronic/everything.py`.

Simplifications: what the programs print is an input, as is `os.path.realpath`; the value of `beta`
is given by its text (`{T:}` is `str(beta)`); a number under an empty format specification is
given by its text too; exact numbers stand for the floats of the command line.
-/
namespace Pibronic.Julia
open Py FileName FileStructure Analytic Slurm

/-- The programs around: what running each leaves, `none` when there is no such program
(`subprocess.run` then raises `FileNotFoundError`). -/
structure Env where
  /-- `julia -v` -/
  version : Option Completed
  /-- `modulecmd python load Julia/1.0.0` -/
  load : Option Completed
  /-- `exec` of the text that `modulecmd` prints -/
  exec : Str → Except Err Unit
  /-- `julia -e 'import VibronicToolkit; print(pathof(VibronicToolkit))'` -/
  pathof : Option Completed
  /-- `os.path.realpath` -/
  realpath : Str → Str

/-- julia_wrapper.py:286-297 `prepare_julia` with a version. -/
def prepareJulia (env : Env) (version : Str) : Except Err Unit :=
  if version ∉ [c!"0.7.0", c!"1.0.0", c!"1.0.1"] then .error .assertion
  else match env.version with
    | none => .error .os
    | some r =>
      if JobBoss.contains c!"julia version" r.out then .ok ()
      else match env.load with
        | none => .error .os
        | some l => env.exec l.out

/-- `posixpath.dirname` -/
def dirname (p : Str) : Str :=
  let head := (p.reverse.dropWhile (· ≠ '/')).reverse
  if head.all (· = '/') then head else (head.reverse.dropWhile (· = '/')).reverse

/-- julia_wrapper.py:303-312: the text `julia */pibronic_bin/` with which all commands begin -/
def juliaPath (env : Env) : Except Err Str := do
  prepareJulia env c!"1.0.0"
  match env.pathof with
  | none => .error .os
  | some r =>
    if r.err ≠ [] then .error .assertion
    else
      let root := dirname (dirname (env.realpath r.out))
      .ok (c!"julia " ++ join root c!"pibronic_bin/")

/-- julia_wrapper.py:314-365: the dictionary of commands (keys in order), before the fields are filled
in -/
def commandDict (jPath : Str) : List (Str × Str) :=
  [(c!"analytical coupled", jPath ++ c!"analytical.jl --conf {F:} --beta {T:} --uncoupled"),
   (c!"analytical uncoupled", jPath ++ c!"analytical.jl --conf {F:} --beta {T:}"),
   (c!"sos", jPath ++ c!"sos.jl --conf {F:} --beta {T:} --basis-size {B:}"),
   (c!"trotter", jPath ++ c!"trotter.jl --conf {F:} --beta {T:} --basis-size {B:} --num-links {P:}"),
   (c!"sampling", jPath ++ c!"sampling.jl --conf {F:} --beta {T:} --num-links {P:} --num-samples {X:}"),
   (c!"finite difference sampling", jPath ++
     c!"sampling.jl --conf {F:} --beta {T:} --num-links {P:} --num-samples {X:} --dbeta {:} --sampling-beta {:} --samplings-conf {:}"),
   (c!"iterative", jPath ++
     c!"iterative_decomposition.jl --conf {F:} --max-iter {N:} --out-conf {P:} --out-vs {VS:}")]

/-- julia_wrapper.py:300-367 `construct_command_dictionary`, looked up at a key -/
def commandTemplate (env : Env) (key : Str) : Except Err Str := do
  let jPath ← juliaPath env
  match (commandDict jPath).find? fun e => e.1 == key with
  | some e => .ok e.2
  | none => .error .key

/-- julia_wrapper.py:190, 205, 227, 252: the key of a method -/
def dictKey : Method → Str
  | .sampling => c!"analytical uncoupled"
  | .original => c!"analytical coupled"
  | .sos _ => c!"sos"
  | .trotter _ _ => c!"trotter"

/-- julia_wrapper.py:180, 219, 243-244: the fields of a method's command -/
def fields (s : FS) (beta : Str) : Method → Str → Option Arg
  | .sampling => fun n => if n = c!"F" then some (.str s.pathRhoModel)
      else if n = c!"T" then some (.str beta) else none
  | .original => fun n => if n = c!"F" then some (.str s.pathOrigModel)
      else if n = c!"T" then some (.str beta) else none
  | .sos B => fun n => if n = c!"F" then some (.str s.pathVibModel)
      else if n = c!"T" then some (.str beta)
      else if n = c!"B" then some (.str (natStr B)) else none
  | .trotter P B => fun n => if n = c!"F" then some (.str s.pathVibModel)
      else if n = c!"T" then some (.str beta)
      else if n = c!"B" then some (.str (natStr B))
      else if n = c!"P" then some (.str (natStr P)) else none

/-- julia_wrapper.py:176-261: the command that a calculation runs -/
def calcCommand (env : Env) (s : FS) (m : Method) (beta : Str) : Except Err Str := do
  let t ← commandTemplate env (dictKey m)
  let _ ← m.dst s
  format (fields s beta m) t

/-- The words of a command as the shell sees them, for a command without characters that are special
to the shell. -/
def shellWords (cmd : Str) : List Str := (split c!" " cmd).filter fun w => !w.isEmpty

/-! ### The iterative method -/

/-- julia_wrapper.py:270-273: the command of the iterative method -/
def iterateCommand (env : Env) (s : FS) (n : Nat) : Except Err Str := do
  let t ← commandTemplate env c!"iterative"
  format (fun f => if f = c!"F" then some (.str s.pathVibModel)
    else if f = c!"P" then some (.str s.pathIterModel)
    else if f = c!"VS" then some (.str s.pathIterMat)
    else if f = c!"N" then some (.str (natStr n)) else none) t

/-- Files by path. -/
abbrev Files := Str → Option Str

/-- julia_wrapper.py:264-283 `iterate_method`: `run` is what the shell does with a command: the files
it leaves, and return code and outputs, which the code does not look at. -/
def iterateMethod (env : Env) (run : Str → Files → Files × Completed) (s : FS) (n : Nat)
    (files : Files) : Except Err Files := do
  let cmd ← iterateCommand env s n
  .ok (run cmd files).1

/-! ### The command line -/

/-- The parsed options, julia_wrapper.py:405-418. -/
structure Args where
  path : Str
  temperature : ℚ
  beta : Option ℚ
  idData : Int
  idRho : Int
  nbeads : Option Int
  basisSize : Option Int
  method : Option Str

/-- How a run from the command line ends. -/
inductive Outcome where
  /-- `parser.error`: a message and exit code 2 -/
  | usage
  | raised (e : Err)
  /-- the calculation with the basis size and the temperature -/
  | sos (basis : Int) (temperature : ℚ)
  | iterate
  | analyticOriginal (temperature : ℚ)
  | analyticSampling (temperature : ℚ)
  | trotter (beads : Nat) (basis : Int) (temperature : ℚ)
  deriving DecidableEq

/-- `if x:` for a number that may be `None` -/
def truthy {K : Type} [Zero K] [DecidableEq K] : Option K → Bool
  | none => false
  | some x => x ≠ 0

/-- julia_wrapper.py:370-400 `main`, called with the parsed options: all of them are present, also
those that were not given (then they are `None`), and the number of beads has another name.
`files`: whether the file structure and the hashes could be made.  The names of results files contain
`{B:d}`, which `None` cannot fill. -/
def main (files : Except Err Unit) (a : Args) : Outcome :=
  if a.temperature = 0 then .raised .zeroDivision
  else match files with
    | .error e => .raised e
    | .ok () =>
      match a.method with
      | none => .raised .exception
      | some m =>
        if m = c!"iterate" then .iterate
        else if m = c!"analytical_original" then .analyticOriginal a.temperature
        else if m = c!"analytical_sampling" then .analyticSampling a.temperature
        else if m = c!"trotter_coupled" then
          match a.basisSize with
          | none => .raised .type
          | some b => .trotter 10 b a.temperature
        else if m = c!"sos" then
          match a.basisSize with
          | none => .raised .type
          | some b => .sos b a.temperature
        else .raised .exception

/-- `sub in method` for a method that may be `None` -/
def mentions (sub : Str) : Option Str → Bool
  | none => false
  | some m => JobBoss.contains sub m

/-- julia_wrapper.py:429-433: is the number of beads refused? -/
def beadsRefused (a : Args) : Bool :=
  truthy a.nbeads &&
    ((a.method.isSome && a.method ≠ some [] && !mentions c!"sampling" a.method) ||
      a.nbeads.any (· < 3))

/-- julia_wrapper.py:435-439: is the basis size refused? -/
def basisRefused (a : Args) : Bool :=
  truthy a.basisSize &&
    ((a.method.isSome && a.method ≠ some [] &&
        (!mentions c!"trotter" a.method && !mentions c!"sos" a.method)) ||
      a.basisSize.any (· < 2))

/-- julia_wrapper.py:403-449: the checks of the options, then `main`. -/
def commandLine (env : Env) (files : Except Err Unit) (a : Args) : Outcome :=
  if a.idRho < 0 then .usage
  else if a.temperature ≠ 0 ∧ truthy a.beta = true then .usage
  else if a.temperature ≠ 0 ∧ ¬ 0 < a.temperature then .usage
  else if beadsRefused a = true then .usage
  else if basisRefused a = true then .usage
  else
    match a.method with
    | none => main files a
    | some [] => main files a
    | some m =>
      match juliaPath env with
      | .error e => .raised e
      | .ok jPath => if m ∈ (commandDict jPath).map Prod.fst then main files a else .usage

/-! ### The script for a whole molecule -/

/-- What `everything.py` did, in order. -/
inductive Did where
  | madeDirectories
  | copied (src dst : Str)
  | calculatedModel
  | submitted
  deriving DecidableEq, Repr

/-- `shutil.copyfile(src, dst)` for a source that has to be a file -/
def copyFile (files : Files) (src dst : Str) : Except Err Did :=
  match files src with
  | some _ => .ok (.copied src dst)
  | none => .error .os

/-- everything.py:61-75 `copyInput`; `package` is `input_files.__file__`, `none` when the package has
no such attribute (a directory without `__init__.py`); `files`: the files that exist (made absolute
already). -/
def copyInput (package : Option Str) (files : Files) (es name : Str) : List Did × Option Err :=
  match package with
  | none => ([], some .attribute)
  | some root =>
    match copyFile files (join (join root name) c!"_params.txt") (join (join es name) c!"_params.txt") with
    | .error e => ([], some e)
    | .ok d =>
      match copyFile files (join (join root name) c!"_zmat.txt") (join (join es name) c!"_zmat.txt") with
      | .error e => ([d], some e)
      | .ok d' => ([d, d'], none)

/-- electronic_structure.py:52-55, 1443-1451, 1488-1498 (`setup_zmat`), 1545-1550 (`parse_input_parameters`), both without a
path: the two files that the calculation of a molecule in a directory reads. -/
def calculationInputs (root name : Str) : List Str :=
  [join root (name ++ c!"_params.txt"), join root (name ++ c!"_zmat.txt")]

/-- everything.py:129: the file with the vibronic model of a molecule that `execute` looks for and reads -/
def resultFile (s : FS) (name : Str) : Str := s.pathEs ++ name ++ c!"_vibron.h"

/-- everything.py:103-197 `execute`: a number stands for a molecule; `rest` is what follows once the
input files are there. (The directories are made by the constructor, whatever
`directories_exist` says.) -/
def execute (package : Option Str) (files : Files) (absRoot : Str) (rest : List Did × Option Err)
    (id : Nat) : List Did × Option Err :=
  match molecules[id]? with
  | none => ([], some .exception)
  | some (name, idData) =>
    let s := initFS c!"/work/ngraymon/pimc/" absRoot idData 0
    let c := copyInput package files s.pathEs name
    match c.2 with
    | some e => (.madeDirectories :: c.1, some e)
    | none => (.madeDirectories :: c.1 ++ rest.1, rest.2)

/-- everything.py:200-207: the script. `argv` are the arguments after its name. (Printing is left
out.) `execute` is called with one argument but takes two. -/
def script (argv : List Str) : List Did × Option Err :=
  match argv with
  | [a] =>
    match pyIntSigned a with
    | .error e => ([], some e)
    | .ok _ => ([], some .type)
  | _ => ([], some .assertion)

end Pibronic.Julia
