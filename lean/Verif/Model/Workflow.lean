import Verif.Model.Buffer

set_option autoImplicit false

/-!
Model of `VibronExecutionClass` (`pibronic/vibronic/electronic_structure.py`): the state machine that
runs the electronic structure calculations of a molecule and records its progress in a file.

Simplifications: what the submitted calculations and the parsers of their output files do is an
input (`Env`); only how each of them ends matters here.  The events of a run are recorded in a log
that the program does not have.
-/
namespace Pibronic.Workflow
open Py Buffer

/-- electronic_structure.py:31-41 `State` -/
inductive Stage where
  | OPT | NIP | VIB | IPEOMCC | PREPVIB | VIBRON | FINISHED
  deriving DecidableEq, Repr

/-- electronic_structure.py:35-41 `State.value` (`enum.auto()` counts from one) -/
def Stage.value : Stage → Nat
  | .OPT => 1 | .NIP => 2 | .VIB => 3 | .IPEOMCC => 4 | .PREPVIB => 5 | .VIBRON => 6 | .FINISHED => 7

/-- electronic_structure.py:35-41 `State.name` -/
def Stage.name : Stage → Str
  | .OPT => c!"OPT" | .NIP => c!"NIP" | .VIB => c!"VIB" | .IPEOMCC => c!"IPEOMCC"
  | .PREPVIB => c!"PREPVIB" | .VIBRON => c!"VIBRON" | .FINISHED => c!"FINISHED"

/-- the members of `State` in the order of iteration -/
def Stage.all : List Stage := [.OPT, .NIP, .VIB, .IPEOMCC, .PREPVIB, .VIBRON, .FINISHED]

/-- `State(n)`: the member with this value, or `ValueError` -/
def Stage.ofValue (n : Int) : Except Err Stage :=
  match Stage.all.find? fun s => decide ((s.value : Int) = n) with
  | some s => .ok s
  | none => .error .value

/-- electronic_structure.py:43-45 `State.max()` -/
def Stage.max : Nat := 7

/-- What happened in a run, in order: a calculation was completed, a stage was written to the state
file. -/
inductive Event where
  | ran (s : Stage)
  | recorded (s : Stage)
  deriving DecidableEq, Repr

/-- The object together with the contents of its state file (`none`: there is no such file). -/
structure Job where
  state : Option Stage
  file : Option Str
  nip : Nat
  log : List Event
  deriving DecidableEq, Repr

/-- How the calculations and the parsers end. -/
structure Env where
  /-- reading the parameter file -/
  params : Run Unit
  /-- reading the zmat file -/
  zmat : Run Unit
  /-- submitting a stage's calculation, waiting for it and checking its output -/
  calculation : Stage → Run Unit
  /-- the same for the calculation of the `n` ionised states -/
  ip : Nat → Run Unit
  parseOpt : Run Unit
  parseNip : Run Nat
  parseIp : Nat → Run Bool
  parsePrep : Run Unit
  parseVibron : Run Unit
  /-- `text in State`: `False` in Python up to 3.7 and from 3.12 on (a text is no member and no
  value), `TypeError` in between -/
  contains : Except Err Bool

/-- A method: it changes the object and ends in some way. -/
abbrev Step := Job → Job × Run Unit

/-- one statement after the other -/
def andThen (f g : Step) : Step := fun j =>
  match f j with
  | (j', .done ()) => g j'
  | (j', .raised e) => (j', .raised e)
  | (j', .hangs) => (j', .hangs)

/-- a call that does not change the object -/
def call (r : Run Unit) : Step := fun j => (j, r)

/-- electronic_structure.py:1441-1456 `__init__` -/
def newJob (state : Option Int) (file : Option Str) : Except Err Job :=
  match state with
  | none => .ok ⟨none, file, 0, []⟩
  | some n => match Stage.ofValue n with
    | .ok s => .ok ⟨some s, file, 0, []⟩
    | .error e => .error e

/-- electronic_structure.py:1458-1462 `record_state` -/
def recordState : Step := fun j =>
  match j.state with
  | none => (j, .raised .attribute)
  | some s =>
    ({ j with file := some (j.file.getD [] ++ (s.name ++ c!"\n")), log := j.log ++ [.recorded s] }, .done ())

/-- electronic_structure.py:1466-1470 and 1577-1581: create the state file if it does not exist -/
def touch : Step := fun j => ({ j with file := some (j.file.getD []) }, .done ())

/-- electronic_structure.py:1475-1484 the end of `advance` -/
def nextState : Step := fun j =>
  match j.state with
  | none => (j, .raised .attribute)
  | some s =>
    if s = .FINISHED then recordState j
    else if s.value < Stage.max then
      match Stage.ofValue (s.value + 1) with
      | .ok s' => ({ j with state := some s' }, .done ())
      | .error e => (j, .raised e)
    else (j, .raised .exception)

/-- electronic_structure.py:1464-1486 `advance` -/
def advance : Step := andThen touch (andThen recordState nextState)

/-- `line.strip()` -/
def strip (s : Str) : Str := ((s.dropWhile isWs).reverse.dropWhile isWs).reverse

/-- electronic_structure.py:1515-1539 the loop of `_set_state_from_file` over the reversed lines.
`old_state == State(State.max())` compares a text with a member and is `False`. The `break` of the
inner loop leaves only the inner loop. -/
def scanLines (contains : Except Err Bool) : List Str → Option Stage → Except Err (Option Stage)
  | [], st => .ok st
  | line :: lines, st =>
    if line = [] ∨ line = c!"\n" then scanLines contains lines st
    else
      match contains with
      | .error e => .error e
      | .ok true => .error .value
      | .ok false =>
        match Stage.all.find? fun m => decide (m.name = strip line) with
        | none => .ok (some .OPT)
        | some m =>
          match Stage.ofValue (m.value + 1) with
          | .error e => .error e
          | .ok s => scanLines contains lines (some s)

/-- electronic_structure.py:1500-1541 `_set_state_from_file` -/
def stateFromFile (contains : Except Err Bool) (file : Str) : Except Err (Option Stage) :=
  match file with
  | [] => .ok (some .OPT)
  | _ :: _ => scanLines contains (keepLines file).reverse none

/-- electronic_structure.py:1543-1587 `parse_input_parameters` -/
def parseInput (env : Env) : Step :=
  andThen (call env.params) (andThen touch fun j =>
    match j.state with
    | some _ => (j, .done ())
    | none =>
      match stateFromFile env.contains (j.file.getD []) with
      | .ok st => ({ j with state := st }, .done ())
      | .error e => (j, .raised e))

/-- a completed calculation -/
def runStage (s : Stage) (r : Run Unit) : Step := fun j =>
  match r with
  | .done () => ({ j with log := j.log ++ [.ran s] }, .done ())
  | r => (j, r)

/-- electronic_structure.py:1589-1609, 1617-1629 `hf`, `geom`, `vib`, `prepVibron`, `vibron_calc`: the
calculation is run and the state advanced if the object is in the matching state. -/
def whenIn (s : Stage) (r : Run Unit) : Step := fun j =>
  if j.state = some s then andThen (runStage s r) advance j else (j, .done ())

/-- electronic_structure.py:1018-1043 `_create_template`: the function ends with a bare `return`, so
the text it builds is lost and `None` is returned. -/
def createTemplate : Option Str := none

/-- electronic_structure.py:1046-1093 `prepVibron_calculation`: `None.format_map` is an
`AttributeError`; otherwise the calculation is run. -/
def prepCalculation (template : Option Str) (r : Run Unit) : Run Unit :=
  match template with
  | none => .raised .attribute
  | some _ => r

/-- electronic_structure.py:650-665 (`parse_hartree_fock_output` for NIP): the number of states is
stored in the parameters. -/
def parseNip (env : Env) : Step := fun j =>
  match env.parseNip with
  | .done n => ({ j with nip := n }, .done ())
  | .raised e => (j, .raised e)
  | .hangs => (j, .hangs)

/-- electronic_structure.py:1611-1615 `ip_calc` -/
def ipCalc (env : Env) : Step := fun j =>
  if j.state = some .IPEOMCC then runStage .IPEOMCC (env.ip j.nip) j else (j, .done ())

/-- electronic_structure.py:1001-1005: the state is only advanced from IPEOMCC -/
def advanceFromIp : Step := fun j =>
  if j.state = some .IPEOMCC then advance j else (j, .done ())

/-- electronic_structure.py:1000-1014: after reading the output, stop or go on with `again` -/
def afterIp (b : Run Bool) (again : Step) : Step := fun j =>
  match b with
  | .raised e => (j, .raised e)
  | .hangs => (j, .hangs)
  | .done true => advanceFromIp j
  | .done false => again j

/-- electronic_structure.py:995-1015 `verify_ip_states`, by recursion on the number of states.
Counting down below zero states is `hangs`. -/
def verifyIp (env : Env) : Nat → Step
  | 0 => andThen (ipCalc env) (afterIp (env.parseIp 0) fun j => (j, .hangs))
  | n + 1 => andThen (ipCalc env) (afterIp (env.parseIp (n + 1)) fun j =>
      if n = 0 then ({ j with nip := n }, .raised .exception) else verifyIp env n { j with nip := n })

/-- electronic_structure.py:1638-1658 the body of `calculate_vibronic_model` -/
def body (template : Option Str) (env : Env) : Step :=
  andThen (whenIn .OPT (env.calculation .OPT)) <|
  andThen (call env.parseOpt) <|
  andThen (whenIn .NIP (env.calculation .NIP)) <|
  andThen (parseNip env) <|
  andThen (whenIn .VIB (env.calculation .VIB)) <|
  andThen (fun j => verifyIp env j.nip j) <|
  andThen (whenIn .PREPVIB (prepCalculation template (env.calculation .PREPVIB))) <|
  andThen (call env.parsePrep) <|
  andThen (whenIn .VIBRON (env.calculation .VIBRON)) <|
  andThen (call env.parseVibron) advance

/-- electronic_structure.py:1637 `if self.state.value < State.max()` -/
def unlessFinished (f : Step) : Step := fun j =>
  match j.state with
  | none => (j, .raised .attribute)
  | some s => if s.value < Stage.max then f j else (j, .done ())

/-- electronic_structure.py:1631-1659 `calculate_vibronic_model` -/
def calculate (template : Option Str) (env : Env) : Step :=
  andThen (parseInput env) <| andThen (call env.zmat) <| unlessFinished (body template env)

/-- the program: construct the object and run it.  Returns the object (if there is one), and how the
run ended. -/
def execute (env : Env) (state : Option Int) (file : Option Str) : Option Job × Run Unit :=
  match newJob state file with
  | .error e => (none, .raised e)
  | .ok j => let r := calculate createTemplate env j; (some r.1, r.2)

end Pibronic.Workflow
