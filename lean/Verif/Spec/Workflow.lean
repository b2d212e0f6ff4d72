import Verif.Model.Workflow

set_option autoImplicit false

/-! Specification of the progress of the workflow: which events lead from which stage to which. -/
namespace Pibronic.Workflow
open Py

/-- `Path s l t`: being at stage `s`, the events `l` lead to stage `t`: every stage is calculated,
then recorded, and then the next one follows; the calculation of the ionised states may be
repeated. -/
inductive Path : Stage → List Event → Stage → Prop
  | stay (s : Stage) : Path s [] s
  | stage (s t u : Stage) (l : List Event) : t.value = s.value + 1 → Path t l u →
      Path s (.ran s :: .recorded s :: l) u
  | again (l : List Event) (u : Stage) : Path .IPEOMCC l u → Path .IPEOMCC (.ran .IPEOMCC :: l) u

/-- The text the recorded stages make in the state file: one line each. -/
def written (l : List Event) : Str :=
  l.flatMap fun
    | .ran _ => []
    | .recorded s => s.name ++ ['\n']

/-- The lines of a state file that lists these stages. -/
def listing (l : List Stage) : Str := l.flatMap fun s => s.name ++ ['\n']

/-- The contents of the state file after some history of runs, each of which was started without a
stage given, in any environments. -/
inductive History : Option Str → Prop
  | start : History none
  | run (file : Option Str) (env : Env) (j : Job) (r : Buffer.Run Unit) : History file →
      execute env none file = (some j, r) → History j.file

end Pibronic.Workflow
