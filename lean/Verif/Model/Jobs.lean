import Verif.Model.AnalyticText

set_option autoImplicit false

/-!
Calculations of `pibronic/julia_wrapper.py` that run at the same time, each in its own process
(`srun` jobs started by examples/artificial_systems/submit_jobs_to_server.py:36-47 and
examples/paper_1.5025058/submit_jobs_to_server.py:37-48, which do not wait), as sequences of the operations on the
results file: it is read, and after the calculation it is opened (which empties it) and the text is
written in pieces at the position of the writer.

Simplifications: one read sees the file at one moment; the answer of the external program does not depend on the
other jobs (it reads the model file only).
-/
namespace Pibronic.Jobs
open Py FileName Analytic

/-- `old_dict[k] == h` -/
def isHash (l : List (Str × Json)) (k h : Str) : Bool :=
  match dictGet k l with
  | .ok (.str h') => h' == h
  | _ => false

/-- julia_wrapper.py:119-151 `validate_old_rho_data`, `validate_old_model_data`: on the items of the dictionary. -/
def validateItems (rhoToo : Bool) (h : Hashes) (l : List (Str × Json)) : List (Str × Json) :=
  let keep := isHash l c!"hash_vib" h.vib && (!rhoToo || isHash l c!"hash_rho" h.rho)
  let l := if keep then l else []
  let l := dictSet c!"hash_vib" (.str h.vib) l
  if rhoToo then dictSet c!"hash_rho" (.str h.rho) l else l

/-- julia_wrapper.py:156-162: the items of the old dictionary.  JSON that is no dictionary is an error at once; Python
raises the same exceptions in `validate` (114-148): a text has no `clear`, a list no key "hash_vib", and nothing can
be looked for in the others.  Simplification: a text that contains "hash_vib" gives `TypeError` in Python. -/
def readItems : Option Str → Except Err (List (Str × Json))
  | none => .ok []
  | some text =>
    if 1 < text.length then
      match loads text with
      | .ok (.dict l) => .ok l
      | .ok (.str _) => .error .attribute
      | .ok _ => .error .type
      | .error e => .error e
    else .ok []

/-- One call of `base_func`: the results file, what is checked, the temperature, and what `compute` returns (an
exception, `none` for `False`, or the items that are stored under the temperature). -/
structure Job where
  path : Str
  rhoToo : Bool
  hashes : Hashes
  temp : Nat
  result : Except Err (Option (List (Str × Json)))

/-- Where a job is in `base_func`. -/
inductive Phase where
  /-- julia_wrapper.py:156 -/
  | start
  /-- julia_wrapper.py:166: the calculation, with the validated dictionary in memory -/
  | computing (items : List (Str × Json))
  /-- julia_wrapper.py:169: what has still to be written, and the position of the writer -/
  | writing (rest : Str) (pos : Nat)
  | done
  | failed (e : Err)

/-- julia_wrapper.py:167 with 66-89: the dictionary that is written. -/
def Job.update (j : Job) (l e : List (Str × Json)) : List (Str × Json) :=
  validateItems j.rhoToo j.hashes (dictSet (tempStr j.temp) (.dict e) l)

/-- A write of `chunk` at a position of a file; a gap before it is filled with zeros. -/
def overlay (old : Str) (pos : Nat) (chunk : Str) : Str :=
  old.take pos ++ List.replicate (pos - old.length) '\x00' ++ chunk ++ old.drop (pos + chunk.length)

/-- julia_wrapper.py:154-173 `base_func`: the next operation of a job on its results file.  `n` is the number of
characters that reach the file at once while the text is written. -/
def Job.step (j : Job) (n : Nat) : Phase × Option Str → Phase × Option Str
  | (.start, f) =>
    match readItems f with
    | .error e => (.failed e, f)
    | .ok l => (.computing (validateItems j.rhoToo j.hashes l), f)
  | (.computing l, f) =>
    match j.result with
    | .error e => (.failed e, f)
    | .ok none => (.failed .exception, f)
    | .ok (some e) => (.writing (textOf (j.update l e)) 0, some [])
  | (.writing rest pos, f) =>
    let chunk := rest.take n
    let f := some (overlay (f.getD []) pos chunk)
    (if rest.length ≤ n then .done else .writing (rest.drop n) (pos + chunk.length), f)
  | s => s

/-- All jobs (artificial_systems/submit_jobs_to_server.py:36-47 starts them) and the disk. -/
structure State where
  phase : Nat → Phase
  disk : Str → Option Str

/-- One operation of the job `i` (julia_wrapper.py:154-173). -/
def State.step (jobs : Nat → Job) (s : State) (i n : Nat) : State :=
  let r := (jobs i).step n (s.phase i, s.disk (jobs i).path)
  { phase := fun k => if k = i then r.1 else s.phase k
    disk := fun p => if p = (jobs i).path then r.2 else s.disk p }

/-- A schedule: which job does its next operation, and how much it writes in it.  A job that is killed does
nothing any more. -/
abbrev Schedule := List (Nat × Nat)

/-- The state after a schedule (julia_wrapper.py:154-173 by several processes). -/
def run (jobs : Nat → Job) (s : State) (sched : Schedule) : State :=
  sched.foldl (fun s a => s.step jobs a.1 a.2) s

/-- The same job without the others (julia_wrapper.py:154-173). -/
def Job.alone (j : Job) (x : Phase × Option Str) (ns : List Nat) : Phase × Option Str :=
  ns.foldl (fun x n => j.step n x) x

end Pibronic.Jobs
