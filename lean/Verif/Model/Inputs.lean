import Verif.Model.Molecule
import Mathlib.Data.Rat.Defs
import Mathlib.Algebra.Order.Field.Rat

set_option autoImplicit false

/-!
Model of the input files written for the calculations of the electronic structure workflow, and of
the questions about the number of orbitals (`pibronic/vibronic/electronic_structure.py`).

Simplifications: the
orbital energies are rational numbers; a quotient by zero is not modelled (the theorems that depend on
quotients exclude it); the user's answers are a list, whose end is the `EOFError` of `input`, here the
general exception.
-/
namespace Pibronic.Inputs
open Py Buffer Workflow Molecule

/-! ### Input files -/

/-- The values of the dictionary as arguments of `format`. -/
def toArgs (d : Dict) (k : Str) : Option Arg :=
  match d k with
  | some (.int n) => some (.int n)
  | some (.text s) => some (.str s)
  | some .none => some .none
  | none => none

/-- `template.format_map(parameter_dictionary)` -/
def formatMap (d : Dict) (template : Str) : Except Err Str := format (toArgs d) template

/-- electronic_structure.py:411-421 the input of the Hartree-Fock calculation -/
def hfInput (z : Zmat) (d : Dict) : Except Err Str :=
  formatMap d (z.get false ++ (c!"*ACES2( BASIS={basis:s}," ++ c!"\n\tCALC=SCF,"
    ++ c!"\n\tMEMORY_SIZE=10GB," ++ c!"\n\t)" ++ c!"\n"))

/-- `zmat.kind == 'cartesian'` -/
def isCartesian : Zmat → Bool
  | .cartesian _ => true
  | .internal _ _ => false

/-- electronic_structure.py:690-703 the input of the geometry optimisation -/
def optInput (z : Zmat) (d : Dict) : Except Err Str :=
  formatMap d (z.get true ++ (c!"*ACES2( BASIS={basis:s}," ++ c!"\n\tCALC={theory:s},"
    ++ c!"\n\tMEMORY_SIZE=20GB," ++ (if isCartesian z then c!"\n\tGEOM_OPT=RIC," else [])
    ++ c!"\n\t)" ++ c!"\n"))

/-- electronic_structure.py:831-842 the input of the calculation of vibrational frequencies -/
def vibInput (z : Zmat) (d : Dict) : Except Err Str :=
  formatMap d (z.get false ++ (c!"*ACES2( BASIS={basis:s}," ++ c!"\n\tCALC={theory:s},"
    ++ c!"\n\tMEMORY_SIZE=20GB," ++ c!"\n\tVIB=FINDIF," ++ c!"\n\t)" ++ c!"\n"))

/-- electronic_structure.py:895-911 the input of the calculation of ionised states -/
def ipInput (z : Zmat) (d : Dict) : Except Err Str :=
  formatMap d (z.get false ++ (c!"*ACES2( BASIS={basis:s}," ++ c!"\n\tCALC={theory:s},"
    ++ c!"\n\tMEMORY_SIZE=10GB," ++ c!"\n\tIP_CALC=IP_EOMCC," ++ c!"\n\t)" ++ c!"\n"
    ++ c!"\n*mrcc_gen" ++ c!"\n\tnip={nip:d}" ++ c!"\n*end" ++ c!"\n"))

/-- electronic_structure.py:1018-1042 the template of the coupling calculation that `_create_template`
builds (and does not return, see `Workflow.createTemplate`), filled with the parameters -/
def prepInput (z : Zmat) (d : Dict) : Except Err Str :=
  formatMap d (z.get false ++ (c!"*ACES2( BASIS={basis:s}," ++ c!"\n\tCALC={theory:s},"
    ++ c!"\n\tMEMORY_SIZE=10GB," ++ c!"\n\tIP_CALC=IP_EOMCC," ++ c!"\n\tPREP_VIBRON=ON,"
    ++ c!"\n\tGRID_VIBRON={gridVibron:d}," ++ c!"\n\tCC_CONV={ccConv:d}," ++ c!"\n\tSCF_CONV={scfConv:d},"
    ++ c!"\n\tESTATE_TOL={estateTol:d}," ++ c!"\n\t)" ++ c!"\n" ++ c!"\n*mrcc_gen" ++ c!"\n\tnip={nip:d}"
    ++ c!"\n*ip_eom" ++ c!"\n\tdiabatize=on" ++ c!"\n\theff_low=0" ++ c!"\n\theff_high=200" ++ c!"\n*end"
    ++ c!"\n"))

/-! ### Questions to the user -/

/-- `answer.lower()` on ASCII letters, and `'y' in answer.lower()`: electronic_structure.py:236-247
`get_yes_no_from_user` -/
def isYes (answer : Str) : Bool := answer.any fun c => c = 'y' || c = 'Y'

/-- electronic_structure.py:250-265 `get_integer_from_user`: ask until the answer is a non-negative
integer; `toInt` is `int(text)`.  Returns the integer and the remaining answers. -/
def getInteger (toInt : Str → Option ℤ) : List Str → Except Err (Nat × List Str)
  | [] => .error .exception
  | a :: as =>
    match toInt a with
    | none => getInteger toInt as
    | some n => if 0 ≤ n then .ok (n.toNat, as) else getInteger toInt as

theorem getInteger_length {toInt : Str → Option ℤ} {as rest : List Str} {n : Nat}
    (h : getInteger toInt as = .ok (n, rest)) : rest.length < as.length := by
  induction as with
  | nil => cases h
  | cons a as ih =>
    unfold getInteger at h
    split at h
    · have := ih h; simp; omega
    · split at h
      · cases h; simp
      · have := ih h; simp; omega

/-- electronic_structure.py:642-645, 531-534 the loop that asks for another value until one is
confirmed -/
def askUntil (toInt : Str → Option ℤ) (as : List Str) : Except Err Nat :=
  match _h : getInteger toInt as with
  | .error e => .error e
  | .ok (_, []) => .error .exception
  | .ok (n, a :: as) => if isYes a then .ok n else askUntil toInt as
termination_by as.length
decreasing_by
  have := getInteger_length _h
  simp at this; omega

/-- electronic_structure.py:633-647, 522-534: confirm the guess or ask for another value -/
def confirm (toInt : Str → Option ℤ) (guess : Option Nat) (as : List Str) : Except Err Nat :=
  match guess with
  | none => askUntil toInt as
  | some n =>
    match as with
    | [] => .error .exception
    | a :: as => if isYes a then .ok n else askUntil toInt as

/-! ### Guesses -/

/-- `[e0 / e1 for e0, e1 in pairwise(list_ev)]` -/
def ratios : List ℚ → List ℚ
  | a :: b :: l => a / b :: ratios (b :: l)
  | _ => []

/-- `max(list)`: `ValueError` for an empty list -/
def pyMax : List ℚ → Except Err ℚ
  | [] => .error .value
  | a :: l => .ok (l.foldl (fun m x => if m < x then x else m) a)

/-- electronic_structure.py:492-509 the guess of the number of orbitals to drop; any exception gives
no guess -/
def guessDropmo (evs : Except Err (List ℚ)) : Option Nat :=
  match evs with
  | .error _ => none
  | .ok evs =>
    match pyMax (ratios evs) with
    | .error _ => none
    | .ok m => some ((ratios evs).idxOf m + 1)

/-- electronic_structure.py:536-546 the keyword for the number of dropped orbitals -/
def dropmoString (n : Nat) : Str :=
  if n = 1 then c!"DROPMO=1" else if 1 < n then c!"DROPMO=1-" ++ natStr n else []

/-- electronic_structure.py:576-611 `_guess_NIP_value` -/
def guessNip (evs : Except Err (List ℚ)) (dropmo : Nat) : Option Nat :=
  match evs with
  | .error _ => none
  | .ok evs =>
    if evs.length ≤ dropmo then none
    else
      match pyMax (ratios (evs.drop (dropmo + 1))) with
      | .error _ => none
      | .ok m => some ((ratios evs).length - (ratios evs).idxOf m)

/-- electronic_structure.py:619-620 the number of dropped orbitals read back from the keyword:
`int(string_dropmo[-1])` -/
def dropmoOf (s : Str) : Except Err Nat :=
  match s.getLast? with
  | none => .ok 0
  | some c => match digitVal c with
    | some n => .ok n
    | none => .error .value

/-- electronic_structure.py:614-647 `_estimate_NIP` after the orbital energies are read -/
def estimateNip (toInt : Str → Option ℤ) (dropmo : Str) (evs : Except Err (List ℚ)) (as : List Str) :
    Except Err Nat :=
  match dropmoOf dropmo with
  | .error e => .error e
  | .ok n => confirm toInt (guessNip evs n) as

end Pibronic.Inputs
