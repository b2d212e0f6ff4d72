import Verif.Model.Plotting

set_option autoImplicit false

/-! What the claims about plotting (C80-C84) mean. -/
namespace Pibronic.Spec.Plotting
open Pibronic.Py Pibronic.FileName Pibronic.FileStructure Pibronic.Plotting
open Pibronic.Analytic (Contents ADict AVal)

variable {K : Type}

/-- The name of the thermo file with `P` beads, `T` hundredths of a kelvin and `X` samples. -/
def thermoFile (s : FS) (P T X : Nat) : Str :=
  s.pathRhoResults ++ (c!"P" ++ natStr P ++ c!"_T" ++ tempStr T ++ c!"_X" ++ natStr X ++ c!"_thermo")

/-- The dictionary carries the two hashes. -/
def HasHashes (hv hr : Str) (d : ThermoDict K) : Prop :=
  (c!"hash_vib", Val.text hv) ∈ d ∧ (c!"hash_rho", Val.text hr) ∈ d

/-- On the disk there is a thermo file for `P`, `T`, `X` with the contents `d`, calculated from the
models with hashes `hv` and `hr`. -/
def CurrentFile (s : FS) (k : Disk K) (hv hr : Str) (P T X : Nat) (d : ThermoDict K) : Prop :=
  thermoFile s P T X ∈ k.listing ∧ k.thermo (thermoFile s P T X) = some d ∧ HasHashes hv hr d

/-- The thermo files in the results directory have the names the program gives them, their directory
does not spoil the search for the numbers in a name (C13), and a dictionary has each key once. -/
structure Tidy (s : FS) (k : Disk K) : Prop where
  noStar : '*' ∉ s.pathRhoResults
  noP : 'P' ∉ s.pathRhoResults
  noT : ¬ c!"_T" <:+: s.pathRhoResults
  noX : ¬ c!"_X" <:+: s.pathRhoResults
  names : ∀ path ∈ k.listing, s.pathRhoResults <+: path → c!"_thermo" <:+ path →
    ∃ P T X, path = thermoFile s P T X
  keys : ∀ path d, k.thermo path = some d → (d.map Prod.fst).Nodup

/-- A thermo dictionary as the statistics write it: numbers under known names, and the hashes. -/
def WellFormed (d : ThermoDict K) : Prop :=
  ∀ p ∈ d, (p.1 = c!"hash_vib" ∨ p.1 = c!"hash_rho") ∨
    (p.1 ∈ [c!"Z", c!"Z error", c!"E", c!"E error", c!"Cv", c!"Cv error", c!"jk_E", c!"jk_E error",
      c!"jk_Cv", c!"jk_Cv error"] ∧ ∃ x, p.2 = .num x)

/-- The entry of the table for `P`, `T`, `X` and the field `f`. -/
def entry (t : Table K) (P T X : Nat) (f : Str) : Option K :=
  t.cell (t.lists.P.idxOf P) (t.lists.T.idxOf T) (t.lists.X.idxOf X) f

/-- The results file holds the number `z` under `key` for the temperature `T`. -/
def Holds (c : Contents K) (T : Nat) (key : Str) (z : K) : Prop :=
  ∃ d e, c = .dict d ∧ d (tempStr T) = some (.entry e) ∧ e key = some z

/-- The percent deviation of `z` from the exact value. -/
def percentOff [Field K] (z exact : K) : K := 100 * ((z - exact) / exact)

/-- The curve has a point at `x` with value `y` and error bar `e`. -/
def ShowsPoint (c : Curve) (x : ℝ) (y e : Option ℝ) : Prop :=
  ∃ i : ℕ, c.x[i]? = some x ∧ c.y[i]? = some y ∧ c.yerr[i]? = some e

end Pibronic.Spec.Plotting
