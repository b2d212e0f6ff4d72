import Verif.Model.ThermoText
import Verif.Spec.Plotting

set_option autoImplicit false

/-! What the claim about the text of thermo files (C120) means. -/
namespace Pibronic.Spec.ThermoText
open Pibronic.Py Pibronic.Analysis Pibronic.FileStructure Pibronic.ThermoText
open Pibronic.Spec.Plotting (thermoFile)

/-- The number that an analysis found for the quantity with this name, if it is one of its
quantities. -/
def found : Stat → Str → Option ℝ
  | .plain e, f =>
    if f = c!"Z" then some e.Z else if f = c!"Z error" then some e.Zerr
    else if f = c!"E" then some e.E else if f = c!"E error" then some e.Eerr
    else if f = c!"Cv" then some e.Cv else if f = c!"Cv error" then some e.Cverr
    else none
  | .jackknife o, f =>
    if f = c!"Z" then some o.basic.Z else if f = c!"Z error" then some o.basic.Zerr
    else if f = c!"E" then some o.basic.E else if f = c!"E error" then some o.basic.Eerr
    else if f = c!"Cv" then some o.basic.Cv else if f = c!"Cv error" then some o.basic.Cverr
    else if f = c!"jk_E" then some o.jk.E else if f = c!"jk_E error" then some o.jk.Eerr
    else if f = c!"jk_Cv" then some o.jk.Cv else if f = c!"jk_Cv error" then some o.jk.Cverr
    else none

/-- The float nearest to a number, as it comes back from a file. -/
def asFloat (fl : Floats) (x : ℝ) : Option ℝ := fl.number (fl.repr x)

/-- The file is one that an analysis of results of the models with hashes `hv` and `hr` wrote. -/
def Written (fl : Floats) (d : TextDisk) (path hv hr : Str) (st : Stat) : Prop :=
  path ∈ d.listing ∧ d.files path = some (thermoText fl hv hr st)

/-- The thermo files in the results directory have the names the program gives them, and their
directory does not spoil the search for the numbers in a name (C13). -/
structure Tidy (s : FS) (d : TextDisk) : Prop where
  noStar : '*' ∉ s.pathRhoResults
  noP : 'P' ∉ s.pathRhoResults
  noT : ¬ c!"_T" <:+: s.pathRhoResults
  noX : ¬ c!"_X" <:+: s.pathRhoResults
  names : ∀ path ∈ d.listing, s.pathRhoResults <+: path → c!"_thermo" <:+ path →
    ∃ P T X, path = thermoFile s P T X

/-- Every thermo file of the directory is one that an analysis wrote to the end. -/
def Complete (fl : Floats) (s : FS) (d : TextDisk) : Prop :=
  ∀ path ∈ d.listing, s.pathRhoResults <+: path → c!"_thermo" <:+ path → ∃ hv hr st, Written fl d path hv hr st

end Pibronic.Spec.ThermoText
