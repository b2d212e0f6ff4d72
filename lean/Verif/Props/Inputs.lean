import Verif.Model.Inputs
import Verif.Lemmas.Molecule
import Verif.Props.Molecule
import Verif.Lemmas.Postprocessing
import Mathlib.Tactic.NormNum
import Mathlib.Tactic.IntervalCases
import Mathlib.Tactic.Linarith

set_option autoImplicit false

/-!
Properties of the input files of the calculations (C72) and of the questions about the numbers of
orbitals (C73).
-/
namespace Pibronic.Props.Inputs
open Pibronic.Py Pibronic.Buffer Pibronic.Workflow Pibronic.Molecule Pibronic.Inputs

/-! ### C72 -/

/-- The text `a` of a template becomes `t`. -/
private def Fills (args : Str → Option Arg) (a t : Str) : Prop :=
  ∀ rest, format args (a ++ rest) = (format args rest).map (t ++ ·)

private theorem Fills.lit (args : Str → Option Arg) {a : Str} (h1 : '{' ∉ a) (h2 : '}' ∉ a) :
    Fills args a a := fun rest => Pibronic.Postprocessing.format_literal args a rest h1 h2

private theorem Fills.append {args : Str → Option Arg} {a t b u : Str} (h1 : Fills args a t)
    (h2 : Fills args b u) : Fills args (a ++ b) (t ++ u) := by
  intro rest
  rw [List.append_assoc, h1, h2]
  cases format args rest <;> simp [Except.map]

private theorem Fills.field {args : Str → Option Arg} {name spec t : Str} {a : Arg}
    (hn : ':' ∉ name) (hb : '}' ∉ name ++ ':' :: spec) (hne : '{' ∉ name)
    (ha : args name = some a) (ht : formatArg a spec = .ok t) :
    Fills args ('{' :: (name ++ ':' :: spec ++ ['}'])) t := by
  intro rest
  have := Pibronic.Postprocessing.format_field args name spec rest a t hn hb hne ha ht
  have e : '{' :: (name ++ ':' :: spec ++ ['}']) ++ rest = '{' :: (name ++ ':' :: spec ++ '}' :: rest) := by
    simp
  rw [e, this]

private theorem Fills.done {args : Str → Option Arg} {a t : Str} (h : Fills args a t) :
    format args a = .ok t := by
  have := h []
  rw [List.append_nil, Pibronic.Postprocessing.format_nil] at this
  rw [this]; simp [Except.map]

/-- The first keywords. -/
private theorem fills_basis (args : Str → Option Arg) (basis : Str) (h : args c!"basis" = some (.str basis)) :
    Fills args c!"*ACES2( BASIS={basis:s}," (c!"*ACES2( BASIS=" ++ basis ++ c!",") := by
  have h1 : Fills args c!"*ACES2( BASIS=" c!"*ACES2( BASIS=" := Fills.lit args (by decide) (by decide)
  have h2 := Fills.field (spec := c!"s") (t := basis) (by decide) (by decide) (by decide) h rfl
  have h3 : Fills args c!"," c!"," := Fills.lit args (by decide) (by decide)
  exact (h1.append h2).append h3

private theorem fills_theory (args : Str → Option Arg) (theory : Str)
    (h : args c!"theory" = some (.str theory)) :
    Fills args c!"\n\tCALC={theory:s}," (c!"\n\tCALC=" ++ theory ++ c!",") := by
  have h1 : Fills args c!"\n\tCALC=" c!"\n\tCALC=" := Fills.lit args (by decide) (by decide)
  have h2 := Fills.field (spec := c!"s") (t := theory) (by decide) (by decide) (by decide) h rfl
  have h3 : Fills args c!"," c!"," := Fills.lit args (by decide) (by decide)
  exact (h1.append h2).append h3

private theorem fills_nip (args : Str → Option Arg) (nip : Nat)
    (h : args c!"nip" = some (.int nip)) :
    Fills args c!"\n\tnip={nip:d}" (c!"\n\tnip=" ++ natStr nip) := by
  have h1 : Fills args c!"\n\tnip=" c!"\n\tnip=" := Fills.lit args (by decide) (by decide)
  have h2 := Fills.field (spec := c!"d") (t := natStr nip) (by decide) (by decide) (by decide) h rfl
  exact h1.append h2

private theorem lookup_text {d : Dict} {k s : Str} (h : d k = some (.text s)) :
    toArgs d k = some (.str s) := by simp only [toArgs, h]

private theorem lookup_int {d : Dict} {k : Str} {n : Nat} (h : d k = some (.int n)) :
    toArgs d k = some (.int n) := by simp only [toArgs, h]

/-- C72: the input of the Hartree-Fock calculation is the geometry without the marks for optimisation,
followed by the keywords with the chosen basis. -/
theorem C72_hf_partial (z : Zmat) (d : Dict) (basis : Str) (hb : d c!"basis" = some (.text basis))
    (h1 : '{' ∉ z.get false) (h2 : '}' ∉ z.get false) :
    hfInput z d = .ok (z.get false ++ c!"*ACES2( BASIS=" ++ basis
      ++ c!",\n\tCALC=SCF,\n\tMEMORY_SIZE=10GB,\n\t)\n") := by
  unfold hfInput formatMap
  have hz := Fills.lit (toArgs d) h1 h2
  have := (hz.append ((((fills_basis _ basis (lookup_text hb)).append
    (Fills.lit _ (a := c!"\n\tCALC=SCF,") (by decide) (by decide))).append
    (Fills.lit _ (a := c!"\n\tMEMORY_SIZE=10GB,") (by decide) (by decide))).append
    (Fills.lit _ (a := c!"\n\t)") (by decide) (by decide)) |>.append
    (Fills.lit _ (a := c!"\n") (by decide) (by decide)))).done
  rw [this]
  simp

/-- The keyword for the optimisation of cartesian coordinates. -/
def optKeyword : Zmat → Str
  | .cartesian _ => c!"\n\tGEOM_OPT=RIC,"
  | .internal _ _ => []

/-- C72: the input of the optimisation is the geometry with its marks, followed by the keywords with
the chosen basis and theory, and the kind of optimisation for cartesian coordinates. -/
theorem C72_opt_partial (z : Zmat) (d : Dict) (basis theory : Str) (hb : d c!"basis" = some (.text basis))
    (ht : d c!"theory" = some (.text theory))
    (h1 : '{' ∉ z.get true) (h2 : '}' ∉ z.get true) :
    optInput z d = .ok (z.get true ++ c!"*ACES2( BASIS=" ++ basis ++ c!",\n\tCALC=" ++ theory
      ++ c!",\n\tMEMORY_SIZE=20GB," ++ optKeyword z ++ c!"\n\t)\n") := by
  unfold optInput formatMap
  have hz := Fills.lit (toArgs d) h1 h2
  have hg : Fills (toArgs d) (if isCartesian z then c!"\n\tGEOM_OPT=RIC," else [])
      (optKeyword z) := by
    cases z with
    | cartesian t => exact Fills.lit _ (a := c!"\n\tGEOM_OPT=RIC,") (by decide) (by decide)
    | internal r c => exact Fills.lit _ (a := []) (by decide) (by decide)
  have := (hz.append (((((fills_basis _ basis (lookup_text hb)).append
    (fills_theory _ theory (lookup_text ht))).append
    (Fills.lit _ (a := c!"\n\tMEMORY_SIZE=20GB,") (by decide) (by decide))).append hg).append
    (Fills.lit _ (a := c!"\n\t)") (by decide) (by decide)) |>.append
    (Fills.lit _ (a := c!"\n") (by decide) (by decide)))).done
  rw [this]
  simp

/-- C72: the input of the frequency calculation. -/
theorem C72_vib_partial (z : Zmat) (d : Dict) (basis theory : Str) (hb : d c!"basis" = some (.text basis))
    (ht : d c!"theory" = some (.text theory))
    (h1 : '{' ∉ z.get false) (h2 : '}' ∉ z.get false) :
    vibInput z d = .ok (z.get false ++ c!"*ACES2( BASIS=" ++ basis ++ c!",\n\tCALC=" ++ theory
      ++ c!",\n\tMEMORY_SIZE=20GB,\n\tVIB=FINDIF,\n\t)\n") := by
  unfold vibInput formatMap
  have hz := Fills.lit (toArgs d) h1 h2
  have := (hz.append (((((fills_basis _ basis (lookup_text hb)).append
    (fills_theory _ theory (lookup_text ht))).append
    (Fills.lit _ (a := c!"\n\tMEMORY_SIZE=20GB,") (by decide) (by decide))).append
    (Fills.lit _ (a := c!"\n\tVIB=FINDIF,") (by decide) (by decide))).append
    (Fills.lit _ (a := c!"\n\t)") (by decide) (by decide)) |>.append
    (Fills.lit _ (a := c!"\n") (by decide) (by decide)))).done
  rw [this]
  simp

/-- C72: the input of the calculation of ionised states, with their number. -/
theorem C72_ip_partial (z : Zmat) (d : Dict) (basis theory : Str) (nip : Nat)
    (hb : d c!"basis" = some (.text basis)) (ht : d c!"theory" = some (.text theory))
    (hn : d c!"nip" = some (.int nip))
    (h1 : '{' ∉ z.get false) (h2 : '}' ∉ z.get false) :
    ipInput z d = .ok (z.get false ++ c!"*ACES2( BASIS=" ++ basis ++ c!",\n\tCALC=" ++ theory
      ++ c!",\n\tMEMORY_SIZE=10GB,\n\tIP_CALC=IP_EOMCC,\n\t)\n\n*mrcc_gen\n\tnip=" ++ natStr nip
      ++ c!"\n*end\n") := by
  unfold ipInput formatMap
  have hz := Fills.lit (toArgs d) h1 h2
  have := (hz.append ((((((((fills_basis _ basis (lookup_text hb)).append
    (fills_theory _ theory (lookup_text ht))).append
    (Fills.lit _ (a := c!"\n\tMEMORY_SIZE=10GB,") (by decide) (by decide))).append
    (Fills.lit _ (a := c!"\n\tIP_CALC=IP_EOMCC,") (by decide) (by decide))).append
    (Fills.lit _ (a := c!"\n\t)") (by decide) (by decide))).append
    (Fills.lit _ (a := c!"\n") (by decide) (by decide))).append
    (Fills.lit _ (a := c!"\n*mrcc_gen") (by decide) (by decide))).append
    (fills_nip _ nip (lookup_int hn)) |>.append
    (Fills.lit _ (a := c!"\n*end") (by decide) (by decide)) |>.append
    (Fills.lit _ (a := c!"\n") (by decide) (by decide)))).done
  rw [this]
  simp

private theorem fills_int (args : Str → Option Arg) (pre name : Str) (n : Nat)
    (h : args name = some (.int n)) (h1 : '{' ∉ pre) (h2 : '}' ∉ pre) (h3 : ':' ∉ name)
    (h4 : '}' ∉ name ++ c!":d") (h5 : '{' ∉ name) :
    Fills args (pre ++ ('{' :: (name ++ c!":d" ++ ['}'])) ++ c!",") (pre ++ natStr n ++ c!",") :=
  ((Fills.lit args h1 h2).append (Fills.field (spec := c!"d") h3 h4 h5 h rfl)).append
    (Fills.lit args (by decide) (by decide))

set_option maxRecDepth 8000 in
/-- C72: the input of the coupling calculation, as the template builds it, when the numerical
parameters have their default values. -/
theorem C72_prep_partial (z : Zmat) (d : Dict) (basis theory : Str) (nip grid cc scf tol : Nat)
    (hb : d c!"basis" = some (.text basis)) (ht : d c!"theory" = some (.text theory))
    (hn : d c!"nip" = some (.int nip)) (hg : d c!"gridVibron" = some (.int grid))
    (hcc : d c!"ccConv" = some (.int cc)) (hscf : d c!"scfConv" = some (.int scf))
    (htol : d c!"estateTol" = some (.int tol))
    (h1 : '{' ∉ z.get false) (h2 : '}' ∉ z.get false) :
    prepInput z d = .ok (z.get false ++ c!"*ACES2( BASIS=" ++ basis ++ c!",\n\tCALC=" ++ theory
      ++ c!",\n\tMEMORY_SIZE=10GB,\n\tIP_CALC=IP_EOMCC,\n\tPREP_VIBRON=ON,\n\tGRID_VIBRON=" ++ natStr grid
      ++ c!",\n\tCC_CONV=" ++ natStr cc ++ c!",\n\tSCF_CONV=" ++ natStr scf ++ c!",\n\tESTATE_TOL="
      ++ natStr tol ++ c!",\n\t)\n\n*mrcc_gen\n\tnip=" ++ natStr nip
      ++ c!"\n*ip_eom\n\tdiabatize=on\n\theff_low=0\n\theff_high=200\n*end\n") := by
  unfold prepInput formatMap
  have hz := Fills.lit (toArgs d) h1 h2
  have hL : ∀ a : Str, '{' ∉ a → '}' ∉ a → Fills (toArgs d) a a := fun a => Fills.lit _
  have a1 := fills_int (toArgs d) c!"\n\tGRID_VIBRON=" c!"gridVibron" grid (lookup_int hg) (by decide)
    (by decide) (by decide) (by decide) (by decide)
  have a2 := fills_int (toArgs d) c!"\n\tCC_CONV=" c!"ccConv" cc (lookup_int hcc) (by decide)
    (by decide) (by decide) (by decide) (by decide)
  have a3 := fills_int (toArgs d) c!"\n\tSCF_CONV=" c!"scfConv" scf (lookup_int hscf) (by decide)
    (by decide) (by decide) (by decide) (by decide)
  have a4 := fills_int (toArgs d) c!"\n\tESTATE_TOL=" c!"estateTol" tol (lookup_int htol) (by decide)
    (by decide) (by decide) (by decide) (by decide)
  have := (hz.append ((fills_basis _ basis (lookup_text hb)).append
    (fills_theory _ theory (lookup_text ht)) |>.append
    (hL c!"\n\tMEMORY_SIZE=10GB," (by decide) (by decide)) |>.append
    (hL c!"\n\tIP_CALC=IP_EOMCC," (by decide) (by decide)) |>.append
    (hL c!"\n\tPREP_VIBRON=ON," (by decide) (by decide)) |>.append a1 |>.append a2 |>.append a3
    |>.append a4 |>.append
    (hL c!"\n\t)" (by decide) (by decide)) |>.append
    (hL c!"\n" (by decide) (by decide)) |>.append
    (hL c!"\n*mrcc_gen" (by decide) (by decide)) |>.append
    (fills_nip _ nip (lookup_int hn)) |>.append
    (hL c!"\n*ip_eom" (by decide) (by decide)) |>.append
    (hL c!"\n\tdiabatize=on" (by decide) (by decide)) |>.append
    (hL c!"\n\theff_low=0" (by decide) (by decide)) |>.append
    (hL c!"\n\theff_high=200" (by decide) (by decide)) |>.append
    (hL c!"\n*end" (by decide) (by decide)) |>.append
    (hL c!"\n" (by decide) (by decide)))).done
  refine Eq.trans this ?_
  simp only [List.append_assoc, List.cons_append, List.nil_append]

/-- A field whose value cannot be formatted makes the whole template fail. -/
private theorem format_field_error (args : Str → Option Arg) (field rest : Str) (e : Err)
    (hb : '}' ∉ field) (hne : field.head? ≠ some '{')
    (h : ∀ name spec, (match find [':'] field with
        | some (n, sp) => (n, sp)
        | none => (field, [])) = (name, spec) →
      (match args name with
        | none => (.error .key : Except Err Str)
        | some a => formatArg a spec) = .error e) :
    format args ('{' :: (field ++ '}' :: rest)) = .error e := by
  have htf := Pibronic.Postprocessing.takeField_append field rest hb
  have hns : ∀ s, field ++ '}' :: rest ≠ '{' :: s := by
    intro s
    cases field with
    | nil => simp
    | cons c name =>
      have : c ≠ '{' := fun e => hne (by simp [e])
      simp [this]
  rw [format.eq_def]
  split
  · simp_all
  · next h => exact absurd (List.cons.inj h).2 (hns _)
  · simp_all
  · simp_all
  · next s h1 hh =>
    obtain rfl := (List.cons.inj hh).2
    split
    · next h' => rw [htf] at h'; cases h'
    · next fl r h' =>
      rw [htf] at h'; cases h'
      cases hf : find [':'] field with
      | none =>
        rw [hf] at h
        have := h field [] rfl
        revert this
        simp only
        cases args field with
        | none => intro h; exact h
        | some a => simp only; intro h; rw [h]; rfl
      | some p =>
        rw [hf] at h
        have := h p.1 p.2 rfl
        revert this
        simp only
        cases args p.1 with
        | none => intro h; exact h
        | some a => simp only; intro h; rw [h]; rfl
  · next c s h1 h2 h3 h4 h => exact absurd (List.cons.inj h).1.symm (by simp_all)

/-- C72 is false for a geometry whose title has a brace: the geometry is taken as a part of the
template, and the name in braces is looked up among the parameters. -/
theorem C72_braces_refuted (d : Dict) (h : d c!"trans" = none) :
    hfInput (.cartesian c!"{trans} butadiene\n") d = .error .key := by
  unfold hfInput formatMap
  have hk : toArgs d c!"trans" = none := by simp only [toArgs, h]
  refine format_field_error (toArgs d) c!"trans"
    (c!" butadiene\n" ++ (c!"*ACES2( BASIS={basis:s}," ++ c!"\n\tCALC=SCF,"
    ++ c!"\n\tMEMORY_SIZE=10GB," ++ c!"\n\t)" ++ c!"\n")) .key (by decide) (by decide) ?_
  intro name spec e
  rw [find_none_of_notMem ':' [] _ (by decide)] at e
  cases e
  simp only [hk]

private theorem basis_error {args : Str → Option Arg} {e : Err} {pre : Str} (h1 : '{' ∉ pre) (h2 : '}' ∉ pre)
    (h : (match args c!"basis" with
      | none => (.error .key : Except Err Str)
      | some a => formatArg a c!"s") = .error e) (rest : Str) :
    format args (pre ++ (c!"*ACES2( BASIS={basis:s}," ++ rest)) = .error e := by
  have hz := (Fills.lit args h1 h2).append
    (Fills.lit args (a := c!"*ACES2( BASIS=") (by decide) (by decide))
  have hf : format args ('{' :: (c!"basis:s" ++ '}' :: (c!"," ++ rest))) = .error e := by
    refine format_field_error args c!"basis:s" (c!"," ++ rest) e (by decide) (by decide) ?_
    intro name spec e1
    have hf := find_of_notMem ':' [] c!"basis" c!"s" (by decide)
    rw [show c!"basis" ++ [':'] ++ c!"s" = c!"basis:s" from rfl] at hf
    rw [hf] at e1
    cases e1
    exact h
  have := hz ('{' :: (c!"basis:s" ++ '}' :: (c!"," ++ rest)))
  rw [hf] at this
  rw [show (Except.map (fun x => (pre ++ c!"*ACES2( BASIS=") ++ x) (.error e : Except Err Str) : Except Err Str) = .error e
    from rfl] at this
  rw [← this]
  congr 1
  simp only [List.append_assoc, List.cons_append, List.nil_append]

/-- C72: without a basis set no input is made: a parameter that was never set is a TypeError, a missing one a
KeyError. -/
theorem C72_no_basis (z : Zmat) (d : Dict) (e : Err)
    (h : d c!"basis" = some .none ∧ e = .type ∨ d c!"basis" = none ∧ e = .key)
    (h1 : '{' ∉ z.get false ++ z.get true) (h2 : '}' ∉ z.get false ++ z.get true) :
    hfInput z d = .error e ∧ optInput z d = .error e ∧ vibInput z d = .error e ∧ ipInput z d = .error e ∧
    prepInput z d = .error e := by
  have hb : (match toArgs d c!"basis" with
      | none => (.error .key : Except Err Str)
      | some a => formatArg a c!"s") = .error e := by
    rcases h with ⟨h, rfl⟩ | ⟨h, rfl⟩
    · simp only [toArgs, h]; rfl
    · simp only [toArgs, h]
  simp only [List.mem_append, not_or] at h1 h2
  refine ⟨?_, ?_, ?_, ?_, ?_⟩
  · simp only [hfInput, formatMap, List.append_assoc]
    exact basis_error h1.1 h2.1 hb _
  · simp only [optInput, formatMap, List.append_assoc]
    exact basis_error h1.2 h2.2 hb _
  · simp only [vibInput, formatMap, List.append_assoc]
    exact basis_error h1.1 h2.1 hb _
  · simp only [ipInput, formatMap, List.append_assoc]
    exact basis_error h1.1 h2.1 hb _
  · simp only [prepInput, formatMap, List.append_assoc]
    exact basis_error h1.1 h2.1 hb _

/-- Witness: the parameters before a file was read. -/
example : (Zmat.cartesian c!"he\nHe 0 0 0\n\n").get false ++ (Zmat.cartesian c!"he\nHe 0 0 0\n\n").get true ≠ [] ∧
    '{' ∉ (Zmat.cartesian c!"he\nHe 0 0 0\n\n").get false ++ (Zmat.cartesian c!"he\nHe 0 0 0\n\n").get true := by
  decide

set_option maxRecDepth 8000 in
/-- C72 is false for a grid given in the parameter file: it is a text, which the template of the
coupling calculation does not accept. -/
theorem C72_grid_refuted (z : Zmat) (d : Dict) (basis theory grid : Str)
    (hb : d c!"basis" = some (.text basis)) (ht : d c!"theory" = some (.text theory))
    (hg : d c!"gridVibron" = some (.text grid))
    (h1 : '{' ∉ z.get false) (h2 : '}' ∉ z.get false) :
    prepInput z d = .error .value := by
  unfold prepInput formatMap
  have hz := Fills.lit (toArgs d) h1 h2
  have hL : ∀ a : Str, '{' ∉ a → '}' ∉ a → Fills (toArgs d) a a := fun a => Fills.lit _
  have hpre := hz.append ((fills_basis _ basis (lookup_text hb)).append
    (fills_theory _ theory (lookup_text ht)) |>.append
    (hL c!"\n\tMEMORY_SIZE=10GB," (by decide) (by decide)) |>.append
    (hL c!"\n\tIP_CALC=IP_EOMCC," (by decide) (by decide)) |>.append
    (hL c!"\n\tPREP_VIBRON=ON," (by decide) (by decide)) |>.append
    (hL c!"\n\tGRID_VIBRON=" (by decide) (by decide)))
  have hgr := lookup_text hg
  have herr : ∀ rest, format (toArgs d) ('{' :: (c!"gridVibron:d" ++ '}' :: rest)) = .error .value := by
    intro rest
    refine format_field_error (toArgs d) c!"gridVibron:d" rest .value (by decide) (by decide) ?_
    intro name spec e
    have hf := find_of_notMem ':' [] c!"gridVibron" c!"d" (by decide)
    rw [show c!"gridVibron" ++ [':'] ++ c!"d" = c!"gridVibron:d" from rfl] at hf
    rw [hf] at e
    cases e
    simp only [hgr]
    rfl
  have := hpre ('{' :: (c!"gridVibron:d" ++ '}' :: (c!"," ++ (c!"\n\tCC_CONV={ccConv:d}," ++ (c!"\n\tSCF_CONV={scfConv:d},"
    ++ (c!"\n\tESTATE_TOL={estateTol:d}," ++ (c!"\n\t)" ++ (c!"\n" ++ (c!"\n*mrcc_gen" ++ (c!"\n\tnip={nip:d}"
    ++ (c!"\n*ip_eom" ++ (c!"\n\tdiabatize=on" ++ (c!"\n\theff_low=0" ++ (c!"\n\theff_high=200" ++ (c!"\n*end"
    ++ c!"\n")))))))))))))))
  rw [herr] at this
  rw [← show (Except.map (fun x => _ ++ x) (.error .value : Except Err Str) : Except Err Str) = .error .value from rfl, ← this]
  congr 1
  simp only [List.append_assoc, List.cons_append, List.nil_append]

/-- Witness: the keywords for a helium atom. -/
example : hfInput (.cartesian c!"he\nHe 0 0 0\n\n") (fun k => if k = c!"basis" then some (.text c!"DZP") else none)
    = .ok c!"he\nHe 0 0 0\n\n*ACES2( BASIS=DZP,\n\tCALC=SCF,\n\tMEMORY_SIZE=10GB,\n\t)\n" := by
  have := C72_hf_partial (.cartesian c!"he\nHe 0 0 0\n\n")
    (fun k => if k = c!"basis" then some (.text c!"DZP") else none) c!"DZP" (by decide) (by decide) (by decide)
  exact this.trans (by decide)

/-- Witness: the parameters read from a file that sets the grid. -/
example : prepInput (.cartesian c!"he\nHe 0 0 0\n\n")
    (readParameters initialDict (some (fileText Pibronic.Props.Molecule.firstFile))).1 = .error .value :=
  C72_grid_refuted _ _ c!"DZP" c!"CCSD" c!"4" (by decide +kernel) (by decide +kernel) (by decide +kernel)
    (by decide) (by decide)

/-! ### C73 -/

theorem isYes_iff (a : Str) : isYes a = true ↔ 'y' ∈ a ∨ 'Y' ∈ a := by
  simp only [isYes, List.any_eq_true, Bool.or_eq_true, decide_eq_true_eq]
  constructor
  · rintro ⟨c, hc, rfl | rfl⟩
    · exact Or.inl hc
    · exact Or.inr hc
  · rintro (h | h)
    · exact ⟨_, h, Or.inl rfl⟩
    · exact ⟨_, h, Or.inr rfl⟩

/-- C73: when the user gives no answer, or no number and so no consent, an exception is raised. -/
theorem C73_no_answer (toInt : Str → Option ℤ) (guess : Option Nat) (answers : List Str)
    (h : ∀ a ∈ answers, 'y' ∉ a ∧ 'Y' ∉ a ∧ ∀ n, toInt a = some n → n < 0) :
    confirm toInt guess answers = .error .exception := by
  have hg : ∀ as, (∀ a ∈ as, 'y' ∉ a ∧ 'Y' ∉ a ∧ ∀ n, toInt a = some n → n < 0) →
      getInteger toInt as = .error .exception := by
    intro as
    induction as with
    | nil => exact fun _ => rfl
    | cons a as ih =>
      intro h
      have ih := ih fun x hx => h x (by simp [hx])
      unfold getInteger
      split
      · exact ih
      · next n hn =>
        rw [if_neg (by have := (h a (by simp)).2.2 n hn; omega)]
        exact ih
  have ha : ∀ as, (∀ a ∈ as, 'y' ∉ a ∧ 'Y' ∉ a ∧ ∀ n, toInt a = some n → n < 0) →
      askUntil toInt as = .error .exception := by
    intro as h
    rw [askUntil]
    split
    · next e he => rw [hg as h] at he; cases he; rfl
    · next he => exact absurd ((hg as h).symm.trans he) (by simp)
    · next he => exact absurd ((hg as h).symm.trans he) (by simp)
  unfold confirm
  cases guess with
  | none => exact ha _ h
  | some n =>
    cases answers with
    | nil => rfl
    | cons a as =>
      have : isYes a = false := by
        rw [Bool.eq_false_iff]
        intro hy
        rcases (isYes_iff a).1 hy with hy | hy
        · exact (h a (by simp)).1 hy
        · exact (h a (by simp)).2.1 hy
      simp only [this, Bool.false_eq_true, if_false]
      exact ha _ fun x hx => h x (by simp [hx])

/-- C73: a number that is typed in and then left without an answer is not taken. -/
theorem C73_no_consent (toInt : Str → Option ℤ) (a : Str) (n : ℤ) (hn : 0 ≤ n) (h : toInt a = some n) :
    confirm toInt none [a] = .error .exception ∧
    (∀ g b, 'y' ∉ b → 'Y' ∉ b → confirm toInt (some g) [b, a] = .error .exception) := by
  have ha : askUntil toInt [a] = .error .exception := by
    have hg : getInteger toInt [a] = .ok (n.toNat, []) := by simp [getInteger, h, hn]
    rw [askUntil]
    split
    · next he => exact absurd (hg.symm.trans he) (by simp)
    · rfl
    · next he => exact absurd (hg.symm.trans he) (by simp)
  refine ⟨ha, fun g b h1 h2 => ?_⟩
  have : isYes b = false := by
    rw [Bool.eq_false_iff]
    intro hy
    rcases (isYes_iff b).1 hy with hy | hy
    · exact h1 hy
    · exact h2 hy
  simp only [confirm, this, Bool.false_eq_true, if_false]
  exact ha

/-- C73: the number of states is confirmed by the user: it is the guess and the first answer was yes,
or it was typed in and the next answer was yes. -/
theorem C73_confirmed (toInt : Str → Option ℤ) (dropmo : Str) (evs : Except Err (List ℚ))
    (answers : List Str) (n : Nat) (h : estimateNip toInt dropmo evs answers = .ok n) :
    (∃ a rest dm, answers = a :: rest ∧ guessNip evs dm = some n ∧ ('y' ∈ a ∨ 'Y' ∈ a)) ∨
      ∃ pre a b post, answers = pre ++ a :: b :: post ∧ toInt a = some (n : ℤ) ∧
        ('y' ∈ b ∨ 'Y' ∈ b) := by
  have hget : ∀ as m rest, getInteger toInt as = .ok (m, rest) →
      ∃ pre a, as = pre ++ a :: rest ∧ toInt a = some (m : ℤ) := by
    intro as
    induction as with
    | nil => intro m rest h; cases h
    | cons a as ih =>
      intro m rest h
      unfold getInteger at h
      split at h
      · obtain ⟨pre, b, h1, h2⟩ := ih m rest h
        exact ⟨a :: pre, b, by simp [h1], h2⟩
      · next k hk =>
        split at h
        · next h0 =>
          cases h
          exact ⟨[], a, rfl, by rw [hk, Int.toNat_of_nonneg h0]⟩
        · obtain ⟨pre, b, h1, h2⟩ := ih m rest h
          exact ⟨a :: pre, b, by simp [h1], h2⟩
  have hask : ∀ k, ∀ as : List Str, as.length = k → ∀ m, askUntil toInt as = .ok m →
      ∃ pre a b post, as = pre ++ a :: b :: post ∧ toInt a = some (m : ℤ) ∧
        ('y' ∈ b ∨ 'Y' ∈ b) := by
    intro k
    induction k using Nat.strong_induction_on with
    | _ k ih =>
      intro as hk m h
      rw [askUntil] at h
      split at h
      · cases h
      · cases h
      · next x b post hg =>
        obtain ⟨pre, a, h1, h2⟩ := hget _ _ _ hg
        split at h
        · next hy => cases h; exact ⟨pre, a, b, post, h1, h2, (isYes_iff _).mp hy⟩
        · obtain ⟨pre', a', b', post', e1, e2, e3⟩ := ih post.length
            (by rw [← hk, h1]; simp; omega) post rfl m h
          exact ⟨pre ++ a :: b :: pre', a', b', post', by rw [h1, e1]; simp, e2, e3⟩
  unfold estimateNip at h
  split at h
  · cases h
  · next dm _ =>
    unfold confirm at h
    split at h
    · exact Or.inr (hask _ _ rfl n h)
    · next g hg =>
      split at h
      · cases h
      · next a rest =>
        split at h
        · next hy => cases h; exact Or.inl ⟨a, rest, dm, rfl, hg, (isYes_iff _).mp hy⟩
        · obtain ⟨pre, a', b', post, e1, e2, e3⟩ := hask _ _ rfl n h
          exact Or.inr ⟨a :: pre, a', b', post, by rw [e1]; simp, e2, e3⟩

/-- C73: a guess that the user agrees to, with a small or a capital letter, is used. -/
theorem C73_accepted (toInt : Str → Option ℤ) (dropmo : Str) (evs : Except Err (List ℚ)) (dm g : Nat)
    (hd : dropmoOf dropmo = .ok dm) (hg : guessNip evs dm = some g) (a : Str) (rest : List Str)
    (hy : 'y' ∈ a ∨ 'Y' ∈ a) : estimateNip toInt dropmo evs (a :: rest) = .ok g := by
  simp only [estimateNip, hd, confirm, hg, (isYes_iff a).mpr hy, if_true]

/-- C73: a keyword for the dropped orbitals that does not end in a digit is a `ValueError`. -/
theorem C73_bad_keyword (toInt : Str → Option ℤ) (dropmo : Str) (evs : Except Err (List ℚ))
    (answers : List Str) (c : Char) (hc : dropmo.getLast? = some c) (hd : c ∉ c!"0123456789") :
    estimateNip toInt dropmo evs answers = .error .value := by
  have h : digitVal c = none := by
    by_contra hne
    apply hd
    have h' : 48 ≤ c.toNat ∧ c.toNat ≤ 57 := by
      unfold digitVal at hne
      split at hne
      · next h' => exact ⟨by omega, by omega⟩
      · exact absurd rfl hne
    have : c = Char.ofNat c.toNat := (Char.ofNat_toNat c).symm
    rw [this]
    obtain ⟨h1, h2⟩ := h'
    generalize c.toNat = n at h1 h2
    interval_cases n <;> decide
  simp only [estimateNip, dropmoOf, hc, h]

/-- Witness: the guess for four orbitals, one of them dropped. -/
example : estimateNip (fun _ => none) c!"DROPMO=1" (.ok [-20, -10, -4, -3]) [c!"Yes"] =
    .ok 1 :=
  C73_accepted _ _ _ 1 1 (by decide +kernel) (by decide +kernel) _ _ (Or.inr (by decide))

/-- C73 is false of the answers: every answer with a `y` in it counts as yes. -/
theorem C73_answer_refuted : isYes c!"not really" = true ∧ isYes c!"no way" = true := by decide

private theorem digitVal_digit {d : Nat} (h : d < 10) : digitVal (digit d) = some d := by
  interval_cases d <;> decide

private theorem getLast_natStr (n : Nat) : (natStr n).getLast? = some (digit (n % 10)) := by
  rw [natStr]
  split
  · next h => rw [Nat.mod_eq_of_lt h]; rfl
  · simp

/-- C73: of the number of dropped orbitals only the last digit is used in the estimate. -/
theorem C73_dropmo_last_digit (n : Nat) : dropmoOf (dropmoString n) = .ok (n % 10) := by
  unfold dropmoString
  split_ifs with h1 h2
  · subst h1; rfl
  · unfold dropmoOf
    have : (c!"DROPMO=1-" ++ natStr n).getLast? = some (digit (n % 10)) := by
      rw [List.getLast?_append, getLast_natStr]; rfl
    simp only [this, digitVal_digit (Nat.mod_lt n (by omega))]
  · have : n = 0 := by omega
    subst this; rfl

/-- C73: fewer than ten dropped orbitals are taken into account correctly. -/
theorem C73_dropmo_partial (n : Nat) (h : n < 10) : dropmoOf (dropmoString n) = .ok n := by
  rw [C73_dropmo_last_digit, Nat.mod_eq_of_lt h]

/-- C73 is false from ten dropped orbitals on. -/
theorem C73_dropmo_refuted (n : Nat) (h : 10 ≤ n) :
    ∃ m, dropmoOf (dropmoString n) = .ok m ∧ m ≠ n :=
  ⟨n % 10, C73_dropmo_last_digit n, by have := Nat.mod_lt n (show 10 > 0 by omega); omega⟩

private theorem ratios_length (evs : List ℚ) : (ratios evs).length = evs.length - 1 := by
  induction evs with
  | nil => rfl
  | cons a l ih =>
    cases l with
    | nil => rfl
    | cons b l => rw [ratios, List.length_cons, ih]; simp

private theorem ratios_get (evs : List ℚ) (i : Nat) (a b : ℚ) (ha : evs[i]? = some a)
    (hb : evs[i + 1]? = some b) : (ratios evs)[i]? = some (a / b) := by
  induction evs generalizing i with
  | nil => simp at ha
  | cons x l ih =>
    cases l with
    | nil => simp at hb
    | cons y l =>
      rw [ratios]
      cases i with
      | zero => simp at ha hb; simp [ha, hb]
      | succ i => simpa using ih i (by simpa using ha) (by simpa using hb)

private theorem ratios_drop (evs : List ℚ) (k : Nat) : ratios (evs.drop k) = (ratios evs).drop k := by
  induction k generalizing evs with
  | zero => rfl
  | succ k ih =>
    cases evs with
    | nil => rfl
    | cons a l =>
      rw [List.drop_succ_cons, ih]
      cases l with
      | nil => simp [ratios]
      | cons b l => rw [ratios, List.drop_succ_cons]

private theorem foldl_max (l : List ℚ) (a : ℚ) :
    (l.foldl (fun m x => if m < x then x else m) a ∈ a :: l) ∧
      ∀ x ∈ a :: l, x ≤ l.foldl (fun m x => if m < x then x else m) a := by
  induction l generalizing a with
  | nil => simp
  | cons b l ih =>
    rw [List.foldl_cons]
    obtain ⟨h1, h2⟩ := ih (if a < b then b else a)
    constructor
    · rcases List.mem_cons.mp h1 with h | h
      · rw [h]; split_ifs <;> simp
      · simp [h]
    · intro x hx
      have h3 := h2 _ (List.mem_cons_self)
      simp only [List.mem_cons] at hx
      rcases hx with rfl | rfl | hx
      · refine le_trans ?_ h3
        split_ifs with h <;> [exact le_of_lt h; exact le_refl _]
      · refine le_trans ?_ h3
        split_ifs with h <;> [exact le_refl _; exact not_lt.mp h]
      · exact h2 x (by simp [hx])

private theorem pyMax_spec {l : List ℚ} {m : ℚ} (h : pyMax l = .ok m) : m ∈ l ∧ ∀ x ∈ l, x ≤ m := by
  cases l with
  | nil => cases h
  | cons a l =>
    cases h
    exact foldl_max l a

/-- C73: the suggested number of dropped orbitals is the number of orbitals below the first largest
ratio of neighbouring energies. -/
theorem C73_dropmo_guess (evs : List ℚ) (k : Nat) (h : guessDropmo (.ok evs) = some k) :
    1 ≤ k ∧ k < evs.length ∧
    (∀ (i : Nat) (a b c d : ℚ), evs[i]? = some a → evs[i + 1]? = some b → evs[k - 1]? = some c → evs[k]? = some d →
      a / b ≤ c / d ∧ (i + 1 < k → a / b < c / d)) := by
  unfold guessDropmo at h
  simp only at h
  split at h
  · cases h
  · next m hm =>
    simp only [Option.some.injEq] at h
    obtain ⟨h1, h2⟩ := pyMax_spec hm
    have hlt := List.idxOf_lt_length_of_mem h1
    have hget : (ratios evs)[(ratios evs).idxOf m]? = some m := by
      rw [List.getElem?_eq_getElem hlt, List.getElem_idxOf hlt]
    have hl := ratios_length evs
    refine ⟨by omega, by omega, ?_⟩
    intro i a b c d ha hb hc hd
    have e1 := ratios_get evs i a b ha hb
    have e2 := ratios_get evs (k - 1) c d hc (by rw [show k - 1 + 1 = k by omega]; exact hd)
    have : (ratios evs).idxOf m = k - 1 := by omega
    rw [← this, hget] at e2
    simp only [Option.some.injEq] at e2
    rw [← e2]
    have hle := h2 _ (List.mem_of_getElem? e1)
    refine ⟨hle, fun hi => lt_of_le_of_ne hle ?_⟩
    intro he
    rw [he] at e1
    have hi' : i < (ratios evs).idxOf m := by omega
    have := List.not_of_lt_findIdx (p := (· == m)) (xs := ratios evs) (i := i) hi'
    rw [List.getElem?_eq_some_iff] at e1
    obtain ⟨g1, g2⟩ := e1
    simp [g2] at this

/-- C73: the suggested number of states is the number of orbitals above the largest ratio of
neighbouring energies, leaving out the dropped orbitals and one more, when this ratio does not occur
among the orbitals left out. -/
theorem C73_nip_guess_partial (evs : List ℚ) (dropmo n : Nat) (h : guessNip (.ok evs) dropmo = some n)
    (hno : ∀ (i : Nat) (a b : ℚ), i ≤ dropmo → evs[i]? = some a → evs[i + 1]? = some b →
      ∀ (j : Nat) (c d : ℚ), dropmo < j → evs[j]? = some c → evs[j + 1]? = some d → a / b ≠ c / d) :
    ∃ k, n + k = evs.length ∧ 0 < n ∧ dropmo + 1 < k ∧
      ∀ (i : Nat) (a b c d : ℚ), dropmo < i → evs[i]? = some a → evs[i + 1]? = some b → evs[k - 1]? = some c →
        evs[k]? = some d → a / b ≤ c / d := by
  unfold guessNip at h
  simp only at h
  split at h
  · cases h
  · next hd =>
    split at h
    · cases h
    · next m hm =>
      simp only [Option.some.injEq] at h
      rw [ratios_drop] at hm
      obtain ⟨h1, h2⟩ := pyMax_spec hm
      have hl := ratios_length evs
      have hmem := List.mem_of_mem_drop h1
      have hlt := List.idxOf_lt_length_of_mem hmem
      have hget : (ratios evs)[(ratios evs).idxOf m]? = some m := by
        rw [List.getElem?_eq_getElem hlt, List.getElem_idxOf hlt]
      have back : ∀ i v, (ratios evs)[i]? = some v → ∃ a b, evs[i]? = some a ∧ evs[i + 1]? = some b ∧ v = a / b := by
        intro i v hv
        have hi := (List.getElem?_eq_some_iff.mp hv).1
        refine ⟨evs[i]'(by omega), evs[i + 1]'(by omega), List.getElem?_eq_getElem _,
          List.getElem?_eq_getElem _, ?_⟩
        have := ratios_get evs i _ _ (List.getElem?_eq_getElem (by omega)) (List.getElem?_eq_getElem (by omega))
        rw [this] at hv
        exact (Option.some.inj hv).symm
      have hpos : dropmo < (ratios evs).idxOf m := by
        by_contra hle
        obtain ⟨a, b, ea, eb, e1⟩ := back _ _ hget
        obtain ⟨j, hj, hjm⟩ := List.getElem_of_mem h1
        have hj' : (ratios evs)[dropmo + 1 + j]? = some m := by
          rw [← List.getElem?_drop, List.getElem?_eq_getElem hj, hjm]
        obtain ⟨c, d, ec, ed, e2⟩ := back _ _ hj'
        exact hno _ a b (by omega) ea eb _ c d (by omega) ec ed (e1.symm.trans e2)
      refine ⟨(ratios evs).idxOf m + 1, by omega, by omega, by omega, ?_⟩
      intro i a b c d hi ha hb hc hd'
      have e1 := ratios_get evs i a b ha hb
      have e2 := ratios_get evs ((ratios evs).idxOf m) c d (by simpa using hc) hd'
      rw [hget] at e2
      rw [← Option.some.inj e2]
      refine h2 _ ?_
      have : ((ratios evs).drop (dropmo + 1))[i - (dropmo + 1)]? = some (a / b) := by
        rw [List.getElem?_drop, show dropmo + 1 + (i - (dropmo + 1)) = i by omega, e1]
      exact List.mem_of_getElem? this

/-- C73 is false when the same ratio occurs among the orbitals left out: the suggestion then counts
orbitals that were to be left out. -/
theorem C73_tie_refuted : guessNip (.ok [-8, -4, -2]) 0 = some 2 := by
  decide +kernel

/-- C73: there is no suggestion when fewer orbitals are listed than are dropped. -/
theorem C73_no_guess (evs : List ℚ) (dropmo : Nat) (h : evs.length ≤ dropmo + 2) :
    guessNip (.ok evs) dropmo = none := by
  unfold guessNip
  simp only
  split
  · rfl
  · have h1 : ratios (evs.drop (dropmo + 1)) = [] := by
      rw [← List.length_eq_zero_iff, ratios_length, List.length_drop]; omega
    rw [h1]; rfl

/-- Witness: four orbitals, the first one dropped. -/
example : guessNip (.ok [-20, -3, -2, -1]) 0 = some 1 ∧ guessDropmo (.ok [-20, -3, -2, -1]) = some 1 := by
  decide +kernel

/-- Witness: a confirmed answer. -/
example : estimateNip (fun s => if s = c!"4" then some 4 else none) [] (.ok [-20, -3, -2, -1])
    [c!"n", c!"four", c!"4", c!"y"] = .ok 4 := by
  simp [estimateNip, dropmoOf, confirm, isYes, askUntil, getInteger,
    show guessNip (.ok [-20, -3, -2, -1]) 0 = some 1 by decide +kernel]

end Pibronic.Props.Inputs
