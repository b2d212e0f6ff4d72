import Verif.Props.ModelFiles
import Verif.Props.Results
import Verif.Model.Prepare
import Verif.Props.PIMC

set_option autoImplicit false
set_option linter.unusedSectionVars false

/-!
Theorems about the preparation of a calculation: which models it uses (C77), which temperatures
(C78), and whether its results are saved (C79).  `entry`, `SameModel` are defined in
`Spec/ModelIO.lean`.
-/
namespace Pibronic.Props.Prepare
open Py Pibronic.ModelIO Pibronic.Prepare Spec.ModelIO Pibronic.Props.ModelFiles Pibronic.PIMC

/-! ### helpers -/

section
variable {α : Type} [CommRing α] [DecidableEq α]

theorem lookup_skip (name : Str) (l : List (Str × J α)) (hl : ∀ m ∈ l, m.1 ≠ name)
    (rest : List (Str × J α)) : lookupInt (rest ++ l) name = lookupInt rest name := by
  unfold lookupInt
  rw [List.reverse_append, List.find?_append]
  have : List.find? (fun m : Str × J α => m.1 == name) l.reverse = none := by
    rw [List.find?_eq_none]
    intro x hx
    simpa using hl x (List.mem_reverse.mp hx)
  rw [this]
  rfl

theorem file_eq {kind : Kind} {A N : Nat} (m : Model α kind A N) :
    ∃ l : List (Str × J α), toFile m.toDict = [(nameN, J.int N), (nameA, J.int A)] ++ l ∧
      ∀ x ∈ l, ∃ k : Key, x.1 = k.name := by
  refine ⟨_, rfl, fun x hx => ?_⟩
  obtain ⟨k, -, hk⟩ := List.mem_filterMap.mp hx
  refine ⟨k, ?_⟩
  split at hk
  · split at hk
    · cases hk; rfl
    · cases hk
  · cases hk

theorem extractDims_toFile {kind : Kind} {A N : Nat} (m : Model α kind A N) (path : Str)
    (disk : Disk α) (hf : disk path = some (toFile m.toDict)) :
    extractDims path disk = .ok (A, N) := by
  obtain ⟨l, hl, hk⟩ := file_eq m
  have e : extractDims path disk = dimsOf ([(nameN, J.int N), (nameA, J.int A)] ++ l) := by
    unfold extractDims
    rw [hf, hl]
  rw [e]
  unfold dimsOf
  have hall : ([(nameN, J.int N), (nameA, J.int A)] ++ l : List (Str × J α)).all
      (fun m : Str × J α => knownKey m.1) = true := by
    rw [List.all_eq_true]
    intro x hx
    rcases List.mem_append.mp hx with hx | hx
    · simp only [List.mem_cons, List.not_mem_nil, or_false] at hx
      rcases hx with rfl | rfl
      · simp [knownKey]
      · simp [knownKey]
    · obtain ⟨k, hk⟩ := hk x hx
      simp only [knownKey, hk, Bool.or_eq_true, List.any_eq_true, beq_iff_eq]
      exact .inr ⟨k, Key.mem_all k, rfl⟩
  rw [if_pos hall, lookup_skip nameN l, lookup_skip nameA l]
  · rfl
  · intro x hx
    obtain ⟨k, hk⟩ := hk x hx
    rw [hk]; exact k.name_ne.2
  · intro x hx
    obtain ⟨k, hk⟩ := hk x hx
    rw [hk]; exact k.name_ne.1

end

/-- zeros for the four kinds of parameters that a calculation uses -/
noncomputable def blank (kind : Kind) (A N : Nat) : Model ℝ kind A N :=
  ⟨fun k => match k with
    | .G3 => none
    | .G4 => none
    | .E => some (Tensor.zeros _)
    | .w => some (Tensor.zeros _)
    | .G1 => some (Tensor.zeros _)
    | .G2 => some (Tensor.zeros _)⟩

theorem template_eq (kind : Kind) (A N : Nat) : template kind A N N = (blank kind A N).toDict := by
  unfold template Model.toDict blank
  congr 1
  funext k
  cases k <;> rfl

/-- the system as it is stored in a model -/
noncomputable def vibOf {A N : Nat} (m : Model ℝ .coupled A N) : Vib A N where
  energy := fun a b => m.get .E a b
  omega := fun i => m.get .w i
  linear := fun i a b => m.get .G1 i a b
  quadratic := fun i j a b => m.get .G2 i j a b

/-- the sampling model as it is stored in a model -/
noncomputable def rhoOf {A N : Nat} (m : Model ℝ .diagonal A N) : Rho A N where
  energy := fun a => m.get .E a
  omega := fun i => m.get .w i
  linear := fun i a => m.get .G1 i a

theorem loadVib_eq {A N : Nat} (m : Model ℝ .coupled A N) (path : Str) (disk : Disk ℝ)
    (hf : disk path = some (toFile m.toDict)) : loadVib path A N disk = .ok ⟨A, N, vibOf m⟩ := by
  unfold loadVib
  rw [template_eq, loadInplace_eq m (blank .coupled A N) path disk hf]
  rfl

theorem loadRho_eq {B N : Nat} (m : Model ℝ .diagonal B N) (path : Str) (disk : Disk ℝ)
    (hf : disk path = some (toFile m.toDict)) : loadRho path N disk = .ok ⟨B, N, rhoOf m⟩ := by
  unfold loadRho
  rw [extractDims_toFile m path disk hf]
  simp only [bind, Except.bind]
  rw [template_eq, loadInplace_eq m (blank .diagonal B N) path disk hf]
  rfl

theorem loadRho_other {B N M : Nat} (hM : N ≠ M) (m : Model ℝ .diagonal B N) (path : Str)
    (disk : Disk ℝ) (hf : disk path = some (toFile m.toDict)) :
    loadRho path M disk = .error .assertion := by
  unfold loadRho
  rw [extractDims_toFile m path disk hf]
  simp only [bind, Except.bind]
  have hv : verify .diagonal (template .diagonal B N M) = .error .assertion := by
    cases hv : verify .diagonal (template .diagonal B N M) with
    | error e => rw [verify_error hv]
    | ok v =>
      have he := verify_ok hv
      have h1 : some N = some v.N := congrArg ModelIO.Dict.N he
      have h2 := congrArg (fun d => (d.arr .w).map fun a => a.shape) he
      simp only [template, Model.toDict, Option.map_some, Option.map_map] at h2
      cases hw : v.model.arr .w with
      | none => rw [hw] at h2; cases h2
      | some t =>
        rw [hw] at h2
        have h3 : some [M] = some [v.N] := h2
        simp only [Option.some.injEq, List.cons.injEq, and_true] at h1 h3
        exact absurd (h1.trans h3.symm) hM
  unfold loadInplace
  rw [hv]
  rfl

/-- Preparation with loaded models. -/
theorem preprocess_eq {A N B : Nat} (d : Data) (disk : Disk ℝ) (m : Model ℝ .coupled A N)
    (r : Model ℝ .diagonal B N) (hA : d.states = A) (hN : d.modes = N) (hP : 3 ≤ d.beads)
    (hv : disk d.pathVib = some (toFile m.toDict)) (hr : disk d.pathRho = some (toFile r.toDict)) :
    preprocess d disk = .ok ({ d with
        beta := Constants.beta d.temperature
        tau := Constants.beta d.temperature / d.beads
        betaPlus := d.beta + d.deltaBeta
        betaMinus := d.beta - d.deltaBeta
        tauPlus := (d.beta + d.deltaBeta) / d.beads
        tauMinus := (d.beta - d.deltaBeta) / d.beads },
      ⟨A, N, vibOf m, B, N, rhoOf r, Constants.beta d.temperature / d.beads,
        (Constants.beta d.temperature + d.deltaBeta) / d.beads,
        (Constants.beta d.temperature - d.deltaBeta) / d.beads⟩) := by
  subst hA hN
  unfold preprocess preprocessBase
  rw [if_neg (by omega)]
  simp only [not_lt.mpr hP, if_false]
  rw [loadVib_eq m d.pathVib disk hv, loadRho_eq r d.pathRho disk hr]
  rfl

/-! ### C77 -/

/-- Two models saved one after the other. -/
noncomputable def saveBoth (pv pr : Str) (d r : ModelIO.Dict ℝ) (disk : Disk ℝ) :
    Except Err Unit × Disk ℝ :=
  match save .coupled pv d disk with
  | (.error e, k) => (.error e, k)
  | (.ok _, k) => save .diagonal pr r k

theorem saveBoth_ok {pv pr : Str} {d r : ModelIO.Dict ℝ} {disk : Disk ℝ} (hp : pv ≠ pr)
    (h : (saveBoth pv pr d r disk).1 = .ok ()) :
    ∃ A N B M, ∃ (m : Model ℝ .coupled A N) (s : Model ℝ .diagonal B M), d = m.toDict ∧ r = s.toDict ∧
      (saveBoth pv pr d r disk).2 pv = some (toFile m.toDict) ∧
      (saveBoth pv pr d r disk).2 pr = some (toFile s.toDict) := by
  unfold saveBoth at h ⊢
  cases hs : save .coupled pv d disk with
  | mk res k =>
    rw [hs] at h
    cases res with
    | error e => simp at h
    | ok u =>
      have h1 : (save .coupled pv d disk).1 = .ok () := by rw [hs]
      obtain ⟨A, N, m, rfl, hm⟩ := saved_file _ _ _ _ h1
      rw [hs] at hm
      simp only at h hm ⊢
      obtain ⟨B, M, s, rfl, hr⟩ := saved_file _ _ _ _ h
      refine ⟨A, N, B, M, m, s, rfl, rfl, ?_, hr⟩
      unfold save
      rw [verify_toDict]
      simp only [Disk.write, if_neg hp, hm]

/-- C77: after a coupled model `d` and a sampling model `r` with the same number of modes were saved,
an object made from their directory can be prepared for any temperature and at least three beads, and
the calculation uses exactly the energies, frequencies, linear and quadratic terms of `d` and the
energies, frequencies and linear terms of `r`. -/
theorem C77_models_used (pv pr : Str) (hp : pv ≠ pr) (d r : ModelIO.Dict ℝ) (disk : Disk ℝ)
    (h : (saveBoth pv pr d r disk).1 = .ok ()) (hN : d.N = r.N) (deltaBeta T : ℝ) (P : Nat)
    (hP : 3 ≤ P) :
    ∃ b b' e, fromFileStructure pv pr deltaBeta (saveBoth pv pr d r disk).2 = .ok b ∧
      preprocess { b with temperature := T, beads := P } (saveBoth pv pr d r disk).2 = .ok (b', e) ∧
      d.A = some e.A ∧ d.N = some e.N ∧ r.A = some e.B ∧ r.N = some e.M ∧
      (∀ a b, e.vib.energy a b = entry d .E [a.1, b.1]) ∧
      (∀ i, e.vib.omega i = entry d .w [i.1]) ∧
      (∀ i a b, e.vib.linear i a b = entry d .G1 [i.1, a.1, b.1]) ∧
      (∀ i j a b, e.vib.quadratic i j a b = entry d .G2 [i.1, j.1, a.1, b.1]) ∧
      (∀ a, e.rho.energy a = entry r .E [a.1]) ∧
      (∀ i, e.rho.omega i = entry r .w [i.1]) ∧
      (∀ i a, e.rho.linear i a = entry r .G1 [i.1, a.1]) := by
  obtain ⟨A, N, B, M, m, s, rfl, rfl, hv, hr⟩ := saveBoth_ok hp h
  simp only [Model.toDict, Option.some.injEq] at hN
  subst hN
  refine ⟨_, _, _, by
    unfold fromFileStructure
    rw [extractDims_toFile m pv _ hv]
    rfl, preprocess_eq _ _ m s rfl rfl hP hv hr, rfl, rfl, rfl, rfl, ?_, ?_, ?_, ?_, ?_, ?_, ?_⟩
  all_goals intros
  all_goals rw [entry_eq_get]
  all_goals simp [at_, vibOf, rhoOf, shape, modes, surf]

/-- C77: a sampling model with another number of modes is refused. -/
theorem C77_other_modes_refused (pv pr : Str) (hp : pv ≠ pr) (d r : ModelIO.Dict ℝ) (disk : Disk ℝ)
    (h : (saveBoth pv pr d r disk).1 = .ok ()) (hN : d.N ≠ r.N) (deltaBeta T : ℝ) (P : Nat)
    (hP : 3 ≤ P) :
    ∃ b, fromFileStructure pv pr deltaBeta (saveBoth pv pr d r disk).2 = .ok b ∧
      preprocess { b with temperature := T, beads := P } (saveBoth pv pr d r disk).2
        = .error .assertion := by
  obtain ⟨A, N, B, M, m, s, rfl, rfl, hv, hr⟩ := saveBoth_ok hp h
  simp only [Model.toDict, ne_eq, Option.some.injEq] at hN
  refine ⟨_, by
    unfold fromFileStructure
    rw [extractDims_toFile m pv _ hv]
    rfl, ?_⟩
  unfold preprocess preprocessBase
  rw [if_neg (by show ¬ P = 0; omega)]
  simp only [not_lt.mpr hP, if_false]
  rw [loadVib_eq m pv _ hv, loadRho_other (Ne.symm hN) s pr _ hr]
  rfl

/-- C77: without the file of the coupled model no object can be made from the directory. -/
theorem C77_missing_model (pv pr : Str) (deltaBeta : ℝ) (disk : Disk ℝ) (h : disk pv = none) :
    fromFileStructure pv pr deltaBeta disk = .error .assertion := by
  unfold fromFileStructure extractDims
  rw [h]
  rfl

/-- C77: a file with an unknown member, without a dimension or with a list in the place of one is refused. -/
theorem C77_bad_dimensions (pv pr : Str) (deltaBeta : ℝ) (disk : Disk ℝ) (f : List (Str × J ℝ))
    (h : disk pv = some f) :
    (∀ m ∈ f, m.1 ≠ nameN → m.1 ≠ nameA → (∀ k : Key, k.name ≠ m.1) →
      fromFileStructure pv pr deltaBeta disk = .error .value) ∧
    ((∀ m ∈ f, ∃ k : Key, k.name = m.1) →
      fromFileStructure pv pr deltaBeta disk = .error .key) ∧
    (∀ before after l, f = before ++ (nameN, .list l) :: after → (∀ m ∈ after, m.1 ≠ nameN) →
      (∀ m ∈ f, m.1 = nameN ∨ m.1 = nameA ∨ ∃ k : Key, k.name = m.1) →
      fromFileStructure pv pr deltaBeta disk = .error .type) ∧
    (∀ before after l N, f = before ++ (nameA, .list l) :: after → (∀ m ∈ after, m.1 ≠ nameA) →
      (∀ m ∈ f, m.1 = nameN ∨ m.1 = nameA ∨ ∃ k : Key, k.name = m.1) → lookupInt f nameN = .ok N →
      fromFileStructure pv pr deltaBeta disk = .error .type) := by
  have hall : ∀ k : Key, k ∈ Key.all := by intro k; cases k <;> decide
  have hknown : ∀ s, knownKey s = true ↔ s = nameN ∨ s = nameA ∨ ∃ k : Key, k.name = s := by
    intro s
    simp only [knownKey, Bool.or_eq_true, beq_iff_eq, List.any_eq_true, or_assoc]
    constructor
    · rintro (h | h | ⟨k, -, h⟩)
      · exact .inl h
      · exact .inr (.inl h)
      · exact .inr (.inr ⟨k, h⟩)
    · rintro (h | h | ⟨k, h⟩)
      · exact .inl h
      · exact .inr (.inl h)
      · exact .inr (.inr ⟨k, hall k, h⟩)
  have hlist : ∀ name before after l, f = before ++ (name, .list l) :: after →
      (∀ m ∈ after, m.1 ≠ name) → lookupInt f name = .error .type := by
    rintro name before after l rfl ha
    unfold lookupInt
    have : ((before ++ (name, J.list l) :: after).reverse.find? fun m : Str × J ℝ => m.1 == name)
        = some (name, .list l) := by
      rw [List.reverse_append, List.reverse_cons, List.append_assoc, List.find?_append,
        List.find?_eq_none.2 (by intro m hm; simpa using ha m (List.mem_reverse.1 hm))]
      simp
    rw [this]
  unfold fromFileStructure extractDims dimsOf
  rw [h]
  simp only
  refine ⟨fun m hm h1 h2 h3 => ?_, fun hm => ?_, fun before after l hf ha hm => ?_,
    fun before after l N hf ha hm hN => ?_⟩
  · rw [if_neg]
    · rfl
    · rw [List.all_eq_true]
      intro hc
      rcases (hknown _).1 (hc m hm) with h | h | ⟨k, h⟩
      · exact h1 h
      · exact h2 h
      · exact h3 k h
  · rw [if_pos (List.all_eq_true.2 fun m h => (hknown _).2 (.inr (.inr (hm m h))))]
    have : lookupInt f nameN = .error .key := by
      unfold lookupInt
      rw [List.find?_eq_none.2]
      intro m h
      obtain ⟨k, hk⟩ := hm m (List.mem_reverse.1 h)
      rw [beq_iff_eq, ← hk]
      cases k <;> decide
    simp [this, bind, Except.bind]
  · rw [if_pos (List.all_eq_true.2 fun m h => (hknown _).2 (hm m h))]
    simp [hlist _ _ _ _ hf ha, bind, Except.bind]
  · rw [if_pos (List.all_eq_true.2 fun m h => (hknown _).2 (hm m h))]
    simp [hlist _ _ _ _ hf ha, hN, bind, Except.bind]

example : fromFileStructure c!"v" c!"r" 0 (fun _ => some [(nameA, .int 2), (nameN, .list [])])
    = .error .type :=
  (C77_bad_dimensions c!"v" c!"r" 0 _ _ rfl).2.2.1 [(nameA, .int 2)] [] [] rfl (by simp) (by simp)

/-- C77: without the file of the sampling model the preparation fails. -/
theorem C77_missing_sampling_model {A N : Nat} (d : Data) (disk : Disk ℝ) (m : Model ℝ .coupled A N)
    (hA : d.states = A) (hN : d.modes = N) (hP : 3 ≤ d.beads)
    (hv : disk d.pathVib = some (toFile m.toDict)) (hr : disk d.pathRho = none) :
    preprocess d disk = .error .assertion := by
  subst hA hN
  unfold preprocess preprocessBase
  rw [if_neg (by omega)]
  simp only [not_lt.mpr hP, if_false]
  rw [loadVib_eq m d.pathVib disk hv]
  simp only [bind, Except.bind]
  unfold loadRho extractDims
  rw [hr]
  rfl

/-- C77 is false for models with cubic or quartic terms: they are ignored.  Two different models are
saved, and a calculation prepared from one or the other is the same. -/
theorem C77_higher_orders_refuted : ∃ d d' r : ModelIO.Dict ℝ, WellFormed .coupled d ∧
    WellFormed .coupled d' ∧ WellFormed .diagonal r ∧ ¬ SameModel d d' ∧
    ∀ (pv pr : Str) (disk : Disk ℝ) (deltaBeta T : ℝ) (P : Nat), pv ≠ pr → 3 ≤ P →
      ∃ b b' e, fromFileStructure pv pr deltaBeta (saveBoth pv pr d r disk).2 = .ok b ∧
        fromFileStructure pv pr deltaBeta (saveBoth pv pr d' r disk).2 = .ok b ∧
        preprocess { b with temperature := T, beads := P } (saveBoth pv pr d r disk).2 = .ok (b', e) ∧
        preprocess { b with temperature := T, beads := P } (saveBoth pv pr d' r disk).2
          = .ok (b', e) := by
  let m : Model ℝ .coupled 1 1 := ⟨fun k => match k with
    | .w => some fun _ => (1 : ℝ)
    | .G3 => some fun _ _ _ _ _ => (1 : ℝ)
    | _ => none⟩
  let m' : Model ℝ .coupled 1 1 := ⟨fun k => match k with
    | .w => some fun _ => (1 : ℝ)
    | _ => none⟩
  let s : Model ℝ .diagonal 1 1 := ⟨fun k => match k with
    | .E => some fun _ => (1 : ℝ)
    | .w => some fun _ => (1 : ℝ)
    | _ => none⟩
  have key : ∀ (pv pr : Str) (disk : Disk ℝ), pv ≠ pr → ∀ x : Model ℝ .coupled 1 1,
      (saveBoth pv pr x.toDict s.toDict disk).2 pv = some (toFile x.toDict) ∧
      (saveBoth pv pr x.toDict s.toDict disk).2 pr = some (toFile s.toDict) := by
    intro pv pr disk hp x
    simp only [saveBoth, save, verify_toDict, Disk.write, if_true, if_neg hp, and_self]
  refine ⟨m.toDict, m'.toDict, s.toDict, wellFormed_iff.mpr ⟨1, 1, m, rfl⟩,
    wellFormed_iff.mpr ⟨1, 1, m', rfl⟩, wellFormed_iff.mpr ⟨1, 1, s, rfl⟩, fun h => ?_, ?_⟩
  · have := h.2.2 .G3 [0, 0, 0, 0, 0]
    simp [entry, Model.toDict, m, m', at_, shape, modes, surf] at this
  · intro pv pr disk deltaBeta T P hp hP
    obtain ⟨h1, h2⟩ := key pv pr disk hp m
    obtain ⟨h1', h2'⟩ := key pv pr disk hp m'
    exact ⟨_, _, _, by
      unfold fromFileStructure
      rw [extractDims_toFile m pv _ h1]
      rfl, by
      unfold fromFileStructure
      rw [extractDims_toFile m' pv _ h1']
      rfl, preprocess_eq _ _ m s rfl rfl hP h1 h2, preprocess_eq _ _ m' s rfl rfl hP h1' h2'⟩

/-! ### C78 -/

/-- C78: the time steps that a prepared calculation uses belong to its temperature and number of
beads, whatever `beta`, `tau` and plus/minus values the object had before. -/
theorem C78_used (d d' : Data) (e : Engine) (disk : Disk ℝ) (h : preprocess d disk = .ok (d', e)) :
    3 ≤ d.beads ∧ e.tau = Constants.beta d.temperature / d.beads ∧
    e.tauPlus = (Constants.beta d.temperature + d.deltaBeta) / d.beads ∧
    e.tauMinus = (Constants.beta d.temperature - d.deltaBeta) / d.beads ∧
    d'.beta = Constants.beta d.temperature ∧ d'.tau = e.tau ∧
    d'.temperature = d.temperature ∧ d'.beads = d.beads ∧ d'.deltaBeta = d.deltaBeta := by
  unfold preprocess preprocessBase at h
  by_cases h0 : d.beads = 0
  · rw [if_pos h0] at h; cases h
  rw [if_neg h0] at h
  by_cases h3 : d.beads < 3
  · simp only [if_pos h3] at h; cases h
  simp only [if_neg h3] at h
  cases hv : loadVib d.pathVib d.states d.modes disk with
  | error x => rw [hv] at h; cases h
  | ok v =>
    rw [hv] at h
    simp only [bind, Except.bind] at h
    cases hr : loadRho d.pathRho d.modes disk with
    | error x => rw [hr] at h; cases h
    | ok r =>
      rw [hr] at h
      simp only [Except.ok.injEq, Prod.mk.injEq] at h
      obtain ⟨rfl, rfl⟩ := h
      exact ⟨by omega, rfl, rfl, rfl, rfl, rfl, rfl, rfl, rfl⟩

/-- C78: fewer than three beads are refused: none with a division by zero, one or two by an assertion. -/
theorem C78_few_beads_refused (d : Data) (disk : Disk ℝ) (h : d.beads < 3) :
    preprocess d disk = .error (if d.beads = 0 then .zeroDivision else .assertion) := by
  unfold preprocess preprocessBase
  by_cases h0 : d.beads = 0
  · rw [if_pos h0, if_pos h0]
  · rw [if_neg h0, if_neg h0]
    exact if_pos h

/-- C78: what the prepared object itself reports as its plus and minus values: they are made from the
`beta` it had before. -/
theorem C78_reported (d d' : Data) (e : Engine) (disk : Disk ℝ)
    (h : preprocess d disk = .ok (d', e)) :
    d'.betaPlus = d.beta + d.deltaBeta ∧ d'.betaMinus = d.beta - d.deltaBeta ∧
    d'.tauPlus = d'.betaPlus / d.beads ∧ d'.tauMinus = d'.betaMinus / d.beads := by
  unfold preprocess preprocessBase at h
  by_cases h0 : d.beads = 0
  · rw [if_pos h0] at h; cases h
  rw [if_neg h0] at h
  by_cases h3 : d.beads < 3
  · simp only [if_pos h3] at h; cases h
  simp only [if_neg h3] at h
  cases hv : loadVib d.pathVib d.states d.modes disk with
  | error x => rw [hv] at h; cases h
  | ok v =>
    rw [hv] at h
    simp only [bind, Except.bind] at h
    cases hr : loadRho d.pathRho d.modes disk with
    | error x => rw [hr] at h; cases h
    | ok r =>
      rw [hr] at h
      simp only [Except.ok.injEq, Prod.mk.injEq] at h
      obtain ⟨rfl, rfl⟩ := h
      exact ⟨rfl, rfl, rfl, rfl⟩

/-- C78, the part that holds: an object whose `beta` belongs to its temperature reports the values that
are used.  Missing: objects whose `beta` was not set or belongs to another temperature
(`C78_reported_refuted`). -/
theorem C78_reported_partial (d d' : Data) (e : Engine) (disk : Disk ℝ)
    (h : preprocess d disk = .ok (d', e)) (hb : d.beta = Constants.beta d.temperature) :
    d'.tauPlus = e.tauPlus ∧ d'.tauMinus = e.tauMinus ∧
    d'.betaPlus = d'.beta + d'.deltaBeta ∧ d'.betaMinus = d'.beta - d'.deltaBeta := by
  obtain ⟨-, h1, h2, h3, h4, -, -, -, h5⟩ := C78_used d d' e disk h
  obtain ⟨h6, h7, h8, h9⟩ := C78_reported d d' e disk h
  rw [h8, h9, h6, h7, h2, h3, h4, h5, hb]
  exact ⟨rfl, rfl, rfl, rfl⟩

/-- C78: preparing an object a second time makes it report the values that are used. -/
theorem C78_second_preparation (d d' d'' : Data) (e e' : Engine) (disk disk' : Disk ℝ)
    (h : preprocess d disk = .ok (d', e)) (h' : preprocess d' disk' = .ok (d'', e')) :
    d''.tauPlus = e'.tauPlus ∧ d''.tauMinus = e'.tauMinus ∧ e'.tau = e.tau ∧
    e'.tauPlus = e.tauPlus ∧ e'.tauMinus = e.tauMinus := by
  obtain ⟨-, h1, h2, h3, h4, -, h5, h6, h7⟩ := C78_used d d' e disk h
  obtain ⟨-, k1, k2, k3, -⟩ := C78_used d' d'' e' disk' h'
  obtain ⟨a, b, -⟩ := C78_reported_partial d' d'' e' disk' h' (by rw [h4, h5])
  exact ⟨a, b, by rw [k1, h1, h5, h6], by rw [k2, h2, h5, h6, h7], by rw [k3, h3, h5, h6, h7]⟩

/-- a coupled and a sampling model with one surface and one mode -/
noncomputable def oneVib : Model ℝ .coupled 1 1 := ⟨fun k => match k with
  | .w => some fun _ => (1 : ℝ)
  | .G1 => some fun _ _ _ => (2 : ℝ)
  | _ => none⟩
@[inherit_doc oneVib] noncomputable def oneRho : Model ℝ .diagonal 1 1 := ⟨fun k => match k with
  | .E => some fun _ => (3 : ℝ)
  | .w => some fun _ => (1 : ℝ)
  | _ => none⟩

theorem oneSaved (disk : Disk ℝ) :
    (saveBoth c!"v" c!"r" oneVib.toDict oneRho.toDict disk).1 = .ok () := by
  simp only [saveBoth, save, verify_toDict]

/-- C78 is false for an object made from a directory: whatever the temperature and the number of
beads, it reports a negative `beta` for the minus calculation, while the calculation uses the right
one. -/
theorem C78_reported_refuted (T deltaBeta : ℝ) (hT : 0 < T) (hd : 0 < deltaBeta) (P : Nat)
    (hP : 3 ≤ P) : ∃ (disk : Disk ℝ) (b b' : Data) (e : Engine),
      fromFileStructure c!"v" c!"r" deltaBeta disk = .ok b ∧
      preprocess { b with temperature := T, beads := P } disk = .ok (b', e) ∧
      b'.betaMinus < 0 ∧ b'.tauMinus ≠ e.tauMinus ∧ b'.tauPlus ≠ e.tauPlus := by
  obtain ⟨b, b', e, hb, hp, -⟩ := C77_models_used c!"v" c!"r" (by decide) oneVib.toDict oneRho.toDict
    (fun _ => none) (oneSaved _) rfl deltaBeta T P hP
  obtain ⟨-, -, h2, h3, -⟩ := C78_used _ _ _ _ hp
  obtain ⟨h6, h7, h8, h9⟩ := C78_reported _ _ _ _ hp
  have hb0 : b.beta = 0 ∧ b.deltaBeta = deltaBeta := by
    unfold fromFileStructure at hb
    cases hx : extractDims c!"v" (saveBoth c!"v" c!"r" oneVib.toDict oneRho.toDict fun _ => none).2 with
    | error x => rw [hx] at hb; cases hb
    | ok x =>
      rw [hx] at hb
      simp only [bind, Except.bind, Except.ok.injEq] at hb
      subst hb
      exact ⟨rfl, rfl⟩
  simp only [hb0.1, hb0.2, zero_add, zero_sub] at h2 h3 h6 h7 h8 h9
  have hbeta : 0 < Constants.beta T := by
    unfold Constants.beta Constants.boltzman Constants.nistJPerEv
    positivity
  have hP0 : (0 : ℝ) < P := by exact_mod_cast (by omega : 0 < P)
  refine ⟨_, b, b', e, hb, hp, by rw [h7]; linarith, ?_, ?_⟩
  · rw [h9, h7, h3]
    intro h
    rw [div_left_inj' hP0.ne'] at h
    linarith
  · rw [h8, h6, h2]
    intro h
    rw [div_left_inj' hP0.ne'] at h
    linarith

/-! ### C79 -/

section
variable {V : Type}
open Pibronic.Results

theorem blockStep_hash {vals : BlockValues V} {X B i : Nat} {b b' : Box V}
    (h : blockStep vals X B i b = .ok b') : b'.hashVib = b.hashVib ∧ b'.hashRho = b.hashRho := by
  unfold blockStep at h
  simp only at h
  split at h
  · cases h
  · simp only [bind, Except.bind] at h
    split at h
    · cases h
    · split at h
      · cases h
      · split at h
        · split at h
          · cases h
          · split at h
            · cases h
            · cases h; exact ⟨rfl, rfl⟩
        · cases h; exact ⟨rfl, rfl⟩

theorem blockLoop_hash {vals : BlockValues V} {X B : Nat} : ∀ (k i : Nat) {b b' : Box V},
    blockLoop vals X B i k b = .ok b' → b'.hashVib = b.hashVib ∧ b'.hashRho = b.hashRho
  | 0, _, b, b', h => by cases h; exact ⟨rfl, rfl⟩
  | k + 1, i, b, b', h => by
    unfold blockLoop at h
    simp only [bind, Except.bind] at h
    split at h
    · cases h
    · next b1 h1 =>
      obtain ⟨h2, h3⟩ := blockLoop_hash k (i + 1) h
      obtain ⟨h4, h5⟩ := blockStep_hash h1
      exact ⟨h2.trans h4, h3.trans h5⟩

/-- C79 is false for objects made from a directory or by hand, which have no hashes: a calculation
never returns, whatever the numbers of samples and blocks are, so its results are lost. -/
theorem C79_unsaved_refuted (cls : Cls) (hv hr : Option Str) (h : hv = none ∨ hr = none)
    (P T X B blocks : Nat) (root : Str) (vals : BlockValues V) (disk : Results.Disk V) :
    ∃ e, calculate cls hv hr P T X B blocks root vals disk = .error e := by
  unfold calculate blockCompute
  simp only
  cases hl : blockLoop vals X B 0 blocks
      { (init cls (some ⟨P, T, X, hv, hr⟩) none : Box V) with pathRoot := some root } with
  | error e => exact ⟨e, rfl⟩
  | ok b =>
    simp only [bind, Except.bind]
    split
    · exact ⟨_, rfl⟩
    · obtain ⟨h1, h2⟩ := blockLoop_hash _ _ hl
      have h3 : b.hashVib = hv := h1
      have h4 : b.hashRho = hr := h2
      unfold saveResults
      simp only [bind, Except.bind]
      cases computePathToFile b with
      | error e => exact ⟨e, rfl⟩
      | ok path =>
        rcases h with rfl | rfl
        · rw [h3]; exact ⟨_, rfl⟩
        · rw [h3, h4]
          cases hv <;> exact ⟨_, rfl⟩

/-- C79: this is found out late: all blocks have been computed when the missing hashes are an `AssertionError`. -/
theorem C79_unsaved_after_all_blocks (cls : Cls) (hv hr : Option Str) (h : hv = none ∨ hr = none)
    (P T X B blocks : Nat) (hX : 0 < X) (hb : 0 < blocks) (hfit : blocks * B ≤ X) (root : Str) (vals : BlockValues V)
    (disk : Results.Disk V) :
    calculate cls hv hr P T X B blocks root vals disk = .error .assertion ∧
    ∃ b, blockLoop vals X B 0 blocks
        { (init cls (some ⟨P, T, X, hv, hr⟩) none : Box V) with pathRoot := some root } = .ok b ∧
      b.scaledRho = Results.computedThenNaN vals.rho B (blocks * B) X ∧
      b.scaledG = Results.computedThenNaN vals.g B (blocks * B) X := by
  obtain ⟨b, e, m, f⟩ := Pibronic.Results.blockLoop_ok vals X B blocks 0
    { (init cls (some ⟨P, T, X, hv, hr⟩) none : Box V) with pathRoot := some root }
    (by simpa using hfit) (by
      have := Results.filled_prepared vals cls P T X B [] [] root
      exact ⟨this.1, this.2, this.3, this.4⟩)
  rw [Nat.zero_add] at f
  have h1 : b.samples = .int X := m.samples
  have h2 : b.partialName = some (P, T) := m.partialName
  have h4 : b.pathRoot = some root := m.pathRoot
  have h5 : b.hashVib = hv := m.hashVib
  have h6 : b.hashRho = hr := m.hashRho
  have hz : Count.isZeroLit (.int X) = false := by
    cases X with
    | zero => omega
    | succ n => rfl
  refine ⟨?_, b, e, ?_, ?_⟩
  · unfold calculate blockCompute
    simp only [e, bind, Except.bind, saveResults, computePathToFile, h1, hz,
      h2, h4, h5, h6]
    rcases h with rfl | rfl
    · simp [Nat.ne_of_gt hb]
    · cases hv <;> simp [Nat.ne_of_gt hb]
  · rw [f.rho]; rfl
  · rw [f.g]; rfl

/-- C79: the same for the whole course of events: an object made from a directory has no hashes, and
the preparation does not give it any. -/
theorem C79_from_directory (pv pr : Str) (deltaBeta : ℝ) (disk : ModelIO.Disk ℝ) (b : Data)
    (hb : fromFileStructure pv pr deltaBeta disk = .ok b) (T : ℝ) (P : Nat) (b' : Data) (e : Engine)
    (hp : preprocess { b with temperature := T, beads := P } disk = .ok (b', e)) :
    b'.hashVib = none ∧ b'.hashRho = none := by
  have hb0 : b.hashVib = none ∧ b.hashRho = none := by
    unfold fromFileStructure at hb
    cases hx : extractDims pv disk with
    | error x => rw [hx] at hb; cases hb
    | ok x =>
      rw [hx] at hb
      simp only [bind, Except.bind, Except.ok.injEq] at hb
      subst hb
      exact ⟨rfl, rfl⟩
  unfold preprocess preprocessBase at hp
  split at hp
  · cases hp
  · simp only at hp
    split at hp
    · cases hp
    · simp only [bind, Except.bind] at hp
      split at hp
      · cases hp
      · split at hp
        · cases hp
        · simp only [Except.ok.injEq, Prod.mk.injEq] at hp
          obtain ⟨rfl, -⟩ := hp
          exact hb0

/-- C79, the part that holds: with both hashes, and blocks that make up the samples, the file of the
calculation holds the hashes, the number of samples and every sample at its place.  Missing: objects
without hashes. -/
theorem C79_saved_partial (cls : Cls) (hv hr root : Str) (P T B blocks : Nat)
    (vals : BlockValues V) (disk : Results.Disk V) (hB : 0 < B) (hb : 0 < blocks) :
    ∃ b disk', calculate cls (some hv) (some hr) P T (blocks * B) B blocks root vals disk
        = .ok (b, disk') ∧
      ∃ f, disk' (Results.savedPath root P T) = some f ∧ f.hashVib = some hv ∧ f.hashRho = some hr ∧
        f.number = some (blocks * B) ∧
        (∀ i j, i < blocks → j < B → (f.rho.getD [])[i * B + j]? = some (some (vals.rho i j)) ∧
          (f.g.getD [])[i * B + j]? = some (some (vals.g i j))) ∧
        ∀ q, q ≠ Results.savedPath root P T → disk' q = disk q := by
  obtain ⟨b, h⟩ := Results.blocks_saved vals disk cls P T (blocks * B) B blocks hv hr root
    (Nat.mul_pos hb hB) hb le_rfl
  refine ⟨b, _, h, _, if_pos rfl, rfl, rfl, rfl, fun i j hi hj => ?_, fun q hq => if_neg hq⟩
  have hlt : i * B + j < blocks * B := by
    calc i * B + j < i * B + B := by omega
      _ = (i + 1) * B := by ring
      _ ≤ blocks * B := Nat.mul_le_mul_right _ hi
  have hdiv : (i * B + j) / B = i := by
    rw [Nat.add_comm, Nat.add_mul_div_right _ _ hB, Nat.div_eq_of_lt hj, Nat.zero_add]
  have hmod : (i * B + j) % B = j := by
    rw [Nat.add_comm, Nat.add_mul_mod_self_right, Nat.mod_eq_of_lt hj]
  constructor <;>
  · simp only [Option.getD_some, Results.computedThenNaN, Nat.sub_self, List.replicate_zero,
      List.append_nil]
    rw [List.getElem?_map, List.getElem?_range hlt, Option.map_some, hdiv, hmod]

end

/-! ### the hypotheses can be met -/

/-- C77, C78: models with linear terms and energies, 20 beads at 300 K -/
example : ∃ b b' e, fromFileStructure c!"v" c!"r" Constants.deltaBeta
      (saveBoth c!"v" c!"r" oneVib.toDict oneRho.toDict fun _ => none).2 = .ok b ∧
    preprocess { b with temperature := 300, beads := 20 }
      (saveBoth c!"v" c!"r" oneVib.toDict oneRho.toDict fun _ => none).2 = .ok (b', e) ∧
    e.tau = Constants.beta 300 / 20 := by
  obtain ⟨b, b', e, h1, h2, -⟩ := C77_models_used c!"v" c!"r" (by decide) oneVib.toDict oneRho.toDict
    (fun _ => none) (oneSaved _) rfl Constants.deltaBeta 300 20 (by norm_num)
  exact ⟨b, b', e, h1, h2, by simpa using (C78_used _ _ _ _ h2).2.1⟩

/-- C79: both outcomes occur -/
example : (∃ x, Prepare.calculate (V := ℤ) .plain (some c!"h") (some c!"i") 20 30000 4 2 2 c!"/r"
      ⟨fun _ _ => 1, fun i j => i + j, fun _ _ => 0, fun _ _ => 0⟩ (fun _ => none) = .ok x) ∧
    ∃ e, Prepare.calculate (V := ℤ) .plain none none 20 30000 4 2 2 c!"/r"
      ⟨fun _ _ => 1, fun i j => i + j, fun _ _ => 0, fun _ _ => 0⟩ (fun _ => none) = .error e := by
  constructor
  · obtain ⟨b, d, h, -⟩ := C79_saved_partial (V := ℤ) .plain c!"h" c!"i" c!"/r" 20 30000 2 2
      ⟨fun _ _ => 1, fun i j => i + j, fun _ _ => 0, fun _ _ => 0⟩ (fun _ => none) (by decide) (by decide)
    exact ⟨_, h⟩
  · exact C79_unsaved_refuted _ _ _ (.inl rfl) _ _ _ _ _ _ _ _

end Pibronic.Props.Prepare
