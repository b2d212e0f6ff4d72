import Verif.Spec.Plotting
import Verif.Lemmas.Str
import Verif.Lemmas.Postprocessing
import Verif.Props.Postprocessing

set_option autoImplicit false
set_option linter.unusedSectionVars false

/-! Helper lemmas for the theorems about plotting. -/
namespace Pibronic.Plotting
open Pibronic.Py Pibronic.FileName Pibronic.FileStructure Pibronic.Postprocessing
open Pibronic.Spec.Plotting Pibronic.Props.Postprocessing
open Pibronic.Analytic (Contents ADict AVal getKey)

variable {K : Type}

theorem bind_eq_ok {α β : Type} {x : Except Err α} {f : α → Except Err β} {b : β} :
    (x >>= f) = .ok b ↔ ∃ a, x = .ok a ∧ f a = .ok b := by
  cases x with
  | error e => simp [bind, Except.bind]
  | ok a => simp [bind, Except.bind]

theorem thermoFile_eq (s : FS) (P T X : Nat) :
    thermoFile s P T X = thermoPath s.pathRhoResults P T X := rfl

theorem index_ok {l : List Nat} {n i : Nat} : index l n = .ok i ↔ n ∈ l ∧ i = l.idxOf n := by
  unfold index
  split
  · next h => simp [h, eq_comm]
  · next h => simp [h]

theorem index_mem {l : List Nat} {n : Nat} (h : n ∈ l) : index l n = .ok (l.idxOf n) := by
  simp [index, h]

theorem idxOf_inj' {l : List Nat} {a b : Nat} (ha : a ∈ l) (h : l.idxOf a = l.idxOf b) : a = b :=
  (List.idxOf_inj ha).mp h

/-! ### which files -/

theorem textOf_eq {d : ThermoDict K} (hn : (d.map Prod.fst).Nodup) (key v : Str) :
    textOf d key = some v ↔ (key, Val.text v) ∈ d := by
  induction d with
  | nil => simp [textOf]
  | cons p d ih =>
    obtain ⟨k, x⟩ := p
    rw [List.map_cons, List.nodup_cons] at hn
    have ih := ih hn.2
    by_cases hk : k = key
    · subst hk
      have h0 : ∀ y, (k, y) ∉ d := fun y hy => hn.1 (List.mem_map.2 ⟨_, hy, rfl⟩)
      cases x <;> simp [textOf, h0, eq_comm]
    · have : textOf ((k, x) :: d) key = textOf d key := by
        simp [textOf, hk]
      rw [this, ih]
      simp [Ne.symm hk]

theorem mem_fileList {s : FS} {k : Disk K} {hv hr : Str} (hvib : s.hashVib = some hv)
    (hrho : s.hashRho = some hr) (ht : Tidy s k) {paths : List Str}
    (h : fileList s k = .ok paths) (path : Str) :
    path ∈ paths ↔ ∃ P T X d, path = thermoFile s P T X ∧ CurrentFile s k hv hr P T X d := by
  unfold fileList at h
  rw [hvib, hrho] at h
  rw [C16_prune_keeps_exactly h, List.mem_filter, C14_listed_thermo_files s ht.noStar]
  have key : ∀ d, k.thermo path = some d → ((match (Except.map storedHashes (k.read path)) with
      | .ok ⟨some v', some r'⟩ => decide (v' = hv ∧ r' = hr)
      | _ => false) = true ↔ HasHashes hv hr d) := by
    intro d hd
    have hn := ht.keys path d hd
    unfold HasHashes
    rw [← textOf_eq hn, ← textOf_eq hn]
    have e : Except.map storedHashes (k.read path)
        = (.ok ⟨textOf d c!"hash_vib", textOf d c!"hash_rho"⟩ : Except Err StoredHashes) := by
      simp [Disk.read, hd, Except.map, storedHashes]
    rw [e]
    cases textOf d c!"hash_vib" <;> cases textOf d c!"hash_rho" <;> simp
  constructor
  · rintro ⟨⟨hl, a, b, c, -, he⟩, hk⟩
    obtain ⟨P, T, X, hp⟩ := ht.names path hl (he ▸ List.prefix_append _ _) (by
      rw [he]
      exact ⟨s.pathRhoResults ++ (c!"P" ++ a ++ c!"_T" ++ b ++ c!"_X" ++ c), by simp⟩)
    cases hd : k.thermo path with
    | none => simp [Disk.read, hd, Except.map] at hk
    | some d => exact ⟨P, T, X, d, hp, hp ▸ hl, hp ▸ hd, (key d hd).1 hk⟩
  · rintro ⟨P, T, X, d, rfl, hl, hd, hh⟩
    refine ⟨⟨hl, natStr P, tempStr T, natStr X, ⟨notMem_natStr (by decide) _,
      notMem_tempStr (by decide) (by decide) _, notMem_natStr (by decide) _⟩, rfl⟩,
      (key d hd).2 hh⟩

theorem extract_thermo {s : FS} {k : Disk K} (ht : Tidy s k) (P T X : Nat) :
    extractBead (thermoFile s P T X) = .ok P ∧
    extractTemperatureThermo (thermoFile s P T X) = .ok T ∧
    extractSamples (thermoFile s P T X) = .ok X :=
  ⟨C13_thermo_bead _ ht.noP _ _ _, C13_thermo_temperature _ ht.noT _ _ _,
    C13_thermo_samples _ ht.noX _ _ _⟩

theorem generateParameterLists_ok {paths : List Str} {l : Lists}
    (h : generateParameterLists paths = .ok l) :
    (l.P.Pairwise (· < ·) ∧ l.T.Pairwise (· < ·) ∧ l.X.Pairwise (· < ·)) ∧
    (∀ n, n ∈ l.P ↔ ∃ p ∈ paths, extractBead p = .ok n) ∧
    (∀ n, n ∈ l.T ↔ ∃ p ∈ paths, extractTemperatureThermo p = .ok n) ∧
    (∀ n, n ∈ l.X ↔ ∃ p ∈ paths, extractSamples p = .ok n) := by
  unfold generateParameterLists at h
  obtain ⟨p, hp, h⟩ := bind_eq_ok.1 h
  obtain ⟨t, htt, h⟩ := bind_eq_ok.1 h
  obtain ⟨x, hx, h⟩ := bind_eq_ok.1 h
  cases h
  refine ⟨⟨uniqueSorted_strict _, uniqueSorted_strict _, uniqueSorted_strict _⟩, fun n => ?_,
    fun n => ?_, fun n => ?_⟩
  · rw [mem_uniqueSorted, mapM_mem hp]
  · rw [mem_uniqueSorted, mapM_mem htt]
  · rw [mem_uniqueSorted, mapM_mem hx]

theorem generateParameterLists_isOk {s : FS} {k : Disk K} (ht : Tidy s k) {paths : List Str}
    (hp : ∀ p ∈ paths, ∃ P T X, p = thermoFile s P T X) :
    ∃ l, generateParameterLists paths = .ok l := by
  obtain ⟨a, ha⟩ := (mapM_isOk (f := extractBead) (xs := paths)).2 (fun p h => by
    obtain ⟨P, T, X, rfl⟩ := hp p h; exact ⟨_, (extract_thermo ht P T X).1⟩)
  obtain ⟨b, hb⟩ := (mapM_isOk (f := extractTemperatureThermo) (xs := paths)).2 (fun p h => by
    obtain ⟨P, T, X, rfl⟩ := hp p h; exact ⟨_, (extract_thermo ht P T X).2.1⟩)
  obtain ⟨c, hc⟩ := (mapM_isOk (f := extractSamples) (xs := paths)).2 (fun p h => by
    obtain ⟨P, T, X, rfl⟩ := hp p h; exact ⟨_, (extract_thermo ht P T X).2.2⟩)
  refine ⟨_, bind_eq_ok.2 ⟨a, ha, bind_eq_ok.2 ⟨b, hb, bind_eq_ok.2 ⟨c, hc, rfl⟩⟩⟩⟩

/-! ### filling the table -/

theorem setFields_spec {c c' : Cell K} {d : ThermoDict K} (hn : (d.map Prod.fst).Nodup)
    (h : setFields c d = .ok c') (f : Str) :
    (∀ x, f ∈ fields → (f, Val.num x) ∈ d → c' f = x) ∧ ((∀ v, (f, v) ∉ d) → c' f = c f) := by
  induction d generalizing c with
  | nil => cases h; simp
  | cons p d ih =>
    obtain ⟨key, v⟩ := p
    rw [List.map_cons, List.nodup_cons] at hn
    have hnot : ∀ y, (key, y) ∉ d := fun y hy => hn.1 (List.mem_map.2 ⟨_, hy, rfl⟩)
    unfold setFields at h
    by_cases hk : key = c!"hash_vib" ∨ key = c!"hash_rho"
    · rw [if_pos hk] at h
      have := ih hn.2 h
      refine ⟨fun x hf hx => ?_, fun h0 => this.2 fun v' hv' => h0 v' (List.mem_cons_of_mem _ hv')⟩
      rcases List.mem_cons.1 hx with e | e
      · cases e
        rcases hk with rfl | rfl <;> simp [fields] at hf
      · exact this.1 x hf e
    · rw [if_neg hk] at h
      by_cases hf : key ∈ fields
      · rw [if_neg (by simpa using hf)] at h
        cases v with
        | text s => cases h
        | num x =>
          have := ih hn.2 h
          by_cases hfk : f = key
          · subst hfk
            refine ⟨fun y _ hy => ?_, fun h0 => absurd (List.mem_cons_self ..) (h0 _)⟩
            rcases List.mem_cons.1 hy with e | e
            · cases e; rw [this.2 hnot]; simp
            · exact absurd e (hnot _)
          · refine ⟨fun y hff hy => ?_, fun h0 => ?_⟩
            · rcases List.mem_cons.1 hy with e | e
              · cases e; exact absurd rfl hfk
              · exact this.1 y hff e
            · rw [this.2 fun v' hv' => h0 v' (List.mem_cons_of_mem _ hv')]
              simp [hfk]
      · rw [if_pos (by simpa using hf)] at h; cases h

theorem setFields_isOk {d : ThermoDict K} (hw : WellFormed d) (c : Cell K) :
    ∃ c', setFields c d = .ok c' := by
  induction d generalizing c with
  | nil => exact ⟨c, rfl⟩
  | cons p d ih =>
    obtain ⟨key, v⟩ := p
    have ih := ih fun q hq => hw q (List.mem_cons_of_mem _ hq)
    unfold setFields
    rcases hw _ (List.mem_cons_self ..) with h | ⟨h, x, hx⟩
    · rw [if_pos h]; exact ih _
    · by_cases hk : key = c!"hash_vib" ∨ key = c!"hash_rho"
      · rw [if_pos hk]; exact ih _
      · rw [if_neg hk, if_neg (fun hn => hn h)]
        have hx : v = .num x := hx
        subst hx
        exact ih _

/-- `place` on a file of the program. -/
theorem place_eq {s : FS} {k : Disk K} (ht : Tidy s k) (skip : Bool) (t : Table K) (P T X : Nat)
    (hP : P ∈ t.lists.P) (hT : T ∈ t.lists.T) (hX : X ∈ t.lists.X) :
    place skip k t (thermoFile s P T X) = (do
      let d ← k.read (thermoFile s P T X)
      let c ← setFields (t.cell (t.lists.P.idxOf P) (t.lists.T.idxOf T) (t.lists.X.idxOf X)) d
      .ok (t.put (t.lists.P.idxOf P) (t.lists.T.idxOf T) (t.lists.X.idxOf X) c)) := by
  obtain ⟨h1, h2, h3⟩ := extract_thermo ht P T X
  unfold place
  simp only [h1, h2, h3, bind, Except.bind, index_mem hP, index_mem hT, index_mem hX]
  have : t.lists.P.contains P = true := by simpa using hP
  rw [this]
  simp

/-- What the table holds after the files `done`. -/
def Filled (s : FS) (k : Disk K) (l : Lists) (done : List Str) (t : Table K) : Prop :=
  t.lists = l ∧ ∀ P ∈ l.P, ∀ T ∈ l.T, ∀ X ∈ l.X, ∀ f,
    (thermoFile s P T X ∈ done → ∀ d, k.thermo (thermoFile s P T X) = some d →
      (∀ x, f ∈ fields → (f, Val.num x) ∈ d → entry t P T X f = x) ∧
      ((∀ v, (f, v) ∉ d) → entry t P T X f = none)) ∧
    (thermoFile s P T X ∉ done → entry t P T X f = none)

theorem place_filled {s : FS} {k : Disk K} (ht : Tidy s k) {skip : Bool} {l : Lists} {done : List Str}
    {t t' : Table K} (hf : Filled s k l done t) {P T X : Nat} (hP : P ∈ l.P) (hT : T ∈ l.T)
    (hX : X ∈ l.X) (h : place skip k t (thermoFile s P T X) = .ok t') :
    Filled s k l (done ++ [thermoFile s P T X]) t' := by
  obtain ⟨hl, hf⟩ := hf
  subst hl
  rw [place_eq ht skip t P T X hP hT hX] at h
  obtain ⟨d, hd, h⟩ := bind_eq_ok.1 h
  obtain ⟨c, hc, h⟩ := bind_eq_ok.1 h
  cases h
  have hd : k.thermo (thermoFile s P T X) = some d := by
    unfold Disk.read at hd
    cases hk : k.thermo (thermoFile s P T X) with
    | none => rw [hk] at hd; cases hd
    | some d' => rw [hk] at hd; cases hd; rfl
  refine ⟨rfl, fun P' hP' T' hT' X' hX' f => ?_⟩
  have inj : thermoFile s P' T' X' = thermoFile s P T X ↔ P' = P ∧ T' = T ∧ X' = X :=
    ⟨fun h => C13_thermo_injective _ h, fun h => by rw [h.1, h.2.1, h.2.2]⟩
  by_cases hsame : P' = P ∧ T' = T ∧ X' = X
  · obtain ⟨rfl, rfl, rfl⟩ := hsame
    have he : entry (t.put (t.lists.P.idxOf P') (t.lists.T.idxOf T') (t.lists.X.idxOf X') c) P' T' X' f
        = c f := by simp [entry, Table.put]
    have hs := setFields_spec (ht.keys _ _ hd) hc f
    rw [he]
    refine ⟨fun _ d' hd' => ?_, fun hn => absurd (by simp) hn⟩
    rw [hd] at hd'; cases hd'
    refine ⟨hs.1, fun h0 => ?_⟩
    rw [hs.2 h0]
    by_cases hdone : thermoFile s P' T' X' ∈ done
    · exact ((hf _ hP _ hT _ hX f).1 hdone d hd).2 h0
    · exact (hf _ hP _ hT _ hX f).2 hdone
  · have he : entry (t.put (t.lists.P.idxOf P) (t.lists.T.idxOf T) (t.lists.X.idxOf X) c) P' T' X' f
        = entry t P' T' X' f := by
      simp only [entry, Table.put]
      rw [if_neg]
      rintro ⟨h1, h2, h3⟩
      exact hsame ⟨idxOf_inj' hP' h1, idxOf_inj' hT' h2, idxOf_inj' hX' h3⟩
    rw [he]
    have hmem : thermoFile s P' T' X' ∈ done ++ [thermoFile s P T X] ↔ thermoFile s P' T' X' ∈ done := by
      rw [List.mem_append, List.mem_singleton, inj]
      simp [hsame]
    rw [hmem]
    exact hf P' hP' T' hT' X' hX' f

theorem foldlM_filled {s : FS} {k : Disk K} (ht : Tidy s k) {skip : Bool} {l : Lists}
    (paths : List Str) (hp : ∀ p ∈ paths, ∃ P T X, p = thermoFile s P T X ∧ P ∈ l.P ∧ T ∈ l.T ∧ X ∈ l.X)
    {done : List Str} {t t' : Table K} (hf : Filled s k l done t)
    (h : paths.foldlM (place skip k) t = .ok t') : Filled s k l (done ++ paths) t' := by
  induction paths generalizing done t with
  | nil =>
    simp only [List.foldlM_nil, pure, Except.pure] at h
    cases h
    simpa using hf
  | cons p ps ih =>
    rw [List.foldlM_cons] at h
    obtain ⟨t1, h1, h2⟩ := bind_eq_ok.1 h
    obtain ⟨P, T, X, rfl, hP, hT, hX⟩ := hp p (by simp)
    have := ih (fun q hq => hp q (by simp [hq])) (place_filled ht hf hP hT hX h1) h2
    simpa using this

theorem place_isOk {s : FS} {k : Disk K} (ht : Tidy s k) (skip : Bool) (t : Table K) (P T X : Nat)
    (hP : P ∈ t.lists.P) (hT : T ∈ t.lists.T) (hX : X ∈ t.lists.X) {d : ThermoDict K}
    (hd : k.thermo (thermoFile s P T X) = some d) (hw : WellFormed d) :
    ∃ t', place skip k t (thermoFile s P T X) = .ok t' ∧ t'.lists = t.lists := by
  rw [place_eq ht skip t P T X hP hT hX]
  obtain ⟨c, hc⟩ := setFields_isOk hw
    (t.cell (t.lists.P.idxOf P) (t.lists.T.idxOf T) (t.lists.X.idxOf X))
  refine ⟨_, bind_eq_ok.2 ⟨d, by simp [Disk.read, hd], bind_eq_ok.2 ⟨c, hc, rfl⟩⟩, rfl⟩

theorem loadPimcData_lists {skip : Bool} {k : Disk K} {l : Lists} {paths : List Str} {t : Table K}
    (h : loadPimcData skip k l paths = .ok t) : t.lists = l := by
  suffices H : ∀ (ps : List Str) (t0 : Table K), ps.foldlM (place skip k) t0 = .ok t →
      t.lists = t0.lists from H _ _ h
  intro ps
  induction ps with
  | nil => intro t0 h; cases h; rfl
  | cons p ps ih =>
    intro t0 h
    rw [List.foldlM_cons] at h
    obtain ⟨t1, h1, h⟩ := bind_eq_ok.1 h
    rw [ih t1 h]
    unfold place at h1
    obtain ⟨_, -, h1⟩ := bind_eq_ok.1 h1
    obtain ⟨_, -, h1⟩ := bind_eq_ok.1 h1
    obtain ⟨_, -, h1⟩ := bind_eq_ok.1 h1
    split at h1
    · cases h1; rfl
    · obtain ⟨_, -, h1⟩ := bind_eq_ok.1 h1
      obtain ⟨_, -, h1⟩ := bind_eq_ok.1 h1
      obtain ⟨_, -, h1⟩ := bind_eq_ok.1 h1
      obtain ⟨_, -, h1⟩ := bind_eq_ok.1 h1
      obtain ⟨_, -, h1⟩ := bind_eq_ok.1 h1
      cases h1; rfl

/-! ### the exact results -/

theorem pick_ok {data out d : ADict K} {Ts : List Nat} (h : pick data out Ts = .ok d) (T : Nat) :
    (T ∈ Ts → d (tempStr T) = data (tempStr T) ∧ data (tempStr T) ≠ none) ∧
    (T ∉ Ts → d (tempStr T) = out (tempStr T)) := by
  induction Ts generalizing out with
  | nil => cases h; simp
  | cons T0 Ts ih =>
    unfold pick at h
    cases hd : data (tempStr T0) with
    | none => rw [hd] at h; cases h
    | some v =>
      rw [hd] at h
      have := ih h
      by_cases h0 : T = T0
      · subst h0
        refine ⟨fun _ => ?_, fun hn => absurd (by simp) hn⟩
        by_cases hm : T ∈ Ts
        · exact this.1 hm
        · rw [this.2 hm, hd]; simp [ADict.set]
      · refine ⟨fun hm => this.1 (by simpa [h0] using hm), fun hm => ?_⟩
        rw [this.2 (by simp at hm; exact hm.2)]
        have : tempStr T ≠ tempStr T0 := fun e => h0 (by
          have h1 := pyFloat2_tempStr T
          rw [e, pyFloat2_tempStr] at h1
          exact (Except.ok.inj h1).symm)
        simp [ADict.set, this]

theorem pick_isOk {data : ADict K} {Ts : List Nat} (h : ∀ T ∈ Ts, data (tempStr T) ≠ none)
    (out : ADict K) : ∃ d, pick data out Ts = .ok d := by
  induction Ts generalizing out with
  | nil => exact ⟨out, rfl⟩
  | cons T Ts ih =>
    unfold pick
    cases hd : data (tempStr T) with
    | none => exact absurd hd (h T (by simp))
    | some v => exact ih (fun T' h' => h T' (by simp [h'])) _

theorem getEntry_loaded {c : Contents K} {l : Lists} {d : ADict K} (h : loadAnalytical c l = .ok d)
    {T : Nat} (hT : T ∈ l.T) (key : Str) (z : K) :
    getEntry d T key = .ok z ↔ Holds c T key z := by
  unfold loadAnalytical at h
  obtain ⟨data, hp, h⟩ := bind_eq_ok.1 h
  have hc : c = .dict data := by
    cases c <;> simp [parse] at hp
    rw [hp]
  have he := ((pick_ok h T).1 hT).1
  subst hc
  unfold getEntry Holds
  rw [he]
  constructor
  · intro h0
    cases hd : data (tempStr T) with
    | none => rw [hd] at h0; cases h0
    | some v =>
      rw [hd] at h0
      cases v with
      | hash s => cases h0
      | entry e =>
        refine ⟨data, e, rfl, hd, ?_⟩
        simp only [getKey] at h0
        cases hk : e key with
        | none => rw [hk] at h0; cases h0
        | some v => rw [hk] at h0; cases h0; rfl
  · rintro ⟨d', e, hde, hd, hk⟩
    cases hde
    simp [hd, getKey, hk]

/-! ### scaling and percent -/

section
variable [Field K]

/-- One pass over temperatures: every column is changed once. -/
theorem pass_ok (g : Table K → Nat → Except Err (Table K)) (step : Nat → K → Table K → Table K)
    (get : Nat → Except Err K) (val : K → Str → Option K → Option K) (sel : Nat → Bool)
    (hlists : ∀ i z t, (step i z t).lists = t.lists)
    (hg : ∀ t T t1, g t T = .ok t1 →
      ∃ z, get T = .ok z ∧ T ∈ t.lists.T ∧ t1 = step (t.lists.T.idxOf T) z t)
    (hstep : ∀ i z (t : Table K) a b c f, (step i z t).cell a b c f =
      if b = i ∧ sel c then val z f (t.cell a b c f) else t.cell a b c f)
    (Ts : List Nat) (hnd : Ts.Nodup) {t t' : Table K} (h : Ts.foldlM g t = .ok t') :
    t'.lists = t.lists ∧ (∀ T ∈ Ts, ∃ z, get T = .ok z ∧ ∀ a c f, t'.cell a (t.lists.T.idxOf T) c f =
      if sel c then val z f (t.cell a (t.lists.T.idxOf T) c f)
      else t.cell a (t.lists.T.idxOf T) c f) ∧
    (∀ b c, ((∀ T ∈ Ts, b ≠ t.lists.T.idxOf T) ∨ sel c = false) →
      ∀ a f, t'.cell a b c f = t.cell a b c f) := by
  induction Ts generalizing t with
  | nil =>
    simp only [List.foldlM_nil, pure, Except.pure] at h
    cases h
    simp
  | cons T Ts ih =>
    rw [List.foldlM_cons] at h
    obtain ⟨t1, h1, h2⟩ := bind_eq_ok.1 h
    obtain ⟨z, hz, hT, rfl⟩ := hg _ _ _ h1
    rw [List.nodup_cons] at hnd
    obtain ⟨e1, e2, e3⟩ := ih hnd.2 h2
    rw [hlists] at e1 e2 e3
    have hne : ∀ T' ∈ Ts, t.lists.T.idxOf T' ≠ t.lists.T.idxOf T := fun T' h' e =>
      hnd.1 ((idxOf_inj' hT e.symm) ▸ h')
    refine ⟨e1, fun T' h' => ?_, fun b c hb a f => ?_⟩
    · rcases List.mem_cons.1 h' with rfl | h'
      · refine ⟨z, hz, fun a c f => ?_⟩
        rw [e3 _ _ (.inl fun T' h' e => hne T' h' e.symm), hstep]
        simp
      · obtain ⟨z', hz', e⟩ := e2 T' h'
        refine ⟨z', hz', fun a c f => ?_⟩
        rw [e, hstep]
        simp [hne T' h']
    · rw [e3 b c (hb.imp (fun hb T' h' => hb T' (by simp [h'])) id), hstep, if_neg]
      rintro ⟨h1, h2⟩
      rcases hb with hb | hb
      · exact hb T (by simp) h1
      · rw [hb] at h2; cases h2

/-- The pass does not raise when every exact value is there. -/
theorem pass_isOk (g : Table K → Nat → Except Err (Table K)) (step : Nat → K → Table K → Table K)
    (get : Nat → Except Err K) (hlists : ∀ i z t, (step i z t).lists = t.lists)
    (hg : ∀ t T z, T ∈ t.lists.T → get T = .ok z → g t T = .ok (step (t.lists.T.idxOf T) z t))
    (Ts : List Nat) {t : Table K} (hsub : ∀ T ∈ Ts, T ∈ t.lists.T) (hget : ∀ T ∈ Ts, ∃ z, get T = .ok z) :
    ∃ t', Ts.foldlM g t = .ok t' ∧ t'.lists = t.lists := by
  induction Ts generalizing t with
  | nil => exact ⟨t, rfl, rfl⟩
  | cons T Ts ih =>
    obtain ⟨z, hz⟩ := hget T (by simp)
    obtain ⟨t', h', hl⟩ := ih (t := step (t.lists.T.idxOf T) z t)
      (fun T' h' => by rw [hlists]; exact hsub T' (by simp [h'])) (fun T' h' => hget T' (by simp [h']))
    refine ⟨t', ?_, hl.trans (hlists _ _ _)⟩
    rw [List.foldlM_cons]
    exact bind_eq_ok.2 ⟨_, hg t T z (hsub T (by simp)) hz, h'⟩

/-- A number multiplied by `z` in the fields of the partition function. -/
def scaled (z : K) (f : Str) (x : Option K) : Option K :=
  if f = c!"Z" ∨ f = c!"Z error" then x.map (· * z) else x

/-- The percent error in the fields of the partition function. -/
def percented (e : K) (f : Str) (x : Option K) : Option K :=
  if f = c!"Z" then x.map fun z => (z - e) * 100 / e
  else if f = c!"Z error" then x.map fun z => z * 100 / e
  else x

theorem scaleAll_ok {rho : ADict K} {t t' : Table K} (hnd : t.lists.T.Nodup)
    (h : scaleAll rho t = .ok t') : t'.lists = t.lists ∧ ∀ T ∈ t.lists.T, ∃ z,
      getEntry rho T c!"Z_sampling" = .ok z ∧
      ∀ P X f, entry t' P T X f = scaled z f (entry t P T X f) := by
  obtain ⟨h1, h2, -⟩ := pass_ok _ (fun i z (t : Table K) => t.scale i z)
    (fun T => getEntry rho T c!"Z_sampling") (fun z f x => scaled z f x) (fun _ => true)
    (fun _ _ _ => rfl) (by
      intro t T t1 h1
      obtain ⟨z, hz, h1⟩ := bind_eq_ok.1 h1
      obtain ⟨i, hi, h1⟩ := bind_eq_ok.1 h1
      obtain ⟨hT, rfl⟩ := index_ok.1 hi
      cases h1
      exact ⟨z, hz, hT, rfl⟩) (by
      intro i z t a b c f
      simp only [Table.scale, scaled, and_true]
      by_cases hb : b = i <;> simp [hb]) _ hnd h
  refine ⟨h1, fun T hT => ?_⟩
  obtain ⟨z, hz, h2⟩ := h2 T hT
  refine ⟨z, hz, fun P X f => ?_⟩
  simpa [entry, h1] using h2 (t.lists.P.idxOf P) (t.lists.X.idxOf X) f

theorem scaleAll_isOk {rho : ADict K} {t : Table K}
    (hget : ∀ T ∈ t.lists.T, ∃ z, getEntry rho T c!"Z_sampling" = .ok z) :
    ∃ t', scaleAll rho t = .ok t' ∧ t'.lists = t.lists :=
  pass_isOk _ (fun i z (t : Table K) => t.scale i z) (fun T => getEntry rho T c!"Z_sampling")
    (fun _ _ _ => rfl) (by
      intro t T z hT hz
      exact bind_eq_ok.2 ⟨z, hz, bind_eq_ok.2 ⟨_, index_mem hT, rfl⟩⟩) _ (fun _ h => h) hget

theorem percentAll_ok {orig : ADict K} {t t' : Table K} (hnd : t.lists.T.Nodup)
    (h : percentAll orig t = .ok t') : t'.lists = t.lists ∧ ∀ T ∈ t.lists.T, ∃ e,
      getEntry orig T c!"Z_coupled" = .ok e ∧
      ∀ P X f, entry t' P T X f = percented e f (entry t P T X f) := by
  obtain ⟨h1, h2, -⟩ := pass_ok _ (fun i e (t : Table K) => t.percent (fun j _ => j == i) e)
    (fun T => getEntry orig T c!"Z_coupled") (fun z f x => percented z f x) (fun _ => true)
    (fun _ _ _ => rfl) (by
      intro t T t1 h1
      obtain ⟨i, hi, h1⟩ := bind_eq_ok.1 h1
      obtain ⟨z, hz, h1⟩ := bind_eq_ok.1 h1
      obtain ⟨hT, rfl⟩ := index_ok.1 hi
      cases h1
      exact ⟨z, hz, hT, rfl⟩) (by
      intro i z t a b c f
      simp only [Table.percent, percented, and_true]
      by_cases hb : b = i <;> simp [hb]) _ hnd h
  refine ⟨h1, fun T hT => ?_⟩
  obtain ⟨z, hz, h2⟩ := h2 T hT
  refine ⟨z, hz, fun P X f => ?_⟩
  simpa [entry, h1] using h2 (t.lists.P.idxOf P) (t.lists.X.idxOf X) f

theorem percentAll_isOk {orig : ADict K} {t : Table K}
    (hget : ∀ T ∈ t.lists.T, ∃ z, getEntry orig T c!"Z_coupled" = .ok z) :
    ∃ t', percentAll orig t = .ok t' ∧ t'.lists = t.lists :=
  pass_isOk _ (fun i e (t : Table K) => t.percent (fun j _ => j == i) e)
    (fun T => getEntry orig T c!"Z_coupled") (fun _ _ _ => rfl) (by
      intro t T z hT hz
      exact bind_eq_ok.2 ⟨_, index_mem hT, bind_eq_ok.2 ⟨z, hz, rfl⟩⟩) _ (fun _ h => h) hget

/-- The inner loop of `percentEach`. -/
def percentX (orig : ADict K) (iX : Nat) (t : Table K) : Except Err (Table K) :=
  t.lists.T.foldlM (fun (t : Table K) (T : Nat) => do
      let i ← index t.lists.T T
      let e ← getEntry orig T c!"Z_coupled"
      .ok (t.percent (fun j k => j == i && k == iX) e)) t

theorem percentX_ok {orig : ADict K} {iX : Nat} {t t' : Table K} (hnd : t.lists.T.Nodup)
    (h : percentX orig iX t = .ok t') : t'.lists = t.lists ∧ (∀ T ∈ t.lists.T, ∃ e,
      getEntry orig T c!"Z_coupled" = .ok e ∧ ∀ a c f, t'.cell a (t.lists.T.idxOf T) c f =
        if c = iX then percented e f (t.cell a (t.lists.T.idxOf T) c f)
        else t.cell a (t.lists.T.idxOf T) c f) := by
  obtain ⟨h1, h2, -⟩ := pass_ok _ (fun i e (t : Table K) => t.percent (fun j k => j == i && k == iX) e)
    (fun T => getEntry orig T c!"Z_coupled") (fun z f x => percented z f x) (fun c => c == iX)
    (fun _ _ _ => rfl) (by
      intro t T t1 h1
      obtain ⟨i, hi, h1⟩ := bind_eq_ok.1 h1
      obtain ⟨z, hz, h1⟩ := bind_eq_ok.1 h1
      obtain ⟨hT, rfl⟩ := index_ok.1 hi
      cases h1
      exact ⟨z, hz, hT, rfl⟩) (by
      intro i z t a b c f
      simp only [Table.percent, percented]
      by_cases hb : b = i <;> by_cases hc : c = iX <;> simp [hb, hc]) _ hnd h
  refine ⟨h1, fun T hT => ?_⟩
  obtain ⟨z, hz, h2⟩ := h2 T hT
  refine ⟨z, hz, fun a c f => ?_⟩
  rw [h2]
  by_cases hc : c = iX <;> simp [hc]

theorem percentX_isOk {orig : ADict K} {iX : Nat} {t : Table K}
    (hget : ∀ T ∈ t.lists.T, ∃ z, getEntry orig T c!"Z_coupled" = .ok z) :
    ∃ t', percentX orig iX t = .ok t' ∧ t'.lists = t.lists :=
  pass_isOk _ (fun i e (t : Table K) => t.percent (fun j k => j == i && k == iX) e)
    (fun T => getEntry orig T c!"Z_coupled") (fun _ _ _ => rfl) (by
      intro t T z hT hz
      exact bind_eq_ok.2 ⟨_, index_mem hT, bind_eq_ok.2 ⟨z, hz, rfl⟩⟩) _ (fun _ h => h) hget

theorem percentEach_eq (orig : ADict K) (t : Table K) : percentEach orig t =
    t.lists.X.foldlM (fun (t : Table K) (X : Nat) => do
      let iX ← index t.lists.X X
      percentX orig iX t) t := rfl

theorem percentEach_fold {orig : ADict K} (Xs : List Nat) (hXs : Xs.Nodup) {t t' : Table K}
    (hnd : t.lists.T.Nodup)
    (h : Xs.foldlM (fun (t : Table K) (X : Nat) => do
      let iX ← index t.lists.X X
      percentX orig iX t) t = .ok t') :
    t'.lists = t.lists ∧ (∀ T ∈ t.lists.T, ∀ X, (X ∈ Xs → ∃ e,
      getEntry orig T c!"Z_coupled" = .ok e ∧
      ∀ P f, entry t' P T X f = percented e f (entry t P T X f)) ∧
      (X ∈ t.lists.X → X ∉ Xs → ∀ P f, entry t' P T X f = entry t P T X f)) := by
  induction Xs generalizing t with
  | nil =>
    simp only [List.foldlM_nil, pure, Except.pure] at h
    cases h
    simp
  | cons X0 Xs ih =>
    rw [List.foldlM_cons] at h
    obtain ⟨t1, h1, h2⟩ := bind_eq_ok.1 h
    obtain ⟨i, hi, h1⟩ := bind_eq_ok.1 h1
    obtain ⟨hX0, rfl⟩ := index_ok.1 hi
    rw [List.nodup_cons] at hXs
    obtain ⟨l1, c1⟩ := percentX_ok hnd h1
    obtain ⟨l2, c2⟩ := ih hXs.2 (by rw [l1]; exact hnd) h2
    refine ⟨l2.trans l1, fun T hT X => ?_⟩
    rw [l1] at c2
    obtain ⟨d1, d2⟩ := c2 T hT X
    obtain ⟨e, he, c1⟩ := c1 T hT
    have hentry : ∀ P f, entry t1 P T X f = if t.lists.X.idxOf X = t.lists.X.idxOf X0
        then percented e f (entry t P T X f) else entry t P T X f := by
      intro P f
      simp only [entry, l1]
      exact c1 _ _ _
    refine ⟨fun hX => ?_, fun hX hXn P f => ?_⟩
    · rcases List.mem_cons.1 hX with rfl | hX
      · refine ⟨e, he, fun P f => ?_⟩
        rw [d2 hX0 hXs.1, hentry, if_pos rfl]
      · obtain ⟨e', he', d1⟩ := d1 hX
        refine ⟨e', he', fun P f => ?_⟩
        rw [d1, hentry, if_neg]
        intro hh
        exact hXs.1 ((idxOf_inj' hX0 hh.symm) ▸ hX)
    · rw [List.mem_cons, not_or] at hXn
      rw [d2 hX hXn.2, hentry, if_neg (fun hh => hXn.1 (idxOf_inj' hX hh))]

theorem percentEach_ok {orig : ADict K} {t t' : Table K} (hnd : t.lists.T.Nodup)
    (hndX : t.lists.X.Nodup) (h : percentEach orig t = .ok t') :
    t'.lists = t.lists ∧ ∀ T ∈ t.lists.T, ∀ X ∈ t.lists.X, ∃ e,
      getEntry orig T c!"Z_coupled" = .ok e ∧
      ∀ P f, entry t' P T X f = percented e f (entry t P T X f) := by
  rw [percentEach_eq] at h
  obtain ⟨h1, h2⟩ := percentEach_fold _ hndX hnd h
  exact ⟨h1, fun T hT X hX => (h2 T hT X).1 hX⟩

theorem percentEach_isOk {orig : ADict K} {t : Table K}
    (hget : ∀ T ∈ t.lists.T, ∃ z, getEntry orig T c!"Z_coupled" = .ok z) :
    ∃ t', percentEach orig t = .ok t' ∧ t'.lists = t.lists := by
  rw [percentEach_eq]
  suffices H : ∀ (Xs : List Nat) (t0 : Table K), t0.lists = t.lists → (∀ X ∈ Xs, X ∈ t.lists.X) →
      ∃ t', Xs.foldlM (fun (t : Table K) (X : Nat) => do
        let iX ← index t.lists.X X
        percentX orig iX t) t0 = .ok t' ∧ t'.lists = t.lists from H _ t rfl fun _ h => h
  intro Xs
  induction Xs with
  | nil => intro t0 h0 _; exact ⟨t0, rfl, h0⟩
  | cons X Xs ih =>
    intro t0 h0 hs
    obtain ⟨t1, h1, l1⟩ := percentX_isOk (orig := orig) (iX := t0.lists.X.idxOf X) (t := t0)
      (by rw [h0]; exact hget)
    obtain ⟨t', h', l'⟩ := ih t1 (l1.trans h0) (fun X' h' => hs X' (by simp [h']))
    refine ⟨t', ?_, l'⟩
    rw [List.foldlM_cons]
    exact bind_eq_ok.2 ⟨t1, bind_eq_ok.2 ⟨_, index_mem (by rw [h0]; exact hs X (by simp)), h1⟩, h'⟩

end
end Pibronic.Plotting
