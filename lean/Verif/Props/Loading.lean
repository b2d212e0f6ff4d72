import Verif.Model.Loading
import Verif.Props.ModelFiles

set_option autoImplicit false
set_option linter.unusedSectionVars false

/-!
C105: objects are made straight from files.  `entry`, `WellFormed` are defined in `Spec/ModelIO.lean`.
-/
namespace Pibronic.Props.Loading
open Py Pibronic.ModelIO Pibronic.Loading Spec.ModelIO Pibronic.Props.ModelFiles

variable {α : Type} [CommRing α] [DecidableEq α]

private theorem entry_get {d : ModelIO.Dict α} {A N : Nat} {m : Model α .coupled A N} {k : Key}
    {t : Tensor α (shape .coupled A N k)} (hd : d.arr k = some ⟨_, t⟩) (ht : t = m.get k) (idx : List Nat) :
    entry d k idx = entry m.toDict k idx := by
  rw [entry_eq_get]
  unfold entry
  rw [hd]
  simp only [ht]

/-- C105, the part that holds: when a saved model has a non-zero frequency, a non-zero linear and a
non-zero quadratic term, a plain model object that loads the file has the saved dimensions, energies,
frequencies, linear and quadratic terms. -/
theorem C105_complete_partial (path : Str) (d : ModelIO.Dict α) (disk : ModelIO.Disk α)
    (h : (save .coupled path d disk).1 = .ok ()) (hw : ∃ idx, entry d .w idx ≠ 0)
    (h1 : ∃ idx, entry d .G1 idx ≠ 0) (h2 : ∃ idx, entry d .G2 idx ≠ 0) :
    ∃ r, loadFirst path (save .coupled path d disk).2 = .ok r ∧ r.A = d.A ∧ r.N = d.N ∧
      ∀ k ∈ [Key.E, Key.w, Key.G1, Key.G2], ∀ idx, entry r k idx = entry d k idx := by
  obtain ⟨A, N, m, rfl, hf⟩ := saved_file _ _ _ _ h
  obtain ⟨m', hl, hg, he, hk⟩ := load_coupled m path _ hf
  have hsome : ∀ k, k ≠ .E → (∃ idx, entry m.toDict k idx ≠ 0) → ∃ t, m'.arr k = some t ∧ t = m.get k := by
    intro k hkE hi
    have := (nonzero_iff_entry m k).mpr hi
    rw [← hk k hkE] at this
    obtain ⟨t, ht⟩ := Option.ne_none_iff_exists'.mp this
    refine ⟨t, ht, ?_⟩
    rw [← hg k]
    simp [Model.get, ht]
  obtain ⟨e, hE⟩ := Option.isSome_iff_exists.mp he
  have hEg : e = m.get .E := by
    rw [← hg .E]; simp [Model.get, hE]
  obtain ⟨w, hw1, hw2⟩ := hsome .w (by decide) hw
  obtain ⟨g1, hg1, hg1'⟩ := hsome .G1 (by decide) h1
  obtain ⟨g2, hg2, hg2'⟩ := hsome .G2 (by decide) h2
  refine ⟨⟨some N, some A, fun k => match k with
      | .E => some ⟨_, e⟩
      | .w => some ⟨_, w⟩
      | .G1 => some ⟨_, g1⟩
      | .G2 => some ⟨_, g2⟩
      | _ => none⟩, by
    unfold loadFirst
    rw [hl]
    simp only [bind, Except.bind, hw1, hg1, hg2]
    congr 2
    funext k
    cases k <;> simp [hE], rfl, rfl, ?_⟩
  intro k hk idx
  simp only [List.mem_cons, List.not_mem_nil, or_false] at hk
  rcases hk with rfl | rfl | rfl | rfl
  · exact entry_get rfl hEg idx
  · exact entry_get rfl hw2 idx
  · exact entry_get rfl hg1' idx
  · exact entry_get rfl hg2' idx

/-- C105 is false of every saved model without linear or without quadratic terms (or whose frequencies
are all zero): a plain model object cannot load its file. -/
theorem C105_zero_terms_refuted (path : Str) (d : ModelIO.Dict α) (disk : ModelIO.Disk α)
    (h : (save .coupled path d disk).1 = .ok ())
    (hz : ∃ k ∈ [Key.w, Key.G1, Key.G2], ∀ idx, entry d k idx = 0) :
    loadFirst path (save .coupled path d disk).2 = .error .key := by
  obtain ⟨A, N, m, rfl, hf⟩ := saved_file _ _ _ _ h
  obtain ⟨m', hl, -, -, hk⟩ := load_coupled m path _ hf
  obtain ⟨k, hk1, hk2⟩ := hz
  have hE : k ≠ .E := by
    rintro rfl
    exact absurd hk1 (by decide)
  have hnone : m'.arr k = none := by
    rw [hk k hE]
    by_contra hc
    obtain ⟨idx, hi⟩ := (nonzero_iff_entry m k).mp hc
    exact hi (hk2 idx)
  unfold loadFirst
  rw [hl]
  simp only [bind, Except.bind]
  simp only [List.mem_cons, List.not_mem_nil, or_false] at hk1
  rcases hk1 with rfl | rfl | rfl
  · rw [hnone]
  · split
    · rfl
    · rw [hnone]
  · split
    · rfl
    · split
      · rfl
      · rw [hnone]

/-- C105: a file that is not there is an error, not an empty model. -/
theorem C105_missing_file (path : Str) (disk : ModelIO.Disk α) (texts : Str → Option Str)
    (h : disk path = none) (ht : texts path = none) :
    loadFirst path disk = .error .os ∧ modelFromFile texts disk path = .error .os ∧
      boxFromFile texts path = .error .os := by
  refine ⟨?_, ?_, ?_⟩
  · unfold loadFirst load openFile; rw [h]; rfl
  · unfold modelFromFile; rw [ht]
  · unfold boxFromFile; rw [ht]

/-- C105: a file with a member that does not belong into a model is an error as well: an unknown name is a
`ValueError`, a dimension that is no whole number a `TypeError`, a parameter that is no list an
`AttributeError`. -/
theorem C105_bad_member (path : Str) (disk : ModelIO.Disk α) (pre post : ModelIO.File α) (m : Str × J α)
    (hpre : ∃ d, readFile pre = .ok d) (h : disk path = some (pre ++ m :: post)) :
    (m.1 ∉ [c!"number of modes", c!"number of surfaces"] → m.1 ∉ Key.all.map Key.name →
      loadFirst path disk = .error .value) ∧
    (m.1 ∈ [c!"number of modes", c!"number of surfaces"] → (∀ n, m.2 ≠ .int n) →
      loadFirst path disk = .error .type) ∧
    (m.1 ∈ Key.all.map Key.name → (∀ l, m.2 ≠ .list l) → loadFirst path disk = .error .attribute) := by
  obtain ⟨d, hd⟩ := hpre
  have key : ∀ e, readMember d m = .error e → loadFirst path disk = .error e := by
    intro e he
    unfold loadFirst load openFile
    rw [h]
    simp only [bind, Except.bind]
    have : readFile (pre ++ m :: post) = .error e := by
      unfold readFile at hd ⊢
      rw [List.foldlM_append, hd]
      show List.foldlM readMember d (m :: post) = _
      rw [List.foldlM_cons, he]
      rfl
    unfold loadDict
    rw [this]
    rfl
  have hne : ∀ k : Key, k.name ≠ nameN ∧ k.name ≠ nameA := by
    intro k; cases k <;> decide
  refine ⟨fun h1 h2 => key _ ?_, fun h1 h2 => key _ ?_, fun h1 h2 => key _ ?_⟩
  · unfold readMember
    rw [if_neg (show m.1 ≠ nameN from fun e => h1 (e ▸ List.mem_cons_self)),
      if_neg (show m.1 ≠ nameA from fun e => h1 (e ▸ List.mem_cons_of_mem _ List.mem_cons_self))]
    have : Key.all.find? (fun k => k.name == m.1) = none := by
      rw [List.find?_eq_none]
      intro k hk e
      exact h2 (List.mem_map.2 ⟨k, hk, by simpa using e⟩)
    rw [this]
  · unfold readMember
    have h1 : m.1 = nameN ∨ m.1 = nameA := (List.mem_cons.1 h1).imp id List.mem_singleton.1
    rcases h1 with h1 | h1
    · rw [if_pos h1]
      cases e : m.2 with
      | int n => exact absurd e (h2 n)
      | _ => rfl
    · rw [if_neg (by rw [h1]; decide), if_pos h1]
      cases e : m.2 with
      | int n => exact absurd e (h2 n)
      | _ => rfl
  · obtain ⟨k, hk, hkn⟩ := List.mem_map.1 h1
    unfold readMember
    rw [← hkn, if_neg (hne k).1, if_neg (hne k).2]
    have : ∃ k', Key.all.find? (fun k' => k'.name == k.name) = some k' := by
      rw [← Option.isSome_iff_exists, List.find?_isSome]
      exact ⟨k, hk, by simp⟩
    obtain ⟨k', hk'⟩ := this
    rw [hk']
    simp only

/-- C105 is false of both constructors from files: whatever the files contain, no object is made. -/
theorem C105_constructors_refuted (texts : Str → Option Str) (disk : ModelIO.Disk α) (path : Str) :
    (∀ r, modelFromFile texts disk path ≠ .ok (some r)) ∧ ∀ b, boxFromFile texts path ≠ .ok b := by
  constructor
  · intro r h
    unfold modelFromFile at h
    split at h
    · cases h
    · split at h <;> cases h
  · intro b h
    unfold boxFromFile at h
    split at h <;> cases h

/-- C105: for execution parameters it is a `TypeError` whatever the file contains. -/
theorem C105_parameters_refuted (texts : Str → Option Str) (path text : Str) (h : texts path = some text) :
    boxFromFile texts path = .error .type := by
  unfold boxFromFile; rw [h]

/-- C105: in particular a model file whose text is not itself the path of a file is refused, although
the file holds a complete model. -/
theorem C105_contents_as_path_refuted (texts : Str → Option Str) (disk : ModelIO.Disk α)
    (path contents : Str) (h : texts path = some contents) (hc : disk contents = none) :
    modelFromFile texts disk path = .error .os := by
  unfold modelFromFile loadFirst load openFile
  rw [h]
  simp only [hc]
  rfl

/-- Witness: a model with all terms is accepted by the saver. -/
def full : ModelIO.Dict ℚ := ⟨some 1, some 2, fun k => match k with
    | .E => some ⟨[2, 2], fun a b => if a = b then 1 else 0⟩
    | .w => some ⟨[1], fun _ => 2⟩
    | .G1 => some ⟨[1, 2, 2], fun _ _ _ => 3⟩
    | .G2 => some ⟨[1, 1, 2, 2], fun _ _ _ _ => 5⟩
    | _ => none⟩

example (path : Str) (disk : ModelIO.Disk ℚ) :
    ∃ r, loadFirst path (save .coupled path full disk).2 = .ok r ∧ entry r .G2 [0, 0, 1, 0] = 5 := by
  have h : (save .coupled path full disk).1 = .ok () :=
    (C03_accepted_iff_wellFormed .coupled path full disk).mpr
      ⟨2, 1, rfl, rfl, by intro k a h; cases k <;> cases h <;> rfl⟩
  obtain ⟨r, h1, -, -, h2⟩ := C105_complete_partial path full disk h
    ⟨[0], by decide⟩ ⟨[0, 0, 0], by decide⟩ ⟨[0, 0, 0, 0], by decide⟩
  exact ⟨r, h1, by rw [h2 .G2 (by decide)]; decide⟩

/-- Witness: a linear model is accepted by the saver and not loaded. -/
def linearOnly : ModelIO.Dict ℚ := ⟨some 1, some 1, fun k => match k with
    | .w => some ⟨[1], fun _ => 2⟩
    | .G1 => some ⟨[1, 1, 1], fun _ _ _ => 3⟩
    | _ => none⟩

example (path : Str) (disk : ModelIO.Disk ℚ) :
    loadFirst path (save .coupled path linearOnly disk).2 = .error .key :=
  C105_zero_terms_refuted path linearOnly disk
    ((C03_accepted_iff_wellFormed .coupled path linearOnly disk).mpr
      ⟨1, 1, rfl, rfl, by intro k a h; cases k <;> cases h <;> rfl⟩)
    ⟨.G2, by decide, fun _ => rfl⟩

end Pibronic.Props.Loading
