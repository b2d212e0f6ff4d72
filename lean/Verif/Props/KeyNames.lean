import Verif.Model.KeyNames
import Verif.Py.Chars

set_option autoImplicit false

/-!
C108: the keys of model dictionaries are converted between names and members of the enumeration.
-/
namespace Pibronic.Props.KeyNames
open Pibronic.Py Pibronic.KeyNames

variable {V : Type}

/-- A dictionary with these members as keys. -/
def withMembers (d : List (Member × V)) : PDict V := d.map fun p => (.member p.1, p.2)

/-- The same dictionary with the names of the members as keys. -/
def withNames (d : List (Member × V)) : PDict V := d.map fun p => (.text p.1.value, p.2)

/-- Different members have different names. -/
theorem value_inj {m n : Member} (h : m.value = n.value) : m = n := by
  revert h; cases m <;> cases n <;> decide

theorem lookup_value (m : Member) : lookupMember (.text m.value) = .ok m := by
  cases m <;> decide +kernel

theorem put_new (k : PKey) (v : V) (d : PDict V) (h : ∀ p ∈ d, p.1 ≠ k) : put k v d = d ++ [(k, v)] := by
  induction d with
  | nil => rfl
  | cons p d ih =>
    have hp : p.1 ≠ k := h p (by simp)
    obtain ⟨k', v'⟩ := p
    simp only [put, if_neg hp, List.cons_append]
    rw [ih fun q hq => h q (by simp [hq])]

theorem del_head (k : PKey) (v : V) (d : PDict V) : del k ((k, v) :: d) = d := by simp [del]

theorem toMembersLoop_names (todo done : List (Member × V))
    (hd : (done ++ todo).Pairwise fun p q => p.1 ≠ q.1) :
    toMembersLoop (withNames todo) (withNames todo ++ withMembers done) =
      (withMembers (done ++ todo), none) := by
  induction todo generalizing done with
  | nil => simp [withNames, toMembersLoop]
  | cons p todo ih =>
    have hnew : ∀ q ∈ withNames (p :: todo) ++ withMembers done, q.1 ≠ .member p.1 := by
      intro q hq
      simp only [withNames, withMembers, List.mem_append, List.mem_map] at hq
      rcases hq with ⟨r, -, rfl⟩ | ⟨r, hr, rfl⟩
      · simp
      · have := (List.pairwise_append.1 hd).2.2 r hr p (by simp)
        simpa using this
    have := ih (done ++ [p]) (by simpa using hd)
    show (match lookupMember (.text p.1.value) with
      | .error e => _
      | .ok m => _) = _
    rw [lookup_value]
    dsimp only
    rw [put_new _ _ _ hnew]
    simp only [withNames, List.map_cons, List.cons_append, del_head]
    simpa [withNames, withMembers] using this

/-- C108: a dictionary whose keys are names gets the members as keys, with the same values, in the
same order, and nothing else. -/
theorem C108_to_members (d : List (Member × V)) (hd : d.Pairwise fun p q => p.1 ≠ q.1) :
    toMembers (withNames d) = (withMembers d, none) := by
  have := toMembersLoop_names d [] (by simpa using hd)
  simpa [toMembers, withMembers] using this

theorem toStringsLoop_members (ver : Version) (todo done : List (Member × V))
    (hd : (done ++ todo).Pairwise fun p q => p.1 ≠ q.1) :
    toStringsLoop ver (withMembers todo) (withMembers todo ++ withNames done) =
      (withNames (done ++ todo), none) := by
  induction todo generalizing done with
  | nil => simp [withMembers, toStringsLoop]
  | cons p todo ih =>
    have hnew : ∀ q ∈ withMembers (p :: todo) ++ withNames done, q.1 ≠ .text p.1.value := by
      intro q hq
      simp only [withNames, withMembers, List.mem_append, List.mem_map] at hq
      rcases hq with ⟨r, -, rfl⟩ | ⟨r, hr, rfl⟩
      · simp
      · have := (List.pairwise_append.1 hd).2.2 r hr p (by simp)
        simpa using fun h => this (value_inj h)
    have := ih (done ++ [p]) (by simpa using hd)
    show toStringsLoop ver (withMembers todo) (del (.member p.1) (put (.text p.1.value) p.2 _)) = _
    rw [put_new _ _ _ hnew]
    simp only [withMembers, List.map_cons, List.cons_append, del_head]
    simpa [withNames, withMembers] using this

/-- C108: and back, under every version of Python. -/
theorem C108_to_strings (ver : Version) (d : List (Member × V)) (hd : d.Pairwise fun p q => p.1 ≠ q.1) :
    toStrings ver (withMembers d) = (withNames d, none) := by
  have := toStringsLoop_members ver d [] (by simpa using hd)
  simpa [toStrings, withNames] using this

/-- C108: names, members, names again: the dictionary that there was. -/
theorem C108_roundtrip (ver : Version) (d : List (Member × V)) (hd : d.Pairwise fun p q => p.1 ≠ q.1) :
    toStrings ver (toMembers (withNames d)).1 = (withNames d, none) := by
  rw [C108_to_members d hd, C108_to_strings ver d hd]

/-- Two dimensions and an array of a model file. -/
example : ([(.N, 2), (.A, 3), (.G1, 7)] : List (Member × Nat)).Pairwise (fun p q => p.1 ≠ q.1) ∧
    withNames [(.N, 2), (.A, 3), (.G1, 7)] =
      [(.text c!"number of modes", 2), (.text c!"number of surfaces", 3),
        (.text c!"linear couplings", 7)] := by
  constructor <;> decide

/-- C108: a name that no member has is a `ValueError`; the dictionary is left half converted: the items
that came before are at its end. -/
theorem C108_unknown (before : List (Member × V)) (s : Str) (value : V) (rest : PDict V)
    (hs : ∀ m : Member, m.value ≠ s) (hd : before.Pairwise fun p q => p.1 ≠ q.1)
    (hr : ∀ p ∈ rest, ∃ t, p.1 = .text t) :
    toMembers (withNames before ++ (.text s, value) :: rest) =
      ((.text s, value) :: rest ++ withMembers before, some .value) := by
  have hl : lookupMember (.text s) = .error .value := by
    have : Member.all.find? (fun m => m.value == s) = none := by
      rw [List.find?_eq_none]; intro m _; simpa using hs m
    simp [lookupMember, this]
  suffices h : ∀ todo done : List (Member × V), ((done ++ todo).Pairwise fun p q => p.1 ≠ q.1) →
      toMembersLoop (withNames todo ++ (.text s, value) :: rest)
        (withNames todo ++ (.text s, value) :: rest ++ withMembers done) =
      ((.text s, value) :: rest ++ withMembers (done ++ todo), some .value) by
    have := h before [] (by simpa using hd)
    simpa [toMembers, withMembers] using this
  intro todo
  induction todo with
  | nil => intro done _; simp [withNames, toMembersLoop, hl]
  | cons p todo ih =>
    intro done hd
    have hnew : ∀ q ∈ withNames (p :: todo) ++ (.text s, value) :: rest ++ withMembers done,
        q.1 ≠ .member p.1 := by
      intro q hq
      simp only [withNames, withMembers, List.mem_append, List.mem_map, List.mem_cons] at hq
      rcases hq with (⟨r, -, rfl⟩ | rfl | hq) | ⟨r, hr, rfl⟩
      · simp
      · simp
      · obtain ⟨t, ht⟩ := hr q hq; rw [ht]; simp
      · have := (List.pairwise_append.1 hd).2.2 r hr p (by simp)
        simpa using this
    have := ih (done ++ [p]) (by simpa using hd)
    show (match lookupMember (.text p.1.value) with
      | .error e => _
      | .ok m => _) = _
    rw [lookup_value]
    dsimp only
    rw [put_new _ _ _ hnew]
    simp only [withNames, List.map_cons, List.cons_append, List.append_assoc, del_head]
    simpa [withNames, withMembers] using this

/-- A model file with a misspelt key between two good ones. -/
example : toMembers [(.text c!"energies", 1), (.text c!"energy", 2), (.text c!"frequencies", 3)] =
    ([(.text c!"energy", 2), (.text c!"frequencies", 3), (.member .E, 1)], some .value) :=
  C108_unknown [(.E, 1)] c!"energy" 2 [(.text c!"frequencies", 3)]
    (by intro m; cases m <;> decide) (by simp) (by simp)

theorem toMembersLoop_members (d : List (Member × V)) (hd : d.Pairwise fun p q => p.1 ≠ q.1) :
    toMembersLoop (withMembers d) (withMembers d) = ([], none) := by
  induction d with
  | nil => rfl
  | cons p d ih =>
    show toMembersLoop (withMembers d) (del (.member p.1) (put (.member p.1) p.2 _)) = _
    simp only [withMembers, List.map_cons, put, if_pos, del_head]
    exact ih (List.pairwise_cons.1 hd).2

/-- C108, refuted: converting to members a dictionary that has members already empties it: every item
is set and then deleted, and no exception is raised. -/
theorem C108_twice_refuted (d : List (Member × V)) (hd : d.Pairwise fun p q => p.1 ≠ q.1) :
    toMembers (toMembers (withNames d)).1 = ([], none) := by
  rw [C108_to_members d hd]
  exact toMembersLoop_members d hd

/-- C108: converting to names a dictionary that has names already does nothing under old versions of
Python; it is a `TypeError` under Python 3.8 to 3.11 and an `AttributeError` under 3.12, and in all
cases the dictionary is as it was. -/
theorem C108_names_again (ver : Version) (m : Member) (v : V) (d : List (Member × V)) :
    toStrings ver (withNames ((m, v) :: d)) = (withNames ((m, v) :: d), match ver with
      | .old => none
      | .strict => some .type
      | .recent => some .attribute) := by
  cases ver with
  | old =>
    have : ∀ (l : List (Member × V)) (d : PDict V), toStringsLoop .old (withNames l) d = (d, none) := by
      intro l
      induction l with
      | nil => intro d; rfl
      | cons p l ih => intro d; exact ih d
    exact this _ _
  | strict => rfl
  | recent =>
    have : isMember .recent (.text m.value) = .ok true := by cases m <;> decide +kernel
    show (match isMember .recent (.text m.value) with
      | .error e => _
      | .ok false => _
      | .ok true => _) = _
    rw [this]
    rfl

/-- C108: the names are those of the arrays and dimensions in the model files. -/
theorem C108_names :
    Member.value .N = ModelIO.nameN ∧ Member.value .A = ModelIO.nameA ∧
    Member.value .E = ModelIO.Key.name .E ∧ Member.value .w = ModelIO.Key.name .w ∧
    Member.value .G1 = ModelIO.Key.name .G1 ∧ Member.value .G2 = ModelIO.Key.name .G2 ∧
    Member.value .G3 = ModelIO.Key.name .G3 ∧ Member.value .G4 = ModelIO.Key.name .G4 :=
  ⟨rfl, rfl, rfl, rfl, rfl, rfl, rfl, rfl⟩

/-- C108: the list of keys names exactly the arrays that have a value per surface or per pair of
surfaces, those that a change of the surfaces has to transform: `Model.mapSurf` and the frequencies
apart, all of them. -/
theorem C108_key_list (m : Member) : m ∈ keyList ↔
    ∃ k : ModelIO.Key, m.value = k.name ∧ ∀ A N, ∃ l, ModelIO.shape .coupled A N k = l ++ [A, A] ∧
      l = ModelIO.modes N k := by
  constructor
  · intro h
    simp only [keyList, List.mem_cons, List.not_mem_nil, or_false] at h
    rcases h with rfl | rfl | rfl | rfl | rfl
    · exact ⟨.E, rfl, fun A N => ⟨_, rfl, rfl⟩⟩
    · exact ⟨.G1, rfl, fun A N => ⟨_, rfl, rfl⟩⟩
    · exact ⟨.G2, rfl, fun A N => ⟨_, rfl, rfl⟩⟩
    · exact ⟨.G3, rfl, fun A N => ⟨_, rfl, rfl⟩⟩
    · exact ⟨.G4, rfl, fun A N => ⟨_, rfl, rfl⟩⟩
  · rintro ⟨k, h, hk⟩
    have hw : k ≠ .w := by
      rintro rfl
      obtain ⟨l, h1, h2⟩ := hk 0 0
      subst h2
      simp [ModelIO.shape, ModelIO.modes] at h1
    revert h
    cases k <;> cases m <;> first | (intro; decide) | (exfalso; exact hw rfl) | (intro h; exact absurd h (by decide))

end Pibronic.Props.KeyNames
