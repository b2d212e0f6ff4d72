import Verif.Model.ModelText
import Verif.Lemmas.JsonPrefix
import Verif.Props.FakeCoupling

set_option autoImplicit false
set_option linter.unusedSectionVars false

/-!
The theorems about model files, for the text on the disk: C01 and C02 (round trip), C03 (rejection),
C06 (crash points, down to single characters).
-/
namespace Pibronic.Props.ModelText
open Py Pibronic.ModelIO Spec.ModelIO Pibronic.ModelText Pibronic.Props.ModelFiles
variable {α : Type}

/-! ### specification -/

/-- `P` holds for every number of an array. -/
def Everywhere (P : α → Prop) : (s : List Nat) → Tensor α s → Prop
  | [], x => P x
  | _ :: s, t => ∀ i, Everywhere P s (t i)

/-- Every number of the model is a float. -/
def AllFloats (fl : FloatText α) (d : Dict α) : Prop :=
  ∀ k a, d.arr k = some a → Everywhere fl.IsFloat a.shape a.data

/-! ### values -/

mutual
/-- every number of the value is a float -/
def JFloats (fl : FloatText α) : J α → Prop
  | .int _ => True
  | .num x => fl.IsFloat x
  | .list l => JFloatss fl l
def JFloatss (fl : FloatText α) : List (J α) → Prop
  | [] => True
  | v :: l => JFloats fl v ∧ JFloatss fl l
end

mutual
theorem fromJson_toJson [IntCast α] (fl : FloatText α) (v : J α) (h : JFloats fl v) :
    fromJson fl (toJson fl v) = .ok v := by
  match v with
  | .int n => rw [toJson, show ((n : Int)) = Int.ofNat n from rfl, fromJson]
  | .num x =>
    rw [JFloats, FloatText.IsFloat] at h
    rw [toJson, fromJson, h]
  | .list l =>
    rw [JFloats] at h
    rw [toJson, fromJson, fromJsons_toJsons fl l h]; rfl
theorem fromJsons_toJsons [IntCast α] (fl : FloatText α) (l : List (J α)) (h : JFloatss fl l) :
    fromJsons fl (toJsons fl l) = .ok l := by
  match l with
  | [] => rw [toJsons, fromJsons]
  | v :: l =>
    rw [JFloatss] at h
    rw [toJsons, fromJsons, fromJson_toJson fl v h.1, fromJsons_toJsons fl l h.2]; rfl
end

mutual
theorem valid_toJson (fl : FloatText α) (v : J α) : (toJson fl v).Valid := by
  match v with
  | .int n => rw [toJson, Json.Valid]; trivial
  | .num x => rw [toJson, Json.Valid]; exact fl.tok x
  | .list l => rw [toJson, Json.Valid]; exact valid_toJsons fl l
theorem valid_toJsons (fl : FloatText α) (l : List (J α)) : validItems (toJsons fl l) := by
  match l with
  | [] => rw [toJsons, validItems]; trivial
  | v :: l => rw [toJsons, validItems]; exact ⟨valid_toJson fl v, valid_toJsons fl l⟩
end

theorem valid_members (fl : FloatText α) (f : File α) :
    validPairs (f.map fun m => (m.1, toJson fl m.2)) := by
  induction f with
  | nil => rw [List.map_nil, validPairs]; trivial
  | cons m f ih => rw [List.map_cons, validPairs]; exact ⟨valid_toJson fl m.2, ih⟩

theorem jfloats_list (fl : FloatText α) (l : List (J α)) (h : ∀ v ∈ l, JFloats fl v) :
    JFloatss fl l := by
  induction l with
  | nil => rw [JFloatss]; trivial
  | cons v l ih => rw [JFloatss]; exact ⟨h v (by simp), ih fun w hw => h w (by simp [hw])⟩

theorem jfloats_tolist (fl : FloatText α) (s : List Nat) (t : Tensor α s)
    (h : Everywhere fl.IsFloat s t) : JFloats fl (Tensor.tolist s t) := by
  induction s with
  | nil => rw [Tensor.tolist, JFloats]; exact h
  | cons n s ih =>
    rw [Tensor.tolist, JFloats]
    apply jfloats_list
    intro v hv
    obtain ⟨i, rfl⟩ := List.mem_ofFn.mp hv
    exact ih (t i) (h i)

variable [CommRing α] [DecidableEq α]

theorem toFile_keys (d : Dict α) : ((toFile d).map Prod.fst).Nodup := by
  have h1 : ∀ ks : List Key, (ks.filterMap fun k => match d.arr k with
      | some a => if Tensor.nonzero a.shape a.data then
          some (k.name, Tensor.tolist a.shape a.data) else none
      | none => none).map Prod.fst |>.Sublist (ks.map Key.name) := by
    intro ks
    induction ks with
    | nil => exact List.Sublist.slnil
    | cons k ks ih =>
      rw [List.filterMap_cons]
      split
      · exact List.Sublist.cons _ ih
      · next b hb =>
        have : b.1 = k.name := by
          revert hb
          cases d.arr k with
          | none => simp
          | some a =>
            simp only
            split
            · simp only [Option.some.injEq]; rintro rfl; rfl
            · simp
        simp only [List.map_cons, this]
        exact List.Sublist.cons_cons _ ih
  have h2 : ((toFile d).map Prod.fst).Sublist ([nameN] ++ [nameA] ++ Key.all.map Key.name) := by
    unfold toFile
    simp only [List.map_append]
    refine List.Sublist.append (List.Sublist.append ?_ ?_) (h1 Key.all)
    · cases d.N <;> simp
    · cases d.A <;> simp
  exact h2.nodup (by decide)

theorem toFile_floats (fl : FloatText α) (d : Dict α) (h : AllFloats fl d) :
    ∀ m ∈ toFile d, JFloats fl m.2 := by
  intro m hm
  unfold toFile at hm
  simp only [List.mem_append, List.mem_map, List.mem_filterMap] at hm
  rcases hm with (⟨n, _, rfl⟩ | ⟨n, _, rfl⟩) | ⟨k, _, hk⟩
  · rw [JFloats]; trivial
  · rw [JFloats]; trivial
  · cases ha : d.arr k with
    | none => rw [ha] at hk; cases hk
    | some a =>
      rw [ha] at hk
      simp only at hk
      split at hk
      · cases hk; exact jfloats_tolist fl _ _ (h k a ha)
      · cases hk

/-- C01: the members of a model file: the sizes, and every array that has a non-zero entry, under the
names a reader of the file knows. -/
theorem C01_file_members (d : Dict α) (name : Str) (v : J α) : (name, v) ∈ toFile d ↔
    (name = c!"number of modes" ∧ ∃ n, d.N = some n ∧ v = J.int n) ∨
    (name = c!"number of surfaces" ∧ ∃ n, d.A = some n ∧ v = J.int n) ∨
    ∃ k t, (k, t) ∈ [(Key.E, c!"energies"), (Key.w, c!"frequencies"),
        (Key.G1, c!"linear couplings"), (Key.G2, c!"quadratic couplings"),
        (Key.G3, c!"cubic couplings"), (Key.G4, c!"quartic couplings")] ∧ name = t ∧
      ∃ a, d.arr k = some a ∧ Tensor.nonzero a.shape a.data = true ∧
        v = Tensor.tolist a.shape a.data := by
  have hn : ∀ k : Key, ((match d.arr k with
        | some a => if Tensor.nonzero a.shape a.data then
            some (k.name, Tensor.tolist a.shape a.data) else none
        | none => none) = some (name, v)) ↔ name = k.name ∧
      ∃ a, d.arr k = some a ∧ Tensor.nonzero a.shape a.data = true ∧
        v = Tensor.tolist a.shape a.data := by
    intro k
    cases d.arr k with
    | none => exact ⟨fun h => (by cases h), fun ⟨_, _, h, _⟩ => (by cases h)⟩
    | some a =>
      constructor
      · intro h
        simp only at h
        split at h
        · next hz => cases h; exact ⟨rfl, a, rfl, hz, rfl⟩
        · cases h
      · rintro ⟨rfl, b, hb, hz, rfl⟩
        cases hb
        simp only
        rw [if_pos hz]
  unfold toFile
  simp only [List.mem_append, List.mem_map, List.mem_filterMap, Option.mem_toList, Prod.mk.injEq]
  rw [or_assoc]
  refine or_congr ?_ (or_congr ?_ ?_)
  · constructor
    · rintro ⟨n, h1, h2, h3⟩; exact ⟨h2.symm, n, h1, h3.symm⟩
    · rintro ⟨h2, n, h1, h3⟩; exact ⟨n, h1, h2.symm, h3.symm⟩
  · constructor
    · rintro ⟨n, h1, h2, h3⟩; exact ⟨h2.symm, n, h1, h3.symm⟩
    · rintro ⟨h2, n, h1, h3⟩; exact ⟨n, h1, h2.symm, h3.symm⟩
  · constructor
    · rintro ⟨k, -, h⟩
      obtain ⟨h1, h2⟩ := (hn k).1 h
      refine ⟨k, k.name, ?_, h1, h2⟩
      cases k <;> decide
    · rintro ⟨k, t, h1, h2, h3⟩
      refine ⟨k, ?_, (hn k).2 ⟨?_, h3⟩⟩
      · cases k <;> decide
      · rw [h2]
        revert h1
        simp only [List.mem_cons, Prod.mk.injEq, List.not_mem_nil, or_false]
        rintro (⟨rfl, rfl⟩ | ⟨rfl, rfl⟩ | ⟨rfl, rfl⟩ | ⟨rfl, rfl⟩ | ⟨rfl, rfl⟩ | ⟨rfl, rfl⟩) <;> decide

theorem valid_file (fl : FloatText α) (d : Dict α) :
    (Json.dict ((toFile d).map fun m => (m.1, toJson fl m.2))).Valid := by
  rw [Json.Valid]
  refine ⟨?_, valid_members fl _⟩
  rw [List.map_map]
  exact toFile_keys d

/-- The object in a file is read back from its text. -/
theorem parse_fileText (fl : FloatText α) (d : Dict α) (h : AllFloats fl d) :
    parseText fl (fileText fl (toFile d)) = .ok (toFile d) := by
  unfold parseText fileText
  rw [loads_dumpsDefault _ (valid_file fl d)]
  show List.mapM _ _ = _
  have : ∀ f : File α, (∀ m ∈ f, JFloats fl m.2) →
      ((f.map fun m => (m.1, toJson fl m.2)).mapM fun m : Str × Json =>
        (do .ok (m.1, ← fromJson fl m.2) : Except Err (Str × J α))) = .ok f := by
    intro f
    induction f with
    | nil => intro _; rfl
    | cons m f ih =>
      intro hf
      rw [List.map_cons, List.mapM_cons, fromJson_toJson fl m.2 (hf m (by simp)),
        ih fun x hx => hf x (by simp [hx])]
      rfl
  exact this _ (toFile_floats fl d h)

/-- The model files among the files on the disk. -/
def readable (fl : FloatText α) (disk : TextDisk) : Disk α :=
  fun p => match disk p with
    | none => none
    | some text => (parseText fl text).toOption

theorem loadText_of_readable (fl : FloatText α) (kind : Kind) (path : Str) (disk : TextDisk)
    (f : File α) (h : readable fl disk path = some f) :
    loadText fl kind path disk = load kind path (readable fl disk) := by
  unfold loadText load openText openFile
  rw [h]
  unfold readable at h
  split at h
  · cases h
  · next text ht =>
    rw [ht]
    simp only
    cases hp : parseText fl text with
    | error e => rw [hp] at h; cases h
    | ok f' => rw [hp] at h; cases h; rfl

theorem saveText_outcome (fl : FloatText α) (kind : Kind) (path : Str) (d : Dict α)
    (disk : TextDisk) (k : Disk α) : (saveText fl kind path d disk).1 = (save kind path d k).1 := by
  unfold saveText save
  cases verify kind d <;> rfl

/-- Writing and reading the text is writing and reading the object. -/
theorem loadText_saveText (fl : FloatText α) (kind kind' : Kind) (path : Str) (d : Dict α)
    (disk : TextDisk) (k : Disk α) (hf : AllFloats fl d)
    (h : (saveText fl kind path d disk).1 = .ok ()) :
    loadText fl kind' path (saveText fl kind path d disk).2 =
      load kind' path (save kind path d k).2 := by
  unfold saveText save at *
  cases hv : verify kind d with
  | error e => rw [hv] at h; cases h
  | ok v =>
    simp only
    unfold loadText load openText openFile
    simp only [TextDisk.write, Disk.write, if_pos]
    rw [parse_fileText fl d hf]

/-! ### C01, C02, C03 -/

/-- C03 for the text: the saver accepts exactly the dictionaries with the conventional shapes. -/
theorem C03_text_accepted_iff (fl : FloatText α) (kind : Kind) (path : Str) (d : Dict α)
    (disk : TextDisk) : (saveText fl kind path d disk).1 = .ok () ↔ WellFormed kind d := by
  rw [saveText_outcome fl kind path d disk fun _ => none]
  exact C03_accepted_iff_wellFormed kind path d _

/-- C03 for the text: a malformed dictionary raises `AssertionError` and no character on the disk
changes; a well-formed one changes no other file. -/
theorem C03_text_rejected (fl : FloatText α) (kind : Kind) (path : Str) (d : Dict α)
    (disk : TextDisk) :
    (¬ WellFormed kind d → saveText fl kind path d disk = (.error .assertion, disk)) ∧
    ∀ p, p ≠ path → (saveText fl kind path d disk).2 p = disk p := by
  unfold saveText
  constructor
  · intro h
    cases hv : verify kind d with
    | error e => rw [verify_error hv]
    | ok v => exact absurd (wellFormed_iff.mpr ⟨_, _, _, verify_ok hv⟩) h
  · intro p hp
    cases verify kind d with
    | error e => rfl
    | ok v => simp [TextDisk.write, hp]

/-- C01 for the text: for every coupled model of floats that was saved, the text on the disk is
parsed into the same model. -/
theorem C01_text_round_trip (fl : FloatText α) (path : Str) (d : Dict α) (disk : TextDisk)
    (hf : AllFloats fl d) (h : (saveText fl .coupled path d disk).1 = .ok ()) :
    ∃ v, loadText fl .coupled path (saveText fl .coupled path d disk).2 = .ok v ∧
      SameModel v.model.toDict d ∧ WellFormed .coupled v.model.toDict := by
  rw [loadText_saveText fl .coupled .coupled path d disk (fun _ => none) hf h]
  exact C01_round_trip path d _ (by rw [← saveText_outcome fl .coupled path d disk]; exact h)

/-- C02 for the text: the same for diagonal models with some energy other than zero. -/
theorem C02_text_round_trip_partial (fl : FloatText α) (path : Str) (d : Dict α) (disk : TextDisk)
    (hf : AllFloats fl d) (h : (saveText fl .diagonal path d disk).1 = .ok ())
    (hE : ∃ a, entry d .E [a] ≠ 0) :
    ∃ v, loadText fl .diagonal path (saveText fl .diagonal path d disk).2 = .ok v ∧
      SameModel v.model.toDict d := by
  rw [loadText_saveText fl .diagonal .diagonal path d disk (fun _ => none) hf h]
  exact C02_round_trip_partial path d _ (by rw [← saveText_outcome fl .diagonal path d disk]; exact h)
    hE

/-! ### plain ASCII -/

theorem ascii_hexDigit (n : Nat) : (hexDigit (n % 16)).toNat < 128 := by
  have : ∀ d : Fin 16, (hexDigit d).toNat < 128 := by decide
  exact this ⟨n % 16, Nat.mod_lt _ (by norm_num)⟩

theorem ascii_uEscape (n : Nat) : ∀ c ∈ uEscape n, c.toNat < 128 := by
  intro c hc
  simp only [uEscape, List.mem_cons, List.not_mem_nil, or_false] at hc
  rcases hc with rfl | rfl | rfl | rfl | rfl | rfl
  · decide
  · decide
  all_goals exact ascii_hexDigit _

theorem ascii_encStr (s : Str) : ∀ c ∈ encStr s, c.toNat < 128 := by
  intro c hc
  simp only [encStr, encChars, List.mem_cons, List.mem_append, List.not_mem_nil, or_false,
    List.mem_flatMap] at hc
  rcases hc with rfl | ⟨a, _, ha⟩ | rfl
  · decide
  · unfold encChar at ha
    split at ha
    · revert c; decide
    split at ha
    · revert c; decide
    split at ha
    · revert c; decide
    split at ha
    · revert c; decide
    split at ha
    · revert c; decide
    split at ha
    · revert c; decide
    split at ha
    · revert c; decide
    split at ha
    · next h => simp only [List.mem_singleton] at ha; subst ha; omega
    split at ha
    · exact ascii_uEscape _ c ha
    · rw [List.mem_append] at ha
      rcases ha with ha | ha <;> exact ascii_uEscape _ c ha
  · decide

theorem ascii_dig {c : Char} (h : isDig c = true) : c.toNat < 128 := by
  unfold isDig digitVal at h
  split at h
  · next hc => omega
  · cases h

theorem ascii_intPart {s : Str} (h : IntPart s) : ∀ c ∈ s, c.toNat < 128 := by
  rcases h with rfl | ⟨a, ds, rfl, _, h⟩
  · decide
  · exact fun c hc => ascii_dig (h c hc)

theorem ascii_floatTok {s : Str} (h : FloatTok s) : ∀ c ∈ s, c.toNat < 128 := by
  rcases h with rfl | rfl | rfl | ⟨sign, ip, fp, ep, rfl, h2, h3, h4, h5, _⟩
  · decide
  · decide
  · decide
  · intro c hc
    simp only [List.mem_append] at hc
    rcases hc with ((hc | hc) | hc) | hc
    · rcases h2 with rfl | rfl
      · cases hc
      · revert c; decide
    · exact ascii_intPart h3 c hc
    · rcases h4 with rfl | ⟨ds, _, hd, rfl⟩
      · cases hc
      · rcases List.mem_cons.mp hc with rfl | hc
        · decide
        · exact ascii_dig (hd c hc)
    · rcases h5 with rfl | ⟨sg, ds, hs, _, hd, rfl⟩
      · cases hc
      · rcases List.mem_cons.mp hc with rfl | hc
        · decide
        · rcases List.mem_append.mp hc with hc | hc
          · rcases hs with rfl | rfl <;> (rw [List.mem_singleton] at hc; subst hc; decide)
          · exact ascii_dig (hd c hc)

theorem ascii_int (z : Int) : ∀ c ∈ intStr z, c.toNat < 128 := by
  obtain ⟨sign, ip, h1, h2, h3⟩ := intStr_eq z
  rw [h1]
  intro c hc
  rcases List.mem_append.mp hc with hc | hc
  · rcases h2 with rfl | rfl
    · cases hc
    · rw [List.mem_singleton] at hc; subst hc; decide
  · exact ascii_intPart h3 c hc

mutual
theorem ascii_dumps (v : Json) (hv : v.Valid) : ∀ c ∈ dumpsDefault v, c.toNat < 128 := by
  match v with
  | .null => rw [dumpsDefault]; decide
  | .bool true => rw [dumpsDefault]; decide
  | .bool false => rw [dumpsDefault]; decide
  | .int z => rw [dumpsDefault]; exact ascii_int z
  | .float t => rw [dumpsDefault]; rw [Json.Valid] at hv; exact ascii_floatTok hv
  | .str s => rw [dumpsDefault]; exact ascii_encStr s
  | .list [] => rw [dumpsDefault]; decide
  | .list (v :: l) =>
    rw [Json.Valid, validItems] at hv
    rw [dumpsDefault]
    intro c hc
    simp only [List.mem_cons, List.mem_append] at hc
    rcases hc with rfl | hc | hc
    · decide
    · exact ascii_dumps v hv.1 c hc
    · exact ascii_items l hv.2 c hc
  | .dict [] => rw [dumpsDefault]; decide
  | .dict ((k, v) :: l) =>
    rw [Json.Valid, validPairs] at hv
    rw [dumpsDefault]
    intro c hc
    simp only [List.mem_cons, List.mem_append] at hc
    rcases hc with rfl | hc | rfl | rfl | hc | hc
    · decide
    · exact ascii_encStr k c hc
    · decide
    · decide
    · exact ascii_dumps v hv.2.1 c hc
    · exact ascii_pairs l hv.2.2 c hc
theorem ascii_items (l : List Json) (hl : validItems l) :
    ∀ c ∈ dumpsDefaultItems l, c.toNat < 128 := by
  match l with
  | [] => rw [dumpsDefaultItems]; decide
  | v :: l =>
    rw [validItems] at hl
    rw [dumpsDefaultItems]
    intro c hc
    simp only [List.mem_cons, List.mem_append] at hc
    rcases hc with rfl | rfl | hc | hc
    · decide
    · decide
    · exact ascii_dumps v hl.1 c hc
    · exact ascii_items l hl.2 c hc
theorem ascii_pairs (l : List (Str × Json)) (hl : validPairs l) :
    ∀ c ∈ dumpsDefaultPairs l, c.toNat < 128 := by
  match l with
  | [] => rw [dumpsDefaultPairs]; decide
  | (k, v) :: l =>
    rw [validPairs] at hl
    rw [dumpsDefaultPairs]
    intro c hc
    simp only [List.mem_cons, List.mem_append] at hc
    rcases hc with rfl | rfl | hc | rfl | rfl | hc | hc
    · decide
    · decide
    · exact ascii_encStr k c hc
    · decide
    · decide
    · exact ascii_dumps v hl.1 c hc
    · exact ascii_pairs l hl.2 c hc
end

/-- C01: a saved model file is plain ASCII, so the encoding with which it is opened does not
matter. -/
theorem C01_text_ascii (fl : FloatText α) (kind : Kind) (path : Str) (d : Dict α) (disk : TextDisk)
    (h : (saveText fl kind path d disk).1 = .ok ()) :
    ∃ text, (saveText fl kind path d disk).2 path = some text ∧ ∀ c ∈ text, c.toNat < 128 := by
  unfold saveText at *
  cases hv : verify kind d with
  | error e => rw [hv] at h; cases h
  | ok v => exact ⟨fileText fl (toFile d), by simp [TextDisk.write], ascii_dumps _ (valid_file fl d)⟩

/-! ### incomplete files -/

/-- C06: a model file that was not written to its end is rejected with `JSONDecodeError`: it is never
taken for another model. -/
theorem C06_incomplete_file_rejected (fl : FloatText α) (kind kind' : Kind) (path : Str) (d : Dict α)
    (disk : TextDisk) (text : Str) (h : (saveText fl kind path d disk).1 = .ok ())
    (ht : (saveText fl kind path d disk).2 path = some text) (n : Nat) (hn : n < text.length) :
    loadText fl kind' path (disk.write path (text.take n)) = .error .value := by
  unfold saveText at *
  cases hv : verify kind d with
  | error e => rw [hv] at h; cases h
  | ok v =>
    rw [hv] at ht
    simp only [TextDisk.write, if_pos, Option.some.injEq] at ht
    have : loads (text.take n) = .error .value := by
      refine loads_truncated _ (valid_file fl d) rfl (text.take n) (text.drop n) ?_ ?_
      · rw [List.take_append_drop]; exact ht
      · intro h0
        rw [List.drop_eq_nil_iff] at h0
        omega
    unfold loadText openText parseText
    simp only [TextDisk.write, if_pos]
    rw [this]
    rfl

/-- A prefix of a text is rejected, or holds the same value. -/
theorem loads_prefix_same {s t : Str} {l : List (Str × Json)} (h : loads (s ++ t) = .ok (.dict l)) :
    loads s = .error .value ∨ loads s = .ok (.dict l) := by
  cases hs : loads s with
  | error e => left; rw [loads_error hs]
  | ok w =>
    right
    unfold loads at h hs
    obtain ⟨⟨v, r⟩, h1, h2⟩ := bind_ok h
    obtain ⟨⟨w', r'⟩, h3, h4⟩ := bind_ok hs
    simp only at h2 h4
    split at h2
    · next hr =>
      split at h4
      · next hr' =>
        cases h2
        cases h4
        cases hx : skipWs s with
        | nil =>
          rw [hx, scanValue, scanAtom_nil] at h3
          · cases h3
          all_goals simp
        | cons c x =>
          rw [hx] at h3
          rw [skipWs_append hx] at h1
          have hc : c = '{' := by
            by_contra hne
            by_cases c1 : c = '"'
            · subst c1
              rw [scanValue] at h1
              obtain ⟨q, _, hq⟩ := bind_ok h1
              cases hq
            by_cases c2 : c = '['
            · subst c2
              rw [scanValue] at h1
              split at h1
              · cases h1
              · obtain ⟨q, _, hq⟩ := bind_ok h1
                cases hq
            · rw [scanValue_atom c1 c2 hne] at h1
              have := scanAtom_not_closed h1
              cases this
          have := scanValue_append _ ((s ++ t).length + 1)
            (by simp only [List.length_append]; omega) (c :: x) t _ h3
            (.inl (scanValue_closed (.inr (.inr hc)) h3))
          rw [List.cons_append, h1] at this
          simp only [Except.ok.injEq, Prod.mk.injEq] at this
          rw [this.1]
      · cases h4
    · cases h2

/-- A prefix of a model file is rejected with `JSONDecodeError`, or loads as the whole file does. -/
theorem loadText_prefix (fl : FloatText α) (kind : Kind) (path path' : Str) (disk disk' : TextDisk)
    (text : Str) (n : Nat) (f : File α) (hp : parseText fl text = .ok f)
    (h1 : disk path = some text) (h2 : disk' path' = some (text.take n)) :
    loadText fl kind path' disk' = .error .value ∨
      loadText fl kind path' disk' = loadText fl kind path disk := by
  have hd : ∃ l, loads text = .ok (.dict l) := by
    unfold parseText at hp
    obtain ⟨v, hv, hp⟩ := bind_ok hp
    cases v with
    | dict l => exact ⟨l, hv⟩
    | _ => cases hp
  obtain ⟨l, hl⟩ := hd
  have hl' := hl
  rw [← List.take_append_drop n text] at hl
  unfold loadText openText
  rw [h1, h2]
  rcases loads_prefix_same hl with h | h
  · left
    simp only
    unfold parseText
    rw [h]; rfl
  · right
    simp only
    unfold parseText
    rw [h, hl']

theorem loadText_parse {fl : FloatText α} {kind : Kind} {path : Str} {disk : TextDisk}
    {v : Verified α kind} {text : Str} (h : loadText fl kind path disk = .ok v)
    (ht : disk path = some text) : ∃ f, parseText fl text = .ok f := by
  unfold loadText openText at h
  rw [ht] at h
  obtain ⟨f, hf, _⟩ := bind_ok h
  exact ⟨f, hf⟩

theorem createFakeText_ok [AllClose α] {fl : FloatText α} {vib orig : Str} {stored : Option (NDArray α)}
    {arg : UArg α} {disk : TextDisk} {ws : List (Str × Str)} {U : NDArray α}
    (h : createFakeText fl vib orig stored arg disk = .ok (ws, U)) :
    ∃ old v new, disk vib = some old ∧ loadText fl .coupled vib disk = .ok v ∧
      (∃ w, verify .coupled new = .ok w) ∧ ws = [(orig, old), (vib, fileText fl (toFile new))] := by
  unfold createFakeText at h
  split at h
  · cases h
  · next old hold =>
    obtain ⟨v, hv, h⟩ := bind_ok h
    obtain ⟨u, _, h⟩ := bind_ok h
    split at h
    · simp only at h
      split at h
      · cases h
      · next w hw =>
        cases h
        exact ⟨old, v, _, hold, hv, ⟨w, hw⟩, rfl⟩
    · cases h

/-- C06 down to single characters: wherever a call of `create_fake_coupled_model` is interrupted, the
text of the model from before the call is complete in one of the two files; no other file changes;
and each of the two files is rejected with `JSONDecodeError` or loads as a complete model - the model
file as the model before the call or after it, the backup as the backup or the model from before the
call. -/
theorem C06_text_crash [AllClose α] (fl : FloatText α) (vib orig : Str) (hne : vib ≠ orig)
    (stored : Option (NDArray α)) (arg : UArg α) (disk : TextDisk) (ws : List (Str × Str))
    (U : NDArray α) (h : createFakeText fl vib orig stored arg disk = .ok (ws, U)) (i n : Nat) :
    let crashed := crashAt ws i n disk
    (crashed vib = disk vib ∨ crashed orig = disk vib) ∧
    (∀ p, p ≠ vib → p ≠ orig → crashed p = disk p) ∧
    (loadText fl .coupled vib crashed = .error .value ∨
      loadText fl .coupled vib crashed = loadText fl .coupled vib disk ∨
      loadText fl .coupled vib crashed = loadText fl .coupled vib (writeAll ws disk)) ∧
    (loadText fl .coupled orig crashed = .error .value ∨
      loadText fl .coupled orig crashed = loadText fl .coupled orig disk ∨
      loadText fl .coupled orig crashed = loadText fl .coupled vib disk) := by
  obtain ⟨old, v, new, hold, hv, ⟨w, hw⟩, rfl⟩ := createFakeText_ok h
  have hne' : orig ≠ vib := fun hc => hne hc.symm
  obtain ⟨f, hf⟩ := loadText_parse hv hold
  have same : ∀ (p q : Str) (a b : TextDisk), a p = b q →
      loadText fl .coupled p a = loadText fl .coupled q b := by
    intro p q a b hab
    unfold loadText openText
    rw [hab]
  rcases i with _ | _ | i
  · intro crashed
    have e1 : crashed vib = disk vib := by simp [crashed, crashAt, writeAll, TextDisk.write, hne]
    have e2 : crashed orig = some (old.take n) := by
      simp [crashed, crashAt, writeAll, TextDisk.write]
    refine ⟨.inl e1, ?_, .inr (.inl (same _ _ _ _ e1)), ?_⟩
    · intro p _ h2; simp [crashed, crashAt, writeAll, TextDisk.write, h2]
    · rcases loadText_prefix fl .coupled vib orig disk crashed old n f hf hold e2 with h | h
      · exact .inl h
      · exact .inr (.inr h)
  · intro crashed
    have e1 : crashed orig = disk vib := by
      simp [crashed, crashAt, writeAll, TextDisk.write, hne', hold]
    have e2 : crashed vib = some ((fileText fl (toFile new)).take n) := by
      simp [crashed, crashAt, writeAll, TextDisk.write]
    refine ⟨.inr e1, ?_, ?_, .inr (.inr (same _ _ _ _ e1))⟩
    · intro p h1 h2; simp [crashed, crashAt, writeAll, TextDisk.write, h1, h2]
    · by_cases hn : n < (fileText fl (toFile new)).length
      · left
        have hs : (saveText fl .coupled vib new disk) =
            (.ok (), disk.write vib (fileText fl (toFile new))) := by
          unfold saveText; rw [hw]
        have := C06_incomplete_file_rejected fl .coupled .coupled vib new disk
          (fileText fl (toFile new)) (by rw [hs]) (by rw [hs]; simp [TextDisk.write]) n hn
        rw [← this]
        apply same
        rw [e2]; simp [TextDisk.write]
      · right; right
        apply same
        rw [e2, List.take_of_length_le (by omega)]
        simp [writeAll, TextDisk.write]
  · intro crashed
    have e : crashed = writeAll [(orig, old), (vib, fileText fl (toFile new))] disk := rfl
    rw [e]
    refine ⟨.inr ?_, ?_, .inr (.inr rfl), .inr (.inr (same _ _ _ _ ?_))⟩
    · simp [writeAll, TextDisk.write, hne', hold]
    · intro p h1 h2; simp [writeAll, TextDisk.write, h1, h2]
    · simp [writeAll, TextDisk.write, hne', hold]

/-- C06 for the text: a call of `create_fake_coupled_model` on a readable model file does to the texts exactly what the
theorems on C05 and C06 say about the models: it is refused in the same cases with the same exception, stores the same
matrix, and leaves files that read as the same models. -/
theorem C06_text_same [AllClose α] (fl : FloatText α) (hall : ∀ x, fl.IsFloat x) (vib orig : Str) (stored : Option (NDArray α))
    (arg : UArg α) (disk : TextDisk) (f : File α) (h : readable fl disk vib = some f) :
    (∀ e, createFake vib orig stored arg (readable fl disk) = .error e →
      createFakeText fl vib orig stored arg disk = .error e) ∧
    ∀ ops U, createFake vib orig stored arg (readable fl disk) = .ok (ops, U) →
      ∃ ws, createFakeText fl vib orig stored arg disk = .ok (ws, U) ∧
        readable fl (writeAll ws disk) = runOps ops (readable fl disk) := by
  have hfl : ∀ d : Dict α, AllFloats fl d := by
    intro d k a _
    have : ∀ (s : List Nat) (t : Tensor α s), Everywhere fl.IsFloat s t := by
      intro s
      induction s with
      | nil => exact fun t => hall t
      | cons n s ih => exact fun t i => ih (t i)
    exact this _ _
  have hl := loadText_of_readable fl .coupled vib disk f h
  obtain ⟨old, hold, hpo⟩ : ∃ old, disk vib = some old ∧ parseText fl old = .ok f := by
    unfold readable at h
    split at h
    · cases h
    · next text ht =>
      refine ⟨text, ht, ?_⟩
      cases hp : parseText fl text with
      | error e => rw [hp] at h; cases h
      | ok f' => rw [hp] at h; cases h; rfl
  unfold createFake createFakeText
  rw [hold, h, hl]
  simp only
  cases load .coupled vib (readable fl disk) with
  | error e => exact ⟨fun e' h => by cases h; rfl, fun _ _ h => by cases h⟩
  | ok v =>
    simp only [bind, Except.bind]
    cases chooseU v.A stored arg with
    | error e => exact ⟨fun e' h => by cases h; rfl, fun _ _ h => by cases h⟩
    | ok U =>
      simp only
      by_cases hs : SymmetricInSurfaces v.model ∧ SymmetricInModes v.model
      · rw [if_pos hs, if_pos hs]
        cases verify .coupled (Model.mapSurf (kind := .coupled) (kind' := .coupled) (einsumSurf U) v.model).toDict with
        | error e => exact ⟨fun e' h => by cases h; rfl, fun _ _ h => by cases h⟩
        | ok w =>
          refine ⟨fun _ h => (by cases h), fun ops U' h => ?_⟩
          cases h
          refine ⟨_, rfl, ?_⟩
          funext p
          simp only [writeAll, runOps, List.foldl, Op.run, readable, TextDisk.write]
          by_cases h1 : p = vib
          · simp [h1, parse_fileText fl _ (hfl _), Except.toOption]
          · by_cases h2 : p = orig
            · subst h2; simp [h1, hpo, Except.toOption]
            · simp [h1, h2]
      · rw [if_neg hs, if_neg hs]
        exact ⟨fun e' h => by cases h; rfl, fun _ _ h => by cases h⟩

/-- C06 for the text: with no model file, or with one that is not JSON, nothing is written. -/
theorem C06_text_unreadable [AllClose α] (fl : FloatText α) (vib orig : Str) (stored : Option (NDArray α)) (arg : UArg α)
    (disk : TextDisk) :
    (disk vib = none → createFakeText fl vib orig stored arg disk = .error .assertion) ∧
    (∀ text e, disk vib = some text → loads text = .error e → createFakeText fl vib orig stored arg disk = .error e) ∧
    (disk vib = none → loadText fl .coupled vib disk = .error .os) := by
  refine ⟨fun h => ?_, fun text e h h2 => ?_, fun h => ?_⟩
  · unfold createFakeText; rw [h]
  · unfold createFakeText loadText openText parseText
    rw [h]
    simp only [h2, bind, Except.bind]
  · unfold loadText openText
    rw [h]
    rfl

/-! ### a case that meets the hypotheses -/

/-- Integers written as `-3.0`. -/
def wholeFloats : FloatText ℤ where
  repr z := intStr z ++ c!".0"
  ofTok t := match loads t.dropLast.dropLast with
    | .ok (.int z) => z
    | _ => 0
  tok z := by
    obtain ⟨sign, ip, h1, h2, h3⟩ := intStr_eq z
    exact .inr (.inr (.inr ⟨sign, ip, c!".0", [], by simp [h1], h2, h3,
      .inr ⟨['0'], by decide, by decide, rfl⟩, .inl rfl, .inl (by decide)⟩))

theorem wholeFloats_all (z : ℤ) : wholeFloats.IsFloat z := by
  have h : (intStr z ++ c!".0").dropLast.dropLast = intStr z := by
    rw [show intStr z ++ c!".0" = (intStr z ++ ['.']) ++ ['0'] by simp, List.dropLast_concat,
      List.dropLast_concat]
  have h2 := loads_dumpsDefault (.int z) (by rw [Json.Valid]; trivial)
  rw [dumpsDefault] at h2
  show (match loads (intStr z ++ c!".0").dropLast.dropLast with
    | .ok (.int z) => z
    | _ => 0) = z
  rw [h, h2]

/-- Two surfaces, one mode, energies 1 and 2 and a linear coupling -3 between the surfaces. -/
def small : Dict ℤ := ⟨some 1, some 2, fun k => match k with
  | .E => some ⟨[2, 2], fun a b => if a = b then (a.1 : ℤ) + 1 else 0⟩
  | .G1 => some ⟨[1, 2, 2], fun _ a b => if a = b then 0 else -3⟩
  | _ => none⟩

/-- The text of that model, to the letter; it is accepted and its numbers are floats. -/
example : fileText wholeFloats (toFile small) =
      c!"{\"number of modes\": 1, \"number of surfaces\": 2, \"energies\": [[1.0, 0.0], [0.0, 2.0]], \"linear couplings\": [[[0.0, -3.0], [-3.0, 0.0]]]}" ∧
    WellFormed .coupled small ∧ AllFloats wholeFloats small := by
  refine ⟨?_, ?_, ?_⟩
  · set_option maxRecDepth 8000 in decide +kernel
  · refine ⟨2, 1, rfl, rfl, ?_⟩
    intro k a h
    cases k <;> simp [small] at h <;> subst h <;> rfl
  · intro k a _
    have : ∀ (s : List Nat) (t : Tensor ℤ s), Everywhere wholeFloats.IsFloat s t := by
      intro s
      induction s with
      | nil => exact fun t => wholeFloats_all t
      | cons n s ih => exact fun t i => ih (t i)
    exact this _ _

theorem small_wellFormed : WellFormed .coupled small :=
  ⟨2, 1, rfl, rfl, by intro k a h; cases k <;> simp [small] at h <;> subst h <;> rfl⟩

theorem small_surfaceSymmetric : SurfaceSymmetric small := by
  intro k idx a b _ hl
  cases k with
  | E =>
    obtain rfl := List.length_eq_zero_iff.mp hl
    simp only [entry, small, at_, List.nil_append]
    by_cases ha : a < 2 <;> by_cases hb : b < 2 <;> simp [ha, hb]
    by_cases hab : a = b
    · simp [hab]
    · simp [hab, Ne.symm hab]
  | G1 =>
    obtain ⟨i, rfl⟩ := List.length_eq_one_iff.mp hl
    simp only [entry, small, at_, List.cons_append, List.nil_append]
    by_cases hi : i < 1 <;> by_cases ha : a < 2 <;> by_cases hb : b < 2 <;> simp [hi, ha, hb, eq_comm]
  | _ => rfl

theorem small_modeSymmetric : ModeSymmetric small := by
  unfold ModeSymmetric
  simp [entry, small]

/-- `create_fake_coupled_model` on the text of that model, with the exchange of the two surfaces, writes
the original and the new model. -/
example : ∃ ws U, createFakeText wholeFloats c!"vib" c!"orig" none
      (.given ⟨[2, 2], fun a b : Fin 2 => if a = b then 0 else 1⟩)
      (fun p => if p = c!"vib" then some (fileText wholeFloats (toFile small)) else none) = .ok (ws, U) ∧
    ws.map Prod.fst = [c!"orig", c!"vib"] := by
  have hfl : AllFloats wholeFloats small := by
    intro k a _
    have : ∀ (s : List Nat) (t : Tensor ℤ s), Everywhere wholeFloats.IsFloat s t := by
      intro s
      induction s with
      | nil => exact fun t => wholeFloats_all t
      | cons n s ih => exact fun t i => ih (t i)
    exact this _ _
  have hread : readable wholeFloats (fun p => if p = c!"vib" then some (fileText wholeFloats (toFile small))
      else none) = (save .coupled c!"vib" small fun _ => none).2 := by
    funext p
    have := saved_file .coupled c!"vib" small (fun _ => none)
      ((C03_accepted_iff_wellFormed _ _ _ _).mpr small_wellFormed)
    obtain ⟨A, N, m, hm, hf⟩ := this
    by_cases hp : p = c!"vib"
    · subst hp
      rw [hf, ← hm]
      simp [readable, parse_fileText wholeFloats _ hfl, Except.toOption]
    · rw [C03_other_files_unchanged _ _ _ _ _ hp]
      simp [readable, hp]
  obtain ⟨v, hl, hsame, -⟩ := C01_round_trip c!"vib" small (fun _ => none)
    ((C03_accepted_iff_wellFormed _ _ _ _).mpr small_wellFormed)
  obtain ⟨A, N, m⟩ := v
  have hA : A = 2 := by
    have := hsame.1
    simpa [small, Model.toDict] using this
  subst hA
  let M : Matrix (Fin 2) (Fin 2) ℤ := fun a b => if a = b then 0 else 1
  have hM : M * M.transpose = 1 := by decide
  obtain ⟨ops, hops⟩ := FakeCoupling.C05_succeeds c!"vib" c!"orig" none _ ⟨2, N, m⟩ M hl
    (by
      intro k idx a b hk hl
      rw [hsame.2.2, hsame.2.2, small_surfaceSymmetric k idx a b hk hl]
      exact AllClose.refl _)
    (by
      obtain ⟨h1, h2⟩ := small_modeSymmetric
      constructor
      · intros; rw [hsame.2.2, hsame.2.2, h1]; exact AllClose.refl _
      · intros; rw [hsame.2.2, hsame.2.2, h2]; exact AllClose.refl _) (by rw [hM]; exact NearOne.one)
  rw [← hread] at hops
  obtain ⟨f, hf⟩ : ∃ f, readable wholeFloats (fun p => if p = c!"vib" then
      some (fileText wholeFloats (toFile small)) else none) c!"vib" = some f := by
    simp [readable, parse_fileText wholeFloats _ hfl, Except.toOption]
  obtain ⟨ws, hws, -⟩ := (C06_text_same wholeFloats wholeFloats_all _ _ none _ _ f hf).2 ops _ hops
  refine ⟨ws, _, hws, ?_⟩
  unfold createFakeText at hws
  simp only [if_true] at hws
  revert hws
  simp only [bind, Except.bind]
  repeat' split
  all_goals first
    | (simp; done)
    | (simp only [Except.ok.injEq, Prod.mk.injEq]; rintro ⟨rfl, -⟩; rfl)

end Pibronic.Props.ModelText
