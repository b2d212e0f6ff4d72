import Verif.Model.Jobs
import Verif.Lemmas.JsonDict
import Verif.Props.Analytic
import Verif.Props.AnalyticText

set_option autoImplicit false

/-! Lemmas about the dictionaries of results files as lists of items. -/
namespace Pibronic.Jobs
open Py FileName Analytic Pibronic.Props.Analytic Pibronic.Props.AnalyticText
variable {V : Type}

theorem dictGet_dictSet (k k' : Str) (v : Json) (l : List (Str × Json)) :
    dictGet k (dictSet k' v l) = if k = k' then .ok v else dictGet k l := by
  induction l with
  | nil =>
    by_cases h : k = k'
    · simp [dictSet, dictGet, h]
    · simp [dictSet, dictGet, h, Ne.symm h]
  | cons p l ih =>
    obtain ⟨a, b⟩ := p
    rw [dictSet]
    by_cases ha : a = k'
    · subst ha
      rw [if_pos rfl, dictGet, dictGet]
      by_cases h : k = a
      · simp [h]
      · simp [h, Ne.symm h]
    · rw [if_neg ha, dictGet, dictGet, ih]
      by_cases h : a = k
      · subst h; simp [ha]
      · simp [h]

theorem dictOfItems_set (number : Str → V) (k : Str) (v : Json) (a : AVal V) (hv : valueOf number v = some a)
    (l : List (Str × Json)) : dictOfItems number (dictSet k v l) = (dictOfItems number l).set k a := by
  funext x
  unfold dictOfItems ADict.set
  rw [dictGet_dictSet]
  by_cases h : x = k <;> simp [h, hv]

theorem isHash_eq (number : Str → V) (l : List (Str × Json)) (k h : Str) :
    isHash l k h = hasHash (dictOfItems number l) k h := by
  unfold isHash hasHash dictOfItems
  cases hd : dictGet k l with
  | error e => rfl
  | ok v => cases v <;> simp [valueOf]

theorem dictOfItems_nil (number : Str → V) : dictOfItems number [] = fun _ => none := rfl

theorem dictOfItems_validate (number : Str → V) (r : Bool) (h : Hashes) (l : List (Str × Json)) :
    dictOfItems number (validateItems r h l) = validate r h (dictOfItems number l) := by
  unfold validateItems validate
  rw [isHash_eq number, isHash_eq number]
  have e : ∀ b : Bool, dictOfItems number (if b then l else []) = if b then dictOfItems number l else fun _ => none := by
    intro b; cases b <;> rfl
  cases r
  · simp only [Bool.false_eq_true, if_false]
    rw [dictOfItems_set number _ _ (.hash h.vib) rfl, e]
  · simp only [if_true]
    rw [dictOfItems_set number _ _ (.hash h.rho) rfl, dictOfItems_set number _ _ (.hash h.vib) rfl, e]

/-- The numbers of an entry. -/
def entryOf (number : Str → V) (e : List (Str × Json)) : Str → Option V := fun k =>
  match dictGet k e with
  | .ok (.float t) => some (number t)
  | _ => none

theorem validPairs_set (k : Str) (v : Json) (hv : v.Valid) (l : List (Str × Json)) (hl : validPairs l) :
    validPairs (dictSet k v l) := by
  induction l with
  | nil => exact ⟨hv, trivial⟩
  | cons p l ih =>
    obtain ⟨a, b⟩ := p
    rw [dictSet]
    by_cases h : a = k
    · rw [if_pos h]; exact ⟨hv, hl.2⟩
    · rw [if_neg h]; exact ⟨hl.1, ih hl.2⟩

theorem valid_set (k : Str) (v : Json) (hv : v.Valid) (l : List (Str × Json)) (hl : (Json.dict l).Valid) :
    (Json.dict (dictSet k v l)).Valid := by
  rw [Json.Valid] at hl ⊢
  exact ⟨dictSet_keys_nodup k v hl.1, validPairs_set k v hv l hl.2⟩

theorem valid_validate (r : Bool) (h : Hashes) (l : List (Str × Json)) (hl : (Json.dict l).Valid) :
    (Json.dict (validateItems r h l)).Valid := by
  have h0 : ∀ b : Bool, (Json.dict (if b then l else [])).Valid := by
    intro b
    cases b
    · rw [Json.Valid]; exact ⟨List.nodup_nil, trivial⟩
    · exact hl
  have hs : ∀ s : Str, (Json.str s).Valid := fun s => by rw [Json.Valid]; trivial
  unfold validateItems
  cases r
  · exact valid_set _ _ (hs _) _ (h0 _)
  · exact valid_set _ _ (hs _) _ (valid_set _ _ (hs _) _ (h0 _))

/-- What a path holds, as the calculations see it. -/
def view (number : Str → V) : Option Str → Contents V
  | none => .absent
  | some text => contentsOf number text

/-- Nothing, or the text of a dictionary that was written completely or cut by a crash. -/
def Clean (f : Option Str) : Prop :=
  f = none ∨ ∃ l n, (Json.dict l).Valid ∧ f = some ((textOf l).take n)

theorem textOf_pos (l : List (Str × Json)) : 1 < (textOf l).length := by
  unfold textOf
  rcases l with _ | ⟨⟨k, v⟩, l⟩
  · rw [dumpsDefault]; decide
  · rw [dumpsDefault]; simp [encStr]

theorem readItems_textOf (l : List (Str × Json)) (hl : (Json.dict l).Valid) :
    readItems (some (textOf l)) = .ok l := by
  unfold readItems
  simp only [if_pos (textOf_pos l)]
  unfold textOf
  rw [loads_dumpsDefault _ hl]

theorem readItems_clean {f : Option Str} (hf : Clean f) {l : List (Str × Json)} (h : readItems f = .ok l) :
    (Json.dict l).Valid := by
  have hnil : (Json.dict []).Valid := by rw [Json.Valid]; exact ⟨List.nodup_nil, trivial⟩
  rcases hf with rfl | ⟨l', n, hl', rfl⟩
  · cases h; exact hnil
  · by_cases hn : n < (textOf l').length
    · obtain ⟨h1, -⟩ := C50_incomplete_file (fun s => s) l' hl' n hn
      unfold crashText at h1
      unfold readItems at h
      simp only [h1] at h
      split at h
      · cases h
      · cases h; exact hnil
    · rw [List.take_of_length_le (by omega), readItems_textOf l' hl'] at h
      cases h; exact hl'

theorem readOld_view (number : Str → V) {f : Option Str} {l : List (Str × Json)} (h : readItems f = .ok l) :
    readOld (view number f) = .ok (dictOfItems number l) := by
  cases f with
  | none => cases h; rfl
  | some text =>
    unfold readItems at h
    simp only [view, contentsOf]
    by_cases ht : 1 < text.length
    · simp only [ht, if_true] at h ⊢
      cases hl : loads text with
      | error e => rw [hl] at h; cases h
      | ok v =>
        rw [hl] at h
        cases v <;> first | (cases h; done) | skip
        · cases h; rfl
    · simp only [ht, if_false] at h ⊢
      cases h; rfl

theorem overlay_zero (text : Str) : overlay [] 0 text = text := by
  simp [overlay]

theorem overlay_append (text chunk : Str) : overlay text text.length chunk = text ++ chunk := by
  simp [overlay]

end Pibronic.Jobs
