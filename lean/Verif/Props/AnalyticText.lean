import Verif.Model.AnalyticText
import Verif.Lemmas.JsonPrefix

set_option autoImplicit false

/-! C50 for the text on the disk. -/
namespace Pibronic.Props.AnalyticText
open Py Pibronic.Analytic
variable {V : Type}

/-- C50: the results that a calculation writes are the results that the next one reads. -/
theorem C50_text_round_trip (number : Str → V) (l : List (Str × Json)) (hl : (Json.dict l).Valid) :
    contentsOf number (textOf l) = .dict (dictOfItems number l) := by
  unfold contentsOf textOf
  rw [if_pos, loads_dumpsDefault _ hl]
  rcases l with _ | ⟨⟨k, v⟩, l⟩
  · rw [dumpsDefault]; decide
  · rw [dumpsDefault]; simp [encStr]

/-- C50: after a crash at any character of the write, the next calculation finds a file that counts as
empty (at most one character), or its `json.loads` raises; it never finds other results. -/
theorem C50_incomplete_file (number : Str → V) (l : List (Str × Json)) (hl : (Json.dict l).Valid)
    (n : Nat) (hn : n < (textOf l).length) :
    loads (crashText l n) = .error .value ∧
      contentsOf number (crashText l n) = if n ≤ 1 then .short else .broken := by
  have h : loads (crashText l n) = .error .value := by
    refine loads_truncated (.dict l) hl rfl (crashText l n) ((textOf l).drop n) ?_ ?_
    · exact (List.take_append_drop n (textOf l)).symm
    · intro h0
      rw [List.drop_eq_nil_iff] at h0
      omega
  have hlen : (crashText l n).length = n := by
    unfold crashText
    rw [List.length_take]
    omega
  refine ⟨h, ?_⟩
  unfold contentsOf
  rw [h, hlen]
  by_cases hn1 : n ≤ 1
  · rw [if_neg (by omega), if_pos hn1]
  · rw [if_pos (by omega), if_neg hn1]

/-- C50: a file with at most one character counts as empty. -/
theorem C50_short_file (number : Str → V) (text : Str) (h : text.length ≤ 1) :
    contentsOf number text = .short := by
  unfold contentsOf
  rw [if_neg (by omega)]

/-- A results file with a hash and one temperature. -/
example : (Json.dict [(c!"hash_vib", .str c!"ab"), (c!"300.00", .dict [(c!"Z_sos", .float c!"1.5")])]).Valid ∧
    textOf [(c!"hash_vib", .str c!"ab"), (c!"300.00", .dict [(c!"Z_sos", .float c!"1.5")])] =
      c!"{\"hash_vib\": \"ab\", \"300.00\": {\"Z_sos\": 1.5}}" := by
  constructor
  · simp only [Json.Valid, validPairs]
    refine ⟨by decide, trivial, ⟨by decide, ?_, trivial⟩, trivial⟩
    exact .inr (.inr (.inr ⟨[], c!"1", c!".5", [], rfl, .inl rfl,
      .inr ⟨'1', [], rfl, by decide, by decide⟩, .inr ⟨['5'], by decide, by decide, rfl⟩, .inl rfl,
      .inl (by decide)⟩))
  · decide +kernel

end Pibronic.Props.AnalyticText
