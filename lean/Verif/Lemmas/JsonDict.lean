import Verif.Py.Json

set_option autoImplicit false

/-! A dictionary that `json.loads` returns has each key once. -/
namespace Pibronic.Py

theorem dictSet_keys (k : Str) (v : Json) (d : List (Str × Json)) (x : Str) :
    x ∈ (dictSet k v d).map Prod.fst ↔ x = k ∨ x ∈ d.map Prod.fst := by
  induction d with
  | nil => simp [dictSet]
  | cons p d ih =>
    obtain ⟨k', v'⟩ := p
    unfold dictSet
    by_cases h : k' = k
    · subst h; simp
    · rw [if_neg h, List.map_cons, List.mem_cons, ih]
      simp only [List.map_cons, List.mem_cons]
      constructor
      · rintro (h | h | h)
        · exact .inr (.inl h)
        · exact .inl h
        · exact .inr (.inr h)
      · rintro (h | h | h)
        · exact .inr (.inl h)
        · exact .inl h
        · exact .inr (.inr h)

theorem dictSet_keys_nodup (k : Str) (v : Json) {d : List (Str × Json)} (h : (d.map Prod.fst).Nodup) :
    ((dictSet k v d).map Prod.fst).Nodup := by
  induction d with
  | nil => simp [dictSet]
  | cons p d ih =>
    obtain ⟨k', v'⟩ := p
    rw [List.map_cons, List.nodup_cons] at h
    unfold dictSet
    by_cases hk : k' = k
    · rw [if_pos hk]; simpa using h
    · rw [if_neg hk, List.map_cons, List.nodup_cons]
      refine ⟨fun hm => ?_, ih h.2⟩
      rcases (dictSet_keys ..).1 hm with e | e
      · exact hk e
      · exact h.1 e

theorem dictOf_keys_nodup (ps : List (Str × Json)) : ((dictOf ps).map Prod.fst).Nodup := by
  unfold dictOf
  have : ∀ (ps d : List (Str × Json)), (d.map Prod.fst).Nodup →
      ((ps.foldl (fun d p => dictSet p.1 p.2 d) d).map Prod.fst).Nodup := by
    intro ps
    induction ps with
    | nil => intro d h; exact h
    | cons p ps ih => intro d h; exact ih _ (dictSet_keys_nodup _ _ h)
  exact this ps [] (by simp)

theorem scanAtom_no_dict {s r : Str} {l : List (Str × Json)} : scanAtom s ≠ .ok (.dict l, r) := by
  intro h
  unfold scanAtom scanNumber at h
  repeat' first | (dsimp only at h; done) | split at h | (dsimp only at h; split at h) | (simp at h; done)

theorem loads_keys_nodup {text : Str} {l : List (Str × Json)} (h : loads text = .ok (.dict l)) :
    (l.map Prod.fst).Nodup := by
  unfold loads at h
  simp only [bind, Except.bind] at h
  split at h
  · cases h
  · next x hx =>
    obtain ⟨v, rest⟩ := x
    simp only at h
    split at h
    · cases h
      unfold scanValue at hx
      split at hx
      · simp only [bind, Except.bind] at hx
        split at hx <;> cases hx
      · split at hx
        · cases hx
        · simp only [bind, Except.bind] at hx
          split at hx <;> cases hx
      · split at hx
        · cases hx; simp
        · simp only [bind, Except.bind] at hx
          split at hx
          · cases hx
          · cases hx; exact dictOf_keys_nodup _
      · exact absurd hx scanAtom_no_dict
    · cases h

end Pibronic.Py
