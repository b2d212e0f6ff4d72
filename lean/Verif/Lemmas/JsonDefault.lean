import Verif.Py.JsonDefault
import Verif.Lemmas.Json

set_option autoImplicit false

/-! `json.loads (json.dumps v) = v` for the default separators. -/
namespace Pibronic.Py

theorem begins_dumpsDefault (v : Json) (h : v.Valid) : Begins (dumpsDefault v) := by
  cases v with
  | null => rw [dumpsDefault]; exact ⟨_, _, rfl, by decide⟩
  | bool b => cases b <;> rw [dumpsDefault] <;> exact ⟨_, _, rfl, by decide⟩
  | int z =>
    rw [dumpsDefault]
    obtain ⟨sign, ip, h1, h2, h3⟩ := intStr_eq z
    rw [h1]
    simpa using begins_signed (r := []) h2 h3
  | float t =>
    rw [dumpsDefault]
    simp only [Json.Valid] at h
    rcases h with rfl | rfl | rfl | ⟨sign, ip, fp, ep, rfl, h2, h3, _⟩
    · exact ⟨_, _, rfl, by decide⟩
    · exact ⟨_, _, rfl, by decide⟩
    · exact ⟨_, _, rfl, by decide⟩
    · rw [List.append_assoc (sign ++ ip)]; exact begins_signed h2 h3
  | str s => rw [dumpsDefault]; exact ⟨_, _, rfl, by decide⟩
  | list l => cases l <;> rw [dumpsDefault] <;> exact ⟨_, _, rfl, by decide⟩
  | dict l => rcases l with _ | ⟨⟨k, v⟩, l⟩ <;> rw [dumpsDefault] <;> exact ⟨_, _, rfl, by decide⟩

theorem stop_defaultItems (l : List Json) (r : Str) : Stop (dumpsDefaultItems l ++ r) := by
  intro c hc
  cases l with
  | nil => rw [dumpsDefaultItems] at hc; simp at hc; subst hc; decide
  | cons v l => rw [dumpsDefaultItems] at hc; simp at hc; subst hc; decide

theorem stop_defaultPairs (l : List (Str × Json)) (r : Str) : Stop (dumpsDefaultPairs l ++ r) := by
  intro c hc
  rcases l with _ | ⟨⟨k, v⟩, l⟩
  · rw [dumpsDefaultPairs] at hc; simp at hc; subst hc; decide
  · rw [dumpsDefaultPairs] at hc; simp at hc; subst hc; decide

/-- White space after the colon does not matter. -/
theorem scanPairs_space_ok {n : Nat} {s r rest k : Str} {v : Json} {l : List (Str × Json)}
    (h1 : scanValue n s = .ok (v, r)) (hs : skipWs s = s) (h2 : afterPair n r = .ok (l, rest)) :
    scanPairs (n + 1) (encStr k ++ ':' :: ' ' :: s) = .ok ((k, v) :: l, rest) := by
  simp only [encStr, List.cons_append, List.append_assoc, List.nil_append]
  rw [scanPairs, scanStr_encChars]
  simp only [bind, Except.bind]
  rw [show skipWs (':' :: ' ' :: s) = ':' :: ' ' :: s by simp [skipWs]]
  have hs' : skipWs (' ' :: s) = s := by simp [skipWs, hs]
  simp only [hs', h1]
  unfold afterPair at h2
  split at h2
  · next h => rw [h]; simp_all
  · next h => rw [h]; simp only [h2]
  · cases h2

theorem dumpsDefault_length_pos (v : Json) (h : v.Valid) : 0 < (dumpsDefault v).length := by
  obtain ⟨c, t, h, _⟩ := begins_dumpsDefault v h
  rw [h]; simp

mutual
/-- A value is read back from the text written for it, whatever follows. -/
theorem scanValue_dumpsDefault (v : Json) (hv : v.Valid) (n : Nat) (rest : Str)
    (hn : (dumpsDefault v).length ≤ n) (hr : Stop rest) :
    scanValue n (dumpsDefault v ++ rest) = .ok (v, rest) := by
  have hpos := dumpsDefault_length_pos v hv
  obtain ⟨n, rfl⟩ : ∃ m, n = m + 1 := ⟨n - 1, by omega⟩
  match v, hv with
  | .null, _ =>
    rw [dumpsDefault]; exact scanValue_atom (by decide) (by decide) (by decide)
  | .bool true, _ => rw [dumpsDefault]; exact scanValue_atom (by decide) (by decide) (by decide)
  | .bool false, _ => rw [dumpsDefault]; exact scanValue_atom (by decide) (by decide) (by decide)
  | .int z, _ =>
    rw [dumpsDefault]
    obtain ⟨sign, ip, h1, h2, h3⟩ := intStr_eq z
    obtain ⟨c, t, h4, h5⟩ := signed_head (r := rest) h2 h3
    have := scanNumber_int z rest hr
    rw [h1] at this ⊢
    rw [← scanAtom_signed h2 h3] at this
    rw [h4] at this ⊢
    rw [scanValue_atom, this]
    all_goals
      rcases h5 with h5 | rfl
      · exact isDig_ne h5 (by decide)
      · decide
  | .float t, hv =>
    rw [dumpsDefault]
    simp only [Json.Valid] at hv
    rcases hv with rfl | rfl | rfl | ⟨sign, ip, fp, ep, rfl, h2, h3, h4, h5, h6⟩
    · exact scanValue_atom (by decide) (by decide) (by decide)
    · exact scanValue_atom (by decide) (by decide) (by decide)
    · exact scanValue_atom (by decide) (by decide) (by decide)
    · have := scanNumber_float h2 h3 h4 h5 h6 hr
      have hassoc : sign ++ ip ++ fp ++ ep ++ rest = sign ++ ip ++ (fp ++ (ep ++ rest)) := by
        simp [List.append_assoc]
      rw [hassoc] at this ⊢
      rw [← scanAtom_signed h2 h3] at this
      obtain ⟨c, t, h7, h8⟩ := signed_head (r := fp ++ (ep ++ rest)) h2 h3
      rw [h7] at this ⊢
      rw [scanValue_atom, this]
      all_goals
        rcases h8 with h8 | rfl
        · exact isDig_ne h8 (by decide)
        · decide
  | .str s, _ =>
    rw [dumpsDefault, encStr, scanValue.eq_def]
    simp only [List.cons_append, List.append_assoc, List.nil_append]
    rw [scanStr_encChars]; rfl
  | .list [], _ =>
    rw [dumpsDefault, scanValue.eq_def]
    simp [skipWs]
  | .list (v :: l), hv =>
    simp only [Json.Valid, validItems] at hv
    rw [dumpsDefault] at hn ⊢
    simp only [List.length_cons, List.length_append] at hn
    have hb := begins_dumpsDefault v hv.1
    have hl : 0 < (dumpsDefaultItems l).length := by cases l <;> rw [dumpsDefaultItems] <;> simp
    have hpv := dumpsDefault_length_pos v hv.1
    obtain ⟨m, rfl⟩ : ∃ m, n = m + 1 := ⟨n - 1, by omega⟩
    have h1 := scanValue_dumpsDefault v hv.1 m (dumpsDefaultItems l ++ rest) (by omega)
      (stop_defaultItems l rest)
    have h2 := afterItem_dumpsDefault l hv.2 m rest (by omega)
    have h3 := scanItems_ok h1 h2
    rw [scanValue.eq_def]
    simp only [List.cons_append, List.append_assoc]
    rw [skipWs_of_begins hb]
    split
    · next h =>
      obtain ⟨c, t, h', _, _, _, _, h'', _⟩ := hb
      rw [h'] at h
      simp only [List.cons_append, List.cons.injEq] at h
      exact absurd h.1 h''
    · rw [h3]; rfl
  | .dict [], _ =>
    rw [dumpsDefault, scanValue.eq_def]
    simp [skipWs]
  | .dict ((k, v) :: l), hv =>
    simp only [Json.Valid, validPairs] at hv
    rw [dumpsDefault] at hn ⊢
    simp only [List.length_cons, List.length_append] at hn
    have hb := begins_dumpsDefault v hv.2.1
    have hl : 0 < (dumpsDefaultPairs l).length := by
      rcases l with _ | ⟨⟨k, v⟩, l⟩ <;> rw [dumpsDefaultPairs] <;> simp
    obtain ⟨m, rfl⟩ : ∃ m, n = m + 1 := ⟨n - 1, by omega⟩
    have h1 := scanValue_dumpsDefault v hv.2.1 m (dumpsDefaultPairs l ++ rest) (by omega)
      (stop_defaultPairs l rest)
    have h2 := afterPair_dumpsDefault l hv.2.2 m rest (by omega)
    have h3 := scanPairs_space_ok (k := k) h1 (skipWs_of_begins hb _) h2
    rw [scanValue.eq_def]
    simp only [List.cons_append, List.append_assoc]
    rw [show skipWs (encStr k ++ ':' :: ' ' :: (dumpsDefault v ++ (dumpsDefaultPairs l ++ rest))) =
      encStr k ++ ':' :: ' ' :: (dumpsDefault v ++ (dumpsDefaultPairs l ++ rest)) by simp [encStr, skipWs]]
    split
    · next h => simp [encStr] at h
    · rw [h3]
      simp only [bind, Except.bind]
      rw [dictOf_nodup hv.1]
theorem afterItem_dumpsDefault (l : List Json) (hl : validItems l) (n : Nat) (rest : Str)
    (hn : (dumpsDefaultItems l).length ≤ n) :
    afterItem n (dumpsDefaultItems l ++ rest) = .ok (l, rest) := by
  match l, hl with
  | [], _ => rw [dumpsDefaultItems]; simp [afterItem, skipWs]
  | v :: l, hl =>
    simp only [validItems] at hl
    rw [dumpsDefaultItems] at hn ⊢
    simp only [List.length_cons, List.length_append] at hn
    obtain ⟨m, rfl⟩ : ∃ m, n = m + 1 := ⟨n - 1, by omega⟩
    have hl0 : 0 < (dumpsDefaultItems l).length := by cases l <;> rw [dumpsDefaultItems] <;> simp
    have h1 := scanValue_dumpsDefault v hl.1 m (dumpsDefaultItems l ++ rest) (by omega)
      (stop_defaultItems l rest)
    have hpv := dumpsDefault_length_pos v hl.1
    have h2 := afterItem_dumpsDefault l hl.2 m rest (by omega)
    have h3 := scanItems_ok h1 h2
    unfold afterItem
    rw [show skipWs ((',' :: ' ' :: (dumpsDefault v ++ dumpsDefaultItems l)) ++ rest) =
      ',' :: ' ' :: (dumpsDefault v ++ (dumpsDefaultItems l ++ rest)) by simp [skipWs]]
    simp only
    rw [show ∀ s : Str, skipWs (' ' :: s) = skipWs s by intro s; simp [skipWs],
      skipWs_of_begins (begins_dumpsDefault v hl.1), h3]
theorem afterPair_dumpsDefault (l : List (Str × Json)) (hl : validPairs l) (n : Nat) (rest : Str)
    (hn : (dumpsDefaultPairs l).length ≤ n) :
    afterPair n (dumpsDefaultPairs l ++ rest) = .ok (l, rest) := by
  match l, hl with
  | [], _ => rw [dumpsDefaultPairs]; simp [afterPair, skipWs]
  | (k, v) :: l, hl =>
    simp only [validPairs] at hl
    rw [dumpsDefaultPairs] at hn ⊢
    simp only [List.length_cons, List.length_append] at hn
    obtain ⟨m, rfl⟩ : ∃ m, n = m + 1 := ⟨n - 1, by omega⟩
    have h1 := scanValue_dumpsDefault v hl.1 m (dumpsDefaultPairs l ++ rest) (by omega)
      (stop_defaultPairs l rest)
    have h2 := afterPair_dumpsDefault l hl.2 m rest (by omega)
    have h3 := scanPairs_space_ok (k := k) h1 (skipWs_of_begins (begins_dumpsDefault v hl.1) _) h2
    unfold afterPair
    rw [show skipWs ((',' :: ' ' :: (encStr k ++ ':' :: ' ' :: (dumpsDefault v ++ dumpsDefaultPairs l))) ++ rest) =
      ',' :: ' ' :: (encStr k ++ ':' :: ' ' :: (dumpsDefault v ++ (dumpsDefaultPairs l ++ rest))) by simp [skipWs]]
    simp only
    rw [show ∀ s : Str, skipWs (' ' :: s) = skipWs s by intro s; simp [skipWs]]
    rw [show skipWs (encStr k ++ ':' :: ' ' :: (dumpsDefault v ++ (dumpsDefaultPairs l ++ rest))) =
      encStr k ++ ':' :: ' ' :: (dumpsDefault v ++ (dumpsDefaultPairs l ++ rest)) by simp [encStr, skipWs], h3]
end

/-- `json.loads(json.dumps(v)) == v` -/
theorem loads_dumpsDefault (v : Json) (hv : v.Valid) : loads (dumpsDefault v) = .ok v := by
  have hb := begins_dumpsDefault v hv
  have h := scanValue_dumpsDefault v hv ((dumpsDefault v).length + 1) [] (by omega) (by simp [Stop])
  have hs := skipWs_of_begins hb []
  simp only [List.append_nil] at h hs
  rw [loads, hs, h]
  rfl

end Pibronic.Py
