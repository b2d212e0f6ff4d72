import Verif.Model.Buffer
import Verif.Spec.Buffer
import Verif.Lemmas.Buffer
import Mathlib.Tactic.NormNum
import Mathlib.Data.List.TakeWhile

set_option autoImplicit false

/-!
Properties of the functions that search and edit output files (C55, C65-C68).
-/
namespace Pibronic.Props.Buffer
open Pibronic.Py Pibronic.Buffer

/-! ### C55 -/

/-- C55: skipping back `n` lines lands on the `n`-th newline before the start. -/
theorem C55_back (buf : Str) (n start : Nat) (h : n ≤ newlinesIn buf 0 start) :
    NthBefore buf n start (skipBack buf n start) := by
  have := skipBack_spec buf n start
  rwa [min_eq_left h] at this

/-- C55: with fewer than `n` newlines before the start, skipping back stops at the first newline of
the buffer (stays where it was when there is none). -/
theorem C55_back_short (buf : Str) (n start : Nat) (h : newlinesIn buf 0 start < n) :
    NthBefore buf (newlinesIn buf 0 start) start (skipBack buf n start) := by
  have := skipBack_spec buf n start
  rwa [min_eq_right (by omega)] at this

/-- C55: skipping forward `n` lines lands on the `n`-th newline after the start. -/
theorem C55_forward (buf : Str) (n start : Nat)
    (h : n ≤ newlinesIn buf (start + 1) buf.length) :
    NthAfter buf n start (skipForward buf n start) := by
  have := skipForward_spec buf n start
  rwa [min_eq_left h] at this

/-- C55: with fewer than `n` newlines after the start, skipping forward stops at the last newline
of the buffer (stays where it was when there is none). -/
theorem C55_forward_short (buf : Str) (n start : Nat)
    (h : newlinesIn buf (start + 1) buf.length < n) :
    NthAfter buf (newlinesIn buf (start + 1) buf.length) start (skipForward buf n start) := by
  have := skipForward_spec buf n start
  rwa [min_eq_right (by omega)] at this

/-- C55: from a newline, skipping forward and then back the same number of lines returns to the
start, when there are enough lines. -/
theorem C55_there_and_back (buf : Str) (n start : Nat) (hs : buf[start]? = some '\n')
    (h : n ≤ newlinesIn buf (start + 1) buf.length) :
    skipBack buf n (skipForward buf n start) = start := by
  have hf := C55_forward buf n start h
  by_cases hn : n = 0
  · subst hn; rfl
  · unfold NthAfter at hf
    rw [if_neg hn] at hf
    obtain ⟨h1, h2, h3⟩ := hf
    have hc : newlinesIn buf start (skipForward buf n start) = n := by
      have e1 := newlinesIn_split (buf := buf) (by omega : start ≤ start + 1)
        (by omega : start + 1 ≤ skipForward buf n start)
      have e2 := newlinesIn_split (buf := buf) (by omega : start + 1 ≤ skipForward buf n start)
        (by omega : skipForward buf n start ≤ skipForward buf n start + 1)
      rw [newlinesIn_one_of hs] at e1
      rw [newlinesIn_one_of h2] at e2
      omega
    have hb := C55_back buf n (skipForward buf n start) (by
      rw [newlinesIn_split (Nat.zero_le start) (by omega : start ≤ _), hc]; omega)
    refine nthBefore_unique hb ?_
    unfold NthBefore
    rw [if_neg hn]
    exact ⟨h1, hs, hc⟩

/-- C55: the string search finds the first occurrence, or raises when there is none. -/
theorem C55_find (buf target : Str) :
    (∃ i, findString buf target = .ok i ∧ target <+: buf.drop i ∧
      ∀ k < i, ¬ target <+: buf.drop k) ∨
    (findString buf target = .error .exception ∧ ¬ target <:+: buf) := by
  unfold findString
  cases h : mmFind buf target 0 with
  | none => right; exact ⟨rfl, by simpa using mmFind_none.mp h⟩
  | some i =>
    left
    obtain ⟨-, h2, h3⟩ := mmFind_some h
    exact ⟨i, rfl, h2, fun k hk => h3 k (Nat.zero_le k) hk⟩

/-- C55: the reverse search finds the last occurrence, or raises when there is none. -/
theorem C55_rfind (buf target : Str) (hne : target ≠ []) :
    (∃ i, rfindString buf target = .ok i ∧ target <+: buf.drop i ∧
      ∀ k, i < k → ¬ target <+: buf.drop k) ∨
    (rfindString buf target = .error .exception ∧ ¬ target <:+: buf) := by
  have hlen : ∀ k, target <+: buf.drop k → k + target.length ≤ buf.length := by
    intro k hk
    have := hk.length_le
    have h2 : 0 < target.length := List.length_pos_of_ne_nil hne
    simp only [List.length_drop] at this
    omega
  unfold rfindString mmRfind
  cases h : rfindBelow buf target buf.length (buf.length + 1) with
  | none =>
    right
    refine ⟨rfl, ?_⟩
    rintro ⟨a, b, hab⟩
    have hp : target <+: buf.drop a.length := by
      rw [← hab]; simp
    have := hlen _ hp
    exact rfindBelow_none h a.length (by omega) this hp
  | some i =>
    left
    obtain ⟨-, -, h3, h4⟩ := rfindBelow_some h
    refine ⟨i, rfl, h3, fun k hk hp => ?_⟩
    have := hlen _ hp
    exact h4 k hk (by omega) this hp

/-- Witness: skipping two lines back and forth in a small buffer. -/
example : skipBack c!"a\nb\nc\nd" 2 5 = 1 ∧ skipForward c!"a\nb\nc\nd" 2 1 = 5 ∧
    2 ≤ newlinesIn c!"a\nb\nc\nd" 0 5 ∧ skipBack c!"a\nb\nc\nd" 7 5 = 1 := by decide

/-! ### C68 -/

private theorem verify_ok_iff (marker buf : Str) (r : Nat) (hne : buf ≠ [])
    (hr : skipBack buf 10 (buf.length - 1) = r) :
    verifyCompleted marker buf = .ok () ↔ marker <:+: buf.drop r := by
  unfold verifyCompleted
  cases buf with
  | nil => exact absurd rfl hne
  | cons c s =>
    simp only [hr]
    cases h : mmFind (c :: s) marker r with
    | none => have := mmFind_none.mp h; simp [this]
    | some i =>
      simp only [true_iff]
      by_contra hc
      rw [mmFind_none.mpr hc] at h
      cases h

private theorem newlinesIn_end (X Y : Str) :
    newlinesIn (X ++ Y) X.length (X ++ Y).length = Y.count '\n' := by
  rw [newlinesIn, List.take_length, List.drop_left]

private theorem split_lines (ls : List Str) (d : Nat) (h0 : 0 < d) (hd : d ≤ ls.length)
    (hl : ∀ l ∈ ls, '\n' ∉ l) :
    ∃ X, terminated ls = X ++ '\n' :: terminated (ls.drop d) ∧ X.count '\n' = d - 1 := by
  obtain ⟨p, hp⟩ : ∃ p, ls[d-1]? = some p := ⟨ls[d-1], by simp⟩
  have hsplit : ls = ls.take (d - 1) ++ p :: ls.drop d := by
    obtain ⟨hlt, hv⟩ := List.getElem?_eq_some_iff.mp hp
    conv_lhs => rw [← List.take_append_drop (d - 1) ls]
    rw [List.drop_eq_getElem_cons hlt, hv, show d - 1 + 1 = d by omega]
  refine ⟨terminated (ls.take (d - 1)) ++ p, ?_, ?_⟩
  · conv_lhs => rw [hsplit]
    rw [terminated_append, terminated_cons]; simp
  · rw [List.count_append, count_terminated _ fun l h => hl l (List.mem_of_mem_take h),
      List.count_eq_zero.mpr (hl p (List.mem_of_getElem? hp))]
    simp; omega

/-- C68: what the check looks at, for a file that ends with a newline: the last ten lines, but
never the first line of the file. -/
theorem C68_checked_lines (marker : Str) (ls : List Str) (hm : '\n' ∉ marker) (hne : marker ≠ [])
    (hl : ∀ l ∈ ls, '\n' ∉ l) (h0 : ls ≠ []) :
    verifyCompleted marker (terminated ls) = .ok () ↔
      ∃ l ∈ ls.drop (max 1 (ls.length - 10)), marker <:+: l := by
  have hpos : 0 < ls.length := List.length_pos_of_ne_nil h0
  obtain ⟨X, hX, hXc⟩ := split_lines ls (max 1 (ls.length - 10)) (by omega) (by omega) hl
  set post := ls.drop (max 1 (ls.length - 10)) with hpost
  have hpl : post.length = ls.length - max 1 (ls.length - 10) := by rw [hpost, List.length_drop]
  have hbne : terminated ls ≠ [] := by rw [hX]; simp
  have hlast : (terminated ls)[(terminated ls).length - 1]? = some '\n' := by
    rw [← List.getLast?_eq_getElem?]
    conv_lhs => rw [← List.dropLast_append_getLast h0, terminated_append]
    simp [terminated]
  have hcount : (terminated ls).count '\n' = ls.length := count_terminated ls hl
  have hLpos : 0 < (terminated ls).length := List.length_pos_of_ne_nil hbne
  have hone := newlinesIn_one_of hlast
  rw [show (terminated ls).length - 1 + 1 = (terminated ls).length by omega] at hone
  have hall : newlinesIn (terminated ls) 0 ((terminated ls).length - 1) = ls.length - 1 := by
    have e := newlinesIn_split (buf := terminated ls) (Nat.zero_le ((terminated ls).length - 1))
      (by omega : (terminated ls).length - 1 ≤ (terminated ls).length)
    rw [hone] at e
    have : newlinesIn (terminated ls) 0 (terminated ls).length = ls.length := by
      simp [newlinesIn, hcount]
    omega
  have hXlen : X.length + 1 + (terminated post).length = (terminated ls).length := by
    rw [hX]; simp; omega
  have hr : skipBack (terminated ls) 10 ((terminated ls).length - 1) = X.length := by
    refine nthBefore_unique (skipBack_spec _ _ _) ?_
    rw [hall]
    unfold NthBefore
    split
    · next hz =>
      have : post = [] := by
        apply List.eq_nil_of_length_eq_zero; omega
      rw [this] at hXlen
      have h0 : (terminated []).length = 0 := rfl
      omega
    · next hz =>
      have hpp : post ≠ [] := by
        intro hc; rw [hc] at hpl; simp at hpl; omega
      have htp : 0 < (terminated post).length := by
        obtain ⟨a, t, hat⟩ := List.exists_cons_of_ne_nil hpp
        rw [hat, terminated_cons, List.length_append, List.length_cons]; omega
      refine ⟨by omega, by rw [hX]; simp, ?_⟩
      have e := newlinesIn_split (buf := terminated ls) (by omega : X.length ≤ (terminated ls).length - 1)
        (by omega : (terminated ls).length - 1 ≤ (terminated ls).length)
      rw [hone] at e
      have e2 : newlinesIn (terminated ls) X.length (terminated ls).length = post.length + 1 := by
        rw [hX, newlinesIn_end, List.count_cons_self,
          count_terminated _ fun l h => hl l (List.mem_of_mem_drop h)]
      omega
  rw [verify_ok_iff marker _ _ hbne hr, hX, List.drop_left]
  have := infix_nl (m := marker) (a := []) (b := terminated post) hm
  rw [List.nil_append] at this
  rw [this, infix_terminated hm hne]
  simp [hne]

/-- C68: the same for a file whose last line has no newline. -/
theorem C68_checked_lines_open (marker : Str) (ls : List Str) (last : Str) (hm : '\n' ∉ marker)
    (hne : 2 ≤ marker.length) (hl : ∀ l ∈ ls, '\n' ∉ l) (hlast : '\n' ∉ last) (h0 : last ≠ []) :
    verifyCompleted marker (terminated ls ++ last) = .ok () ↔
      ∃ l ∈ (ls ++ [last]).drop (max 1 (ls.length + 1 - 10)), marker <:+: l := by
  have hmne : marker ≠ [] := by intro h; rw [h] at hne; simp at hne
  have hlp : 0 < last.length := List.length_pos_of_ne_nil h0
  set buf := terminated ls ++ last with hbuf
  have hblen : buf.length = (terminated ls).length + last.length := by rw [hbuf]; simp
  have hbne : buf ≠ [] := by rw [hbuf]; simp [h0]
  have hlastzero : newlinesIn buf (buf.length - 1) buf.length = 0 := by
    apply newlinesIn_zero
    intro k h1 h2 hk
    rw [hbuf, List.getElem?_append_right (by omega)] at hk
    exact hlast (List.mem_of_getElem? hk)
  have hall : newlinesIn buf 0 (buf.length - 1) = ls.length := by
    have e := newlinesIn_split (buf := buf) (Nat.zero_le (buf.length - 1))
      (by omega : buf.length - 1 ≤ buf.length)
    have : newlinesIn buf 0 buf.length = ls.length := by
      simp only [newlinesIn, List.take_length, List.drop_zero]
      rw [hbuf, List.count_append, count_terminated ls hl, List.count_eq_zero.mpr hlast]; rfl
    omega
  by_cases hz : ls = []
  · subst hz
    have hr : skipBack buf 10 (buf.length - 1) = buf.length - 1 := by
      refine nthBefore_unique (skipBack_spec _ _ _) ?_
      rw [hall]; simp [NthBefore]
    rw [verify_ok_iff marker _ _ hbne hr]
    constructor
    · intro h
      have := h.length_le
      simp only [List.length_drop] at this
      omega
    · rintro ⟨l, hl, -⟩
      simp at hl
  · have hpos : 0 < ls.length := List.length_pos_of_ne_nil hz
    have hdle : max 1 (ls.length + 1 - 10) ≤ ls.length := by omega
    obtain ⟨X, hX, hXc⟩ := split_lines ls (max 1 (ls.length + 1 - 10)) (by omega) hdle hl
    rw [List.drop_append_of_le_length hdle]
    set post := ls.drop (max 1 (ls.length + 1 - 10)) with hpost
    have hpl : post.length = ls.length - max 1 (ls.length + 1 - 10) := by rw [hpost, List.length_drop]
    have hb2 : buf = X ++ '\n' :: (terminated post ++ last) := by rw [hbuf, hX]; simp
    have hXlen : X.length + 1 + (terminated post).length + last.length = buf.length := by
      rw [hb2]; simp; omega
    have hr : skipBack buf 10 (buf.length - 1) = X.length := by
      refine nthBefore_unique (skipBack_spec _ _ _) ?_
      rw [hall]
      unfold NthBefore
      rw [if_neg (by omega)]
      refine ⟨by omega, by rw [hb2]; simp, ?_⟩
      have e := newlinesIn_split (buf := buf) (by omega : X.length ≤ buf.length - 1)
        (by omega : buf.length - 1 ≤ buf.length)
      have e2 : newlinesIn buf X.length buf.length = post.length + 1 := by
        rw [hb2, newlinesIn_end, List.count_cons_self, List.count_append,
          count_terminated _ fun l h => hl l (List.mem_of_mem_drop h), List.count_eq_zero.mpr hlast]
      omega
    rw [verify_ok_iff marker _ _ hbne hr, hb2, List.drop_left]
    have h1 := infix_nl (m := marker) (a := []) (b := terminated post ++ last) hm
    rw [List.nil_append] at h1
    rw [h1]
    have h2 : ∀ post : List Str, marker <:+: terminated post ++ last ↔
        (∃ l ∈ post, marker <:+: l) ∨ marker <:+: last := by
      intro post
      induction post with
      | nil => simp [terminated]
      | cons p post ih => rw [terminated_cons, List.append_assoc, List.cons_append, infix_nl hm, ih]; simp [or_assoc]
    rw [h2]
    simp [hmne, or_and_right, exists_or]

/-- C68: for a file of more than ten lines the check succeeds exactly when the marker is within one
of the last ten lines. -/
theorem C68_last_ten_partial (marker : Str) (ls : List Str) (hm : '\n' ∉ marker) (hne : marker ≠ [])
    (hl : ∀ l ∈ ls, '\n' ∉ l) (h : 10 < ls.length) :
    verifyCompleted marker (terminated ls) = .ok () ↔
      ∃ l ∈ ls.drop (ls.length - 10), marker <:+: l := by
  rw [C68_checked_lines marker ls hm hne hl (by intro hc; rw [hc] at h; simp at h),
    max_eq_right (by omega)]

/-- C68: the lines by which ACES2 and vibron announce success are recognised. -/
theorem C68_announcements (ls : List Str) (hl : ∀ l ∈ ls, '\n' ∉ l) (h : 10 ≤ ls.length) :
    (∀ time : Str, '\n' ∉ time → verifyCompleted acesMarker (terminated (ls ++
      [c!"  The ACES2 program has completed successfully in " ++ time])) = .ok ()) ∧
    verifyCompleted vibronMarker (terminated (ls ++ [c!" All done in main_vibron "])) = .ok () := by
  refine ⟨fun time ht => ?_, ?_⟩
  · refine (C68_last_ten_partial _ _ (by decide) (by decide) ?_ (by simp; omega)).2
      ⟨c!"  The ACES2 program has completed successfully in " ++ time, ?_, ⟨c!"  ", ' ' :: time, ?_⟩⟩
    · intro l hm
      rcases List.mem_append.1 hm with hm | hm
      · exact hl l hm
      · rw [List.mem_singleton.1 hm]
        simpa using ht
    · rw [List.drop_append_of_le_length (by simp)]
      simp
    · simp [acesMarker]
  · refine (C68_last_ten_partial _ _ (by decide) (by decide) ?_ (by simp; omega)).2
      ⟨c!" All done in main_vibron ", ?_, ⟨c!" ", c!" ", by decide⟩⟩
    · intro l hm
      rcases List.mem_append.1 hm with hm | hm
      · exact hl l hm
      · rw [List.mem_singleton.1 hm]
        decide
    · rw [List.drop_append_of_le_length (by simp)]
      simp

/-- C68 is false for short files: a file whose only line announces success counts as failed. -/
theorem C68_short_file_refuted :
    ∃ ls : List Str, (∀ l ∈ ls, '\n' ∉ l) ∧ ls ≠ [] ∧ (∃ l ∈ ls.drop (ls.length - 10), acesMarker <:+: l) ∧
      verifyCompleted acesMarker (terminated ls) = .error .exception := by
  refine ⟨[acesMarker], by decide, by simp, ⟨acesMarker, by simp, List.infix_rfl⟩, ?_⟩
  have h := C68_checked_lines acesMarker [acesMarker] (by decide) (by decide) (by decide) (by simp)
  simp only [List.length_singleton] at h
  have h2 : verifyCompleted acesMarker (terminated [acesMarker]) ≠ .ok () := by
    intro hc; have := h.mp hc; simp at this
  revert h2
  unfold verifyCompleted
  split
  · next h3 => simp [terminated] at h3
  · split <;> simp

/-- C68: a failed check always raises: a `ValueError` for an empty file, which cannot be mapped, an
exception of its own for every other file. -/
theorem C68_raises (marker buf : Str) (h : verifyCompleted marker buf ≠ .ok ()) :
    verifyCompleted marker buf = .error (if buf = [] then .value else .exception) := by
  cases buf with
  | nil => rfl
  | cons c buf =>
    rw [if_neg (by simp)]
    simp only [verifyCompleted] at h ⊢
    split at h <;> simp_all

/-- Witness: a file of twelve lines. -/
example : verifyCompleted vibronMarker (terminated (List.replicate 11 c!"x" ++ [c!" All done in main_vibron."]))
    = .ok () := by
  rw [C68_last_ten_partial _ _ (by decide) (by decide) (by decide) (by decide)]
  exact ⟨c!" All done in main_vibron.", by decide, ⟨c!" ", c!".", by decide⟩⟩

/-! ### C66 -/

private theorem removeExtraHeff_ok {target buf out : Str} (h : removeExtraHeff target buf = .ok out) :
    ∃ i, mmFind buf target 0 = some i ∧
      buf.drop (match mmRfind buf c!"\n" i with | none => 0 | some k => k + 1) = out := by
  unfold removeExtraHeff at h
  cases buf with
  | nil => cases h
  | cons c s =>
    simp only [findString] at h
    cases hm : mmFind (c :: s) target 0 with
    | none => rw [hm] at h; cases h
    | some i =>
      rw [hm] at h
      simp only [Except.ok.injEq] at h
      exact ⟨i, rfl, h⟩

/-- C66: what is kept is the end of the file, from the beginning of the first line on which the
target occurs. -/
theorem C66_kept (target buf out : Str) (ht : '\n' ∉ target)
    (h : removeExtraHeff target buf = .ok out) :
    ∃ pre, buf = pre ++ out ∧ (pre = [] ∨ pre.getLast? = some '\n') ∧ ¬ (target ≠ [] ∧ target <:+: pre) ∧
      target <:+: out.takeWhile (· ≠ '\n') := by
  obtain ⟨i, hi, h⟩ := removeExtraHeff_ok h
  obtain ⟨-, hp, hfirst⟩ := mmFind_some hi
  -- the target is not within anything before its first occurrence
  have key : ∀ st, st ≤ i → (∀ k, st ≤ k → k < i → buf[k]? ≠ some '\n') →
      ¬ (target ≠ [] ∧ target <:+: buf.take st) ∧
      target <:+: (buf.drop st).takeWhile (· ≠ '\n') := by
    intro st hst hnl
    constructor
    · rintro ⟨hne, a, b, hab⟩
      have hlen : a.length + target.length ≤ st := by
        have := congrArg List.length hab
        simp only [List.length_append, List.length_take] at this
        omega
      have htp : 0 < target.length := List.length_pos_of_ne_nil hne
      refine hfirst a.length (Nat.zero_le _) (by omega) ?_
      refine ⟨b ++ buf.drop st, ?_⟩
      have e : buf = a ++ (target ++ (b ++ buf.drop st)) := by
        conv_lhs => rw [← List.take_append_drop st buf, ← hab]
        simp
      conv_rhs => rw [e]
      simp
    · obtain ⟨r, hr⟩ := hp
      have e : buf.drop st = (buf.drop st).take (i - st) ++ (target ++ r) := by
        rw [hr]
        conv_lhs => rw [← List.take_append_drop (i - st) (buf.drop st)]
        rw [List.drop_drop, show st + (i - st) = i by omega]
      have hm : ∀ x ∈ (buf.drop st).take (i - st), x ≠ '\n' := by
        intro x hx hxn
        subst hxn
        obtain ⟨k, hk⟩ := List.mem_iff_getElem?.mp hx
        rw [List.getElem?_take] at hk
        split at hk
        · rw [List.getElem?_drop] at hk
          exact hnl (st + k) (by omega) (by omega) hk
        · cases hk
      rw [e, ← List.append_assoc,
        List.takeWhile_append_of_pos (by
          intro x hx
          rcases List.mem_append.mp hx with hx | hx
          · simpa using hm x hx
          · have : x ≠ '\n' := fun hxn => ht (hxn ▸ hx)
            simpa using this), List.append_assoc]
      exact ⟨_, _, (List.append_assoc _ _ _)⟩
  cases hk : mmRfind buf c!"\n" i with
  | none =>
    rw [hk] at h
    simp only [List.drop_zero] at h
    obtain ⟨k1, k2⟩ := key 0 (Nat.zero_le _) fun k _ hk2 => mmRfind_nl_none hk k hk2
    refine ⟨[], by rw [← h]; rfl, Or.inl rfl, by simpa using k1, ?_⟩
    rw [← h]; simpa using k2
  | some k =>
    rw [hk] at h
    simp only at h
    obtain ⟨a, b, c'⟩ := mmRfind_nl_some hk
    obtain ⟨k1, k2⟩ := key (k + 1) (by omega) fun j h1 h2 => c' j (by omega) h2
    refine ⟨buf.take (k + 1), by rw [← h, List.take_append_drop], Or.inr ?_, k1, by rw [← h]; exact k2⟩
    have hlt := (List.getElem?_eq_some_iff.mp b).1
    rw [List.getLast?_eq_getElem?, List.length_take, List.getElem?_take, if_pos (by omega),
      show min (k + 1) buf.length - 1 = k by omega, b]

/-- C66: the file is rejected, and left alone, exactly when the target does not occur. -/
theorem C66_rejected (target buf : Str) (hne : target ≠ []) :
    ((∃ e, removeExtraHeff target buf = .error e) ↔ ¬ target <:+: buf) ∧
    (¬ target <:+: buf → removeExtraHeff target buf = .error (if buf = [] then .value else .exception)) := by
  unfold removeExtraHeff
  cases buf with
  | nil => simp [hne]
  | cons c s =>
    simp only
    rcases C55_find (c :: s) target with ⟨i, h1, h2, -⟩ | ⟨h1, h2⟩
    · simp only [h1]
      have : target <:+: c :: s := h2.isInfix.trans (List.drop_suffix _ _).isInfix
      simp [this]
    · simp [h1, h2]

/-- C66: cleaning a cleaned file changes nothing. -/
theorem C66_idempotent (target buf out : Str) (ht : '\n' ∉ target) (hne : target ≠ [])
    (h : removeExtraHeff target buf = .ok out) : removeExtraHeff target out = .ok out := by
  obtain ⟨pre, -, -, -, hin⟩ := C66_kept target buf out ht h
  have hpre : out.takeWhile (· ≠ '\n') <+: out := List.takeWhile_prefix _
  cases hout : removeExtraHeff target out with
  | error e =>
    exact absurd (hin.trans hpre.isInfix) ((C66_rejected target out hne).1.mp ⟨e, hout⟩)
  | ok out2 =>
    obtain ⟨pre2, h1, h2, h3, h4⟩ := C66_kept target out out2 ht hout
    rcases h2 with h2 | h2
    · subst h2; rw [h1]; rfl
    · exfalso
      apply h3
      refine ⟨hne, hin.trans ?_⟩
      -- the first line of `out` is within `pre2`, which contains a newline
      have hmem : '\n' ∈ pre2 := List.mem_of_getLast? h2
      have : out.takeWhile (· ≠ '\n') = pre2.takeWhile (· ≠ '\n') := by
        rw [h1, List.takeWhile_append]
        rw [if_neg]
        intro hlen
        have hall : pre2.takeWhile (· ≠ '\n') = pre2 :=
          (List.takeWhile_prefix _).eq_of_length hlen
        have := (List.takeWhile_eq_self_iff.mp hall) '\n' hmem
        simp at this
      rw [this]
      exact (List.takeWhile_prefix _).isInfix

/-- Witness -/
example : removeExtraHeff heffTarget c!"junk\nmore\n a HEFF_IP2 1\n2\n" = .ok c!" a HEFF_IP2 1\n2\n" := by
  decide

/-! ### C67 -/

/-- C67: the number of states is written over the first placeholder and the three characters that
follow it; every other character of the file stays where it was. -/
theorem C67_written (nip : Nat) (buf a b : Str) (hn : nip < 100000) (hb : 3 ≤ b.length)
    (ha : ∀ k < a.length, ¬ c!"xxx" <+: (a ++ c!"xxx" ++ b).drop k)
    (h : buf = a ++ c!"xxx" ++ b) :
    addNip nip buf = (a ++ pad6 nip ++ b.drop 3, .ok ()) := by
  have hc : (commaStr nip).length ≤ 6 := by
    unfold commaStr
    split
    · next h1 =>
      have : ∀ n, n < 1000 → (natStr n).length ≤ 3 := by
        intro n hn
        unfold natStr
        split
        · simp
        · unfold natStr
          split
          · simp
          · unfold natStr
            rw [if_pos (by omega)]; simp
      have := this nip h1
      omega
    · have h2 : nip / 1000 < 100 := by omega
      unfold commaStr
      rw [if_pos (by omega)]
      unfold natStr
      split
      · simp
      · unfold natStr
        rw [if_pos (by omega)]; simp
  have hp : (pad6 nip).length = 6 := by simp [pad6]; omega
  have hfind : findString buf c!"xxx" = .ok a.length := by
    rcases C55_find buf c!"xxx" with ⟨i, h1, h2, h3⟩ | ⟨-, h2⟩
    · rw [h1]
      congr 1
      rcases lt_trichotomy i a.length with hlt | heq | hgt
      · exact absurd (h ▸ h2) (ha i hlt)
      · exact heq
      · refine absurd ?_ (h3 a.length hgt)
        rw [h]
        exact ⟨b, by simp⟩
    · exact absurd ⟨a, b, h.symm⟩ h2
  unfold addNip
  cases hbuf : buf with
  | nil => rw [hbuf] at h; simp at h
  | cons c s =>
    simp only [← hbuf, hfind, hp]
    have hl : buf.length = a.length + 3 + b.length := by rw [h]; simp; omega
    rw [if_neg (by omega), if_pos trivial]
    congr 1
    have e1 : buf.take a.length = a := by rw [h, List.append_assoc, List.take_left]
    have e2 : buf.drop (a.length + 6) = b.drop 3 := by
      rw [h, List.append_assoc, ← List.drop_drop, List.drop_left]; rfl
    rw [e1, e2]

/-- The thousands separators aside, the text is the decimal number. -/
theorem commaStr_digits (n : Nat) : (commaStr n).filter (· ≠ ',') = natStr n := by
  have nodot : ∀ n, (natStr n).filter (· ≠ ',') = natStr n := by
    intro n
    rw [List.filter_eq_self]
    intro c hc
    have := notMem_natStr (c := ',') (by decide) n
    simp only [ne_eq, decide_not, Bool.not_eq_eq_eq_not, Bool.not_true, decide_eq_false_iff_not]
    rintro rfl
    exact this hc
  have dig : ∀ k < 10, digit k ≠ ',' := by decide
  induction n using commaStr.induct with
  | case1 n h => unfold commaStr; rw [if_pos h]; exact nodot n
  | case2 n h ih =>
    unfold commaStr
    rw [if_neg h, List.filter_append, ih]
    have e : ∀ k, 10 ≤ k → natStr k = natStr (k / 10) ++ [digit (k % 10)] := by
      intro k hk
      conv_lhs => unfold natStr
      rw [if_neg (by omega)]
    rw [e n (by omega), e (n / 10) (by omega), e (n / 10 / 10) (by omega),
      show n / 10 / 10 / 10 = n / 1000 by omega, show n / 10 / 10 = n / 100 by omega]
    have d1 := dig (n / 100 % 10) (by omega)
    have d2 := dig (n / 10 % 10) (by omega)
    have d3 := dig (n % 10) (by omega)
    simp [d1, d2, d3]

/-- C67: read without blanks and thousands separators, the text that is written is the number. -/
theorem C67_number_shown (nip : Nat) :
    (pad6 nip).filter (fun c => c ≠ ',' ∧ c ≠ ' ') = natStr nip := by
  have hsp : (natStr nip).filter (· ≠ ' ') = natStr nip := by
    rw [List.filter_eq_self]
    intro c hc
    have := notMem_natStr (c := ' ') (by decide) nip
    simp only [ne_eq, decide_not, Bool.not_eq_eq_eq_not, Bool.not_true, decide_eq_false_iff_not]
    rintro rfl
    exact this hc
  have e : ∀ l : Str, l.filter (fun c => c ≠ ',' ∧ c ≠ ' ') =
      (l.filter (· ≠ ',')).filter (· ≠ ' ') := by
    intro l
    rw [List.filter_filter]
    congr 1
    funext c
    by_cases h : c = ',' <;> by_cases h' : c = ' ' <;> simp [h, h']
  rw [pad6, e, List.filter_append, List.filter_append, commaStr_digits, hsp]
  have : ∀ n, ((List.replicate n ' ').filter (· ≠ ',')).filter (· ≠ ' ') = [] := by
    intro n; simp [List.filter_replicate]
  rw [this, List.nil_append]

/-- C67: with three blanks after the placeholder exactly the field of six characters changes, and
it then shows the number, right-aligned. -/
theorem C67_field_partial (nip : Nat) (a b : Str) (hn : nip < 1000)
    (ha : ∀ k < a.length, ¬ c!"xxx" <+: (a ++ c!"xxx" ++ (c!"   " ++ b)).drop k) :
    ∃ blanks : Nat, blanks + (natStr nip).length = 6 ∧
      addNip nip (a ++ c!"xxx" ++ (c!"   " ++ b)) =
        (a ++ (List.replicate blanks ' ' ++ natStr nip) ++ b, .ok ()) := by
  have hw := C67_written nip (a ++ c!"xxx" ++ (c!"   " ++ b)) a (c!"   " ++ b) (by omega)
    (by simp) ha rfl
  have hcs : commaStr nip = natStr nip := by unfold commaStr; rw [if_pos hn]
  have hlen : (natStr nip).length ≤ 6 := by
    unfold natStr
    split
    · simp
    · unfold natStr
      split
      · simp
      · unfold natStr
        rw [if_pos (by omega)]; simp
  refine ⟨6 - (natStr nip).length, by omega, ?_⟩
  rw [hw]
  simp [pad6, hcs]

/-- C67 is false in general: six characters are written over a placeholder of three, so text that
follows the placeholder is destroyed although the call succeeds. -/
theorem C67_placeholder_refuted :
    ∃ (nip : Nat) (a b out : Str), addNip nip (a ++ c!"xxx" ++ b) = (out, .ok ()) ∧
      out ≠ a ++ natStr nip ++ b ∧ ¬ b <:+ out := by
  have h := C67_written 4 (c!"nip=" ++ c!"xxx" ++ c!"/mode=2\n") c!"nip=" c!"/mode=2\n" (by omega)
    (by decide) (by decide) rfl
  refine ⟨4, c!"nip=", c!"/mode=2\n", _, h, ?_, ?_⟩
  · simp [pad6, commaStr, natStr, digit]
  · simp [pad6, commaStr, natStr, digit]
    decide

/-- C67: a placeholder within three characters of the end of the file is an error that leaves the file
as it was; so is a missing placeholder. -/
theorem C67_rejected (nip : Nat) (buf : Str)
    (h : ∀ i, c!"xxx" <+: buf.drop i → buf.length < i + 6) :
    addNip nip buf = (buf, .error (if buf = [] ∨ c!"xxx" <:+: buf then .value else .exception)) := by
  unfold addNip
  cases buf with
  | nil => rfl
  | cons c s =>
    simp only
    rcases C55_find (c :: s) c!"xxx" with ⟨i, h1, h2, -⟩ | ⟨h1, h3⟩
    · simp only [h1]
      have hp : 6 ≤ (pad6 nip).length := by simp [pad6]; omega
      have := h i h2
      have h4 : c!"xxx" <:+: c :: s := h2.isInfix.trans (List.drop_suffix _ _).isInfix
      rw [if_pos (by omega), if_pos (.inr h4)]
    · simp only [h1]
      rw [if_neg (by simp [h3])]

/-- C67: a number too long for six characters is refused only after it was written: the field and the text behind it
are lost although the call fails. -/
theorem C67_too_long_refuted (nip : Nat) (a b : Str) (hn : 100000 ≤ nip) (hb : (commaStr nip).length ≤ b.length + 3)
    (ha : ∀ k < a.length, ¬ c!"xxx" <+: (a ++ c!"xxx" ++ b).drop k) :
    addNip nip (a ++ c!"xxx" ++ b) = (a ++ commaStr nip ++ b.drop ((commaStr nip).length - 3), .error .assertion) ∧
      6 < (commaStr nip).length := by
  have hlen : 6 < (commaStr nip).length := by
    rw [commaStr, if_neg (by omega)]
    have : 3 ≤ (commaStr (nip / 1000)).length := by
      rw [commaStr]
      split
      · rw [natStr, if_neg (by omega), natStr, if_neg (by omega)]
        have : 1 ≤ (natStr (nip / 1000 / 10 / 10)).length := by
          rw [natStr]; split <;> simp
        simp; omega
      · simp
    simp; omega
  have hp : pad6 nip = commaStr nip := by
    rw [pad6, show 6 - (commaStr nip).length = 0 by omega]; rfl
  have hfind : findString (a ++ c!"xxx" ++ b) c!"xxx" = .ok a.length := by
    rcases C55_find (a ++ c!"xxx" ++ b) c!"xxx" with ⟨i, h1, h2, h3⟩ | ⟨-, h2⟩
    · rw [h1]
      congr 1
      rcases lt_trichotomy i a.length with hlt | heq | hgt
      · exact absurd h2 (ha i hlt)
      · exact heq
      · exact absurd ⟨b, by simp⟩ (h3 a.length hgt)
    · exact absurd ⟨a, b, rfl⟩ h2
  refine ⟨?_, hlen⟩
  unfold addNip
  cases hbuf : a ++ c!"xxx" ++ b with
  | nil => simp at hbuf
  | cons c s =>
    simp only [← hbuf, hfind, hp]
    have hl : (a ++ c!"xxx" ++ b).length = a.length + 3 + b.length := by simp; omega
    rw [if_neg (by omega), if_neg (by omega)]
    congr 1
    have e1 : (a ++ c!"xxx" ++ b).take a.length = a := by rw [List.append_assoc, List.take_left]
    have e2 : (a ++ c!"xxx" ++ b).drop (a.length + (commaStr nip).length) = b.drop ((commaStr nip).length - 3) := by
      rw [List.append_assoc, ← List.drop_drop, List.drop_left, List.drop_append,
        List.drop_eq_nil_of_le (by simp; omega)]
      rfl
    rw [e1, e2]

/-! ### C65 -/

private theorem keepLines_nl (s : Str) : keepLines ('\n' :: s) = c!"\n" :: keepLines s := by
  simp [keepLines]

/-- C65 is false: whatever the table says, the check succeeds as soon as any newline follows the
header, because reading starts at the end of the header line, which looks like a blank line. -/
theorem C65_check_refuted (parse : Str → Option ℚ) (cutoff : ℚ) (buf : Str) (i : Nat)
    (hi : findString buf ipHeader = .ok i) (hnl : '\n' ∈ buf.drop (i + 1)) :
    verifySingles parse cutoff buf = .done true := by
  have hspec := skipForward_spec buf 5 i
  have hcnt : 0 < newlinesIn buf (i + 1) buf.length := by
    obtain ⟨k, hk⟩ := List.mem_iff_getElem?.mp hnl
    rw [List.getElem?_drop] at hk
    have := (List.getElem?_eq_some_iff.mp hk).1
    exact newlinesIn_pos (by omega : i + 1 ≤ i + 1 + k) this hk
  unfold NthAfter at hspec
  rw [if_neg (by omega)] at hspec
  obtain ⟨-, h2, -⟩ := hspec
  obtain ⟨hk, hv⟩ := List.getElem?_eq_some_iff.mp h2
  unfold verifySingles
  cases hb : buf with
  | nil => rw [hb] at hk; simp at hk
  | cons c s =>
    simp only [← hb, hi]
    rw [List.drop_eq_getElem_cons hk, hv, keepLines_nl]
    simp [readRows, pure, Except.pure]

/-- A table with one state whose percentage is 12.5. -/
def badTable : Str :=
  c!"Summary of ionization-potential eom-cc calculation" ++ c!"\n\n a\n b\n c\n 1 2 3 4 12.5 5\n\n"

/-- C65: a concrete table in which the only state is far below the cutoff of 85 % is accepted. -/
theorem C65_bad_table_refuted (parse : Str → Option ℚ) (hp : parse c!"12.5" = some (25 / 2)) :
    (splitWs c!" 1 2 3 4 12.5 5\n")[4]? = some c!"12.5" ∧
    percentOf parse c!" 1 2 3 4 12.5 5\n" = .ok (25 / 2) ∧ (25 / 2 : ℚ) ≤ 85 ∧
    verifySingles parse 85 badTable = .done true := by
  have h0 : (splitWs c!" 1 2 3 4 12.5 5\n")[4]? = some c!"12.5" := by decide
  refine ⟨h0, ?_, by norm_num, ?_⟩
  · unfold percentOf; rw [h0]; simp [hp]
  · exact C65_check_refuted parse 85 badTable 0 (by decide) (by decide)

/-- C65: so the number of states is never reduced. -/
theorem C65_never_reduced_refuted (parse : Str → Option ℚ) (cutoff : ℚ) (files : Nat → Str)
    (h : ∀ n, ∃ i, findString (files n) ipHeader = .ok i ∧ '\n' ∈ (files n).drop (i + 1)) (nip : Nat) :
    reduceStates (fun n => verifySingles parse cutoff (files n)) nip = .done nip := by
  obtain ⟨i, hi, hn⟩ := h nip
  cases nip with
  | zero => simp [reduceStates, C65_check_refuted parse cutoff _ i hi hn]
  | succ n => simp [reduceStates, C65_check_refuted parse cutoff _ i hi hn]

/-- C65: the loop itself is right: with a check that answers, it keeps the largest number of states
the check accepts, at most the initial one, and raises when no number of states is accepted. -/
theorem C65_reduction_partial (accept : Nat → Bool) (nip : Nat) (h0 : 0 < nip) :
    (∃ n, 0 < n ∧ n ≤ nip ∧ accept n = true ∧ (∀ m, n < m → m ≤ nip → accept m = false) ∧
      reduceStates (fun n => .done (accept n)) nip = .done n) ∨
    ((∀ m, 0 < m → m ≤ nip → accept m = false) ∧
      reduceStates (fun n => .done (accept n)) nip = .raised .exception) := by
  induction nip with
  | zero => omega
  | succ n ih =>
    cases hc : accept (n + 1) with
    | true =>
      left
      exact ⟨n + 1, by omega, le_refl _, hc, by intros; omega, by simp [reduceStates, hc]⟩
    | false =>
      by_cases hn : n = 0
      · subst hn
        right
        refine ⟨?_, by simp [reduceStates, hc]⟩
        intro m h1 h2
        rw [show m = 0 + 1 by omega]; exact hc
      · rcases ih (by omega) with ⟨k, a, b, c, d, e⟩ | ⟨a, b⟩
        · left
          refine ⟨k, a, by omega, c, ?_, by simp only [reduceStates, hc, if_neg hn, e]⟩
          intro m h1 h2
          by_cases hm : m = n + 1
          · rw [hm]; exact hc
          · exact d m h1 (by omega)
        · right
          refine ⟨?_, by simp only [reduceStates, hc, if_neg hn, b]⟩
          intro m h1 h2
          by_cases hm : m = n + 1
          · rw [hm]; exact hc
          · exact a m h1 (by omega)

/-- Witness: from five states, with three and fewer accepted, three are kept. -/
example : reduceStates (fun n => .done (decide (n ≤ 3))) 5 = .done 3 := by decide

/-- The hypotheses are met. -/
example : skipBack c!"a\nb\nc\nd" 1 (skipForward c!"a\nb\nc\nd" 1 1) = 1 :=
  C55_there_and_back _ 1 1 (by decide) (by decide)

example : ∃ i, rfindString c!"x HEFF y HEFF" c!"HEFF" = .ok i ∧ i = 9 := ⟨9, by decide, rfl⟩

example : verifyCompleted acesMarker c!"some lines\nand no end\n" = .error .exception :=
  C68_raises _ _ (by decide)

example : verifyCompleted acesMarker (terminated (List.replicate 10 c!"x" ++
    [c!"  The ACES2 program has completed successfully in 3.5 seconds"])) = .ok () :=
  (C68_announcements (List.replicate 10 c!"x") (by simp) (by simp)).1 c!"3.5 seconds" (by decide)

example : ∃ pre, c!"junk\n a HEFF_IP2 1\n" = pre ++ c!" a HEFF_IP2 1\n" := by
  obtain ⟨pre, h, -⟩ := C66_kept heffTarget c!"junk\n a HEFF_IP2 1\n" c!" a HEFF_IP2 1\n" (by decide) (by decide)
  exact ⟨pre, h⟩

example : addNip 12 c!"states xxx   end" = (c!"states     12end", .ok ()) := by
  obtain ⟨blanks, h1, h2⟩ := C67_field_partial 12 c!"states " c!"end" (by decide) (by decide)
  have : blanks = 4 := by
    have : (natStr 12).length = 2 := by decide +kernel
    omega
  subst this
  rw [show c!"states xxx   end" = c!"states " ++ c!"xxx" ++ (c!"   " ++ c!"end") from rfl, h2]
  decide +kernel

example : (addNip 12 c!"no number").1 = c!"no number" :=
  congrArg Prod.fst (C67_rejected 12 c!"no number" (by
    intro i hi
    exfalso
    rcases i with _ | _ | _ | _ | _ | _ | _ | _ | _ | i <;> revert hi
    · decide
    · decide
    · decide
    · decide
    · decide
    · decide
    · decide
    · decide
    · decide
    · simp))

end Pibronic.Props.Buffer
