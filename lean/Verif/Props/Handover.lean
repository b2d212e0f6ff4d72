import Verif.Model.Handover
import Verif.Props.Buffer
import Verif.Props.Grids

set_option autoImplicit false

/-! Theorems about the step between the coupling and the vibronic calculation (C103). -/
namespace Pibronic.Props.Handover
open Pibronic.Py Pibronic.Buffer Pibronic.FileStructure Pibronic.Handover

/-! ### what the theorems speak about -/

/-- `kept` is the text `t` from the beginning of the first line on which the target occurs. -/
def KeptFrom (target t kept : Str) : Prop :=
  ∃ before, t = before ++ kept ∧ (before = [] ∨ before.getLast? = some '\n') ∧ ¬ target <:+: before ∧
    target <:+: kept.takeWhile (· ≠ '\n')

/-- `after` is the text `t` with the number over the first placeholder and the three characters behind it. -/
def NumberIn (nip : Nat) (t after : Str) : Prop :=
  ∃ a b, t = a ++ c!"xxx" ++ b ∧ 3 ≤ b.length ∧ (∀ k < a.length, ¬ c!"xxx" <+: t.drop k) ∧
    after = a ++ pad6 nip ++ b.drop 3

/-! ### helpers -/

/-- The path of a file in the directory of the molecule. -/
theorem join_ends (root x : Str) : x <:+ join root x := by
  unfold join
  split
  · exact List.suffix_refl _
  · split
    · exact List.suffix_append _ _
    · exact ⟨root ++ ['/'], by simp⟩

private theorem last_of {c : Char} {root x : Str} (h : x.getLast? = some c) : (join root x).getLast? = some c := by
  obtain ⟨p, hp⟩ := join_ends root x
  rw [← hp, List.getLast?_append, h]; rfl

private theorem last_append (a b : Str) {c : Char} (h : b.getLast? = some c) : (a ++ b).getLast? = some c := by
  rw [List.getLast?_append, h]; rfl

private theorem ne_of_last {p q : Str} {c c' : Char} (h : p.getLast? = some c) (h' : q.getLast? = some c') (hc : c ≠ c') :
    p ≠ q := by
  rintro rfl
  rw [h] at h'
  exact hc (Option.some.inj h')

/-- The paths of the outputs and of the inputs of one molecule. -/
def sources (root name : Str) : List Str :=
  [join root (name ++ c!"_prepvib.pntheff"), join root (name ++ c!"_prepvib.vibronic_coupling"),
   join root (name ++ c!"_prepvib.vibron_input")]
/-- The paths of the inputs of the vibronic calculation. -/
def inputs (root name : Str) : List Str :=
  [join root c!"PNTHEFF", join root c!"cp.auto", join root (name ++ c!"_vibron.in")]

/-- One file: copied and then changed by `f`, which is told the contents. -/
private structure Unit' (s : Files → Step) (src dst : Str) (fin : Str → Str) (res : Str → Except Err Unit) : Prop where
  missing : ∀ d, d src = none → s d = ⟨[d], d, .error .os⟩
  found : ∀ d t, d src = some t → (s d).last = d.put dst (fin t) ∧ (s d).result = res t ∧
    ∀ x ∈ (s d).seen, x = d ∨ ∃ y, x = d.put dst y

private theorem put_same (d : Files) (p t : Str) : (d.put p t) p = some t := by simp [Files.put]
private theorem put_other (d : Files) {p q : Str} (t : Str) (h : q ≠ p) : (d.put p t) q = d q := by simp [Files.put, h]
private theorem put_put (d : Files) (p t t' : Str) : (d.put p t).put p t' = d.put p t' := by
  funext q; by_cases h : q = p <;> simp [Files.put, h]
private theorem put_comm (d : Files) {p q : Str} (t t' : Str) (h : p ≠ q) :
    (d.put p t).put q t' = (d.put q t').put p t := by
  funext r
  by_cases h1 : r = p
  · have h2 : r ≠ q := fun h2 => h (h1.symm.trans h2)
    simp [Files.put, h1, h]
  · simp [Files.put, h1]

/-- The outcome of the cleaning. -/
private def cleanFin (t : Str) : Str := match removeExtraHeff heffTarget t with
  | .ok out => out
  | .error _ => t
private def cleanRes (t : Str) : Except Err Unit := (removeExtraHeff heffTarget t).map fun _ => ()

private theorem copy_missing {root src dst : Str} {d : Files} (h : d (join root src) = none) :
    copyOutput root src dst d = ⟨[d], d, .error .os⟩ := by
  simp [copyOutput, verifyFileExists, h]

private theorem copy_found {root src dst : Str} {d : Files} {t : Str} (h : d (join root src) = some t) :
    copyOutput root src dst d =
      ⟨d :: (List.range (t.length + 1)).map fun k => d.put (join root dst) (t.take k), d.put (join root dst) t, .ok ()⟩ := by
  simp [copyOutput, verifyFileExists, h]

private theorem clean_unit (root src dst : Str) :
    Unit' (fun d => (copyOutput root src dst d).andThen (removeExtra root dst)) (join root src) (join root dst)
      cleanFin cleanRes where
  missing d h := by simp [copy_missing h, Step.andThen]
  found d t h := by
    simp only [copy_found h, Step.andThen, removeExtra, put_same]
    unfold cleanFin cleanRes
    cases hr : removeExtraHeff heffTarget t with
    | error e =>
      refine ⟨rfl, rfl, ?_⟩
      intro x hx
      simp only [List.cons_append, List.mem_cons, List.mem_append, List.mem_map, List.not_mem_nil, or_false] at hx
      rcases hx with hx | ⟨k, -, hx⟩ | hx
      · exact Or.inl hx
      · exact Or.inr ⟨_, hx.symm⟩
      · exact Or.inr ⟨_, hx⟩
    | ok out =>
      refine ⟨put_put _ _ _ _, rfl, ?_⟩
      intro x hx
      simp only [List.cons_append, List.mem_cons, List.mem_append, List.mem_map, put_put] at hx
      rcases hx with hx | ⟨k, -, hx⟩ | ⟨k, -, hx⟩
      · exact Or.inl hx
      · exact Or.inr ⟨_, hx.symm⟩
      · exact Or.inr ⟨_, hx.symm⟩

private theorem nip_unit (root src dst : Str) (nip : Nat) :
    Unit' (fun d => (copyOutput root src dst d).andThen (addNipTo root dst nip)) (join root src) (join root dst)
      (fun t => (addNip nip t).1) (fun t => (addNip nip t).2) where
  missing d h := by simp [copy_missing h, Step.andThen]
  found d t h := by
    simp only [copy_found h, Step.andThen, addNipTo, put_same]
    refine ⟨put_put _ _ _ _, trivial, ?_⟩
    intro x hx
    simp only [List.cons_append, List.mem_cons, List.mem_append, List.mem_map, put_put] at hx
    rcases hx with hx | ⟨k, -, hx⟩ | ⟨k, -, hx⟩
    · exact Or.inl hx
    · exact Or.inr ⟨_, hx.symm⟩
    · exact Or.inr ⟨_, hx.symm⟩

private theorem andThen_assoc (s : Step) (f g : Files → Step) :
    (s.andThen f).andThen g = s.andThen fun d => (f d).andThen g := by
  unfold Step.andThen
  cases hs : s.result with
  | error e => simp [hs]
  | ok u =>
    cases hf : (f s.last).result with
    | error e => simp [hf]
    | ok u => simp [hf]

/-- The three files, one after the other. -/
private theorem parse_eq (root name : Str) (nip : Nat) (d : Files) :
    parsePrepVibron root name nip d =
      ((copyOutput root (pntheffOut name) c!"PNTHEFF" d).andThen (removeExtra root c!"PNTHEFF")).andThen fun d =>
        ((copyOutput root (couplingOut name) couplingIn d).andThen (removeExtra root couplingIn)).andThen fun d =>
          (copyOutput root (vibronOut name) (vibronIn name) d).andThen (addNipTo root (vibronIn name) nip) := by
  simp only [parsePrepVibron, andThen_assoc]

/-- One file of the step. -/
private structure One where
  run : Files → Step
  src : Str
  dst : Str
  fin : Str → Str
  res : Str → Except Err Unit
  ok : Unit' run src dst fin res

private def runAll : List One → Files → Step
  | [], d => ⟨[d], d, .ok ()⟩
  | u :: us, d => (u.run d).andThen (runAll us)

private theorem runAll_frame (us : List One) : ∀ (d x : Files), (x ∈ (runAll us d).seen ∨ x = (runAll us d).last) →
    ∀ p, (∀ u ∈ us, p ≠ u.dst) → x p = d p := by
  induction us with
  | nil =>
    intro d x hx p _
    have : x = d := by simpa [runAll] using hx
    rw [this]
  | cons u us ih =>
    intro d x hx p hp
    have hu := hp u List.mem_cons_self
    have hus : ∀ v ∈ us, p ≠ v.dst := fun v hv => hp v (List.mem_cons_of_mem _ hv)
    cases hs : d u.src with
    | none =>
      have : x = d := by simpa [runAll, u.ok.missing d hs, Step.andThen] using hx
      rw [this]
    | some t =>
      obtain ⟨h1, h2, h3⟩ := u.ok.found d t hs
      have hfirst : ∀ x ∈ (u.run d).seen, x p = d p := by
        intro x hx
        rcases h3 x hx with rfl | ⟨y, rfl⟩
        · rfl
        · exact put_other _ _ hu
      have hlast : (u.run d).last p = d p := by rw [h1]; exact put_other _ _ hu
      unfold runAll Step.andThen at hx
      cases hr : (u.run d).result with
      | error e =>
        simp only [hr] at hx
        rcases hx with hx | hx
        · exact hfirst x hx
        · rw [hx]; exact hlast
      | ok _ =>
        simp only [hr, List.mem_append] at hx
        rcases hx with (hx | hx) | hx
        · exact hfirst x hx
        · rw [ih _ x (Or.inl hx) p hus]; exact hlast
        · rw [ih _ x (Or.inr hx) p hus]; exact hlast

private theorem runAll_again (us : List One) (hd : us.Pairwise fun u v => u.dst ≠ v.dst)
    (hs : ∀ u ∈ us, ∀ v ∈ us, u.src ≠ v.dst) : ∀ (d x : Files), x ∈ (runAll us d).seen →
    (runAll us x).last = (runAll us d).last ∧ (runAll us x).result = (runAll us d).result := by
  induction us with
  | nil =>
    intro d x hx
    have : x = d := by simpa [runAll] using hx
    rw [this]; exact ⟨rfl, rfl⟩
  | cons u us ih =>
    intro d x hx
    rw [List.pairwise_cons] at hd
    have ih := ih hd.2 fun a ha b hb => hs a (List.mem_cons_of_mem _ ha) b (List.mem_cons_of_mem _ hb)
    cases ht : d u.src with
    | none =>
      have : x = d := by simpa [runAll, u.ok.missing d ht, Step.andThen] using hx
      rw [this]; exact ⟨rfl, rfl⟩
    | some t =>
      obtain ⟨h1, h2, h3⟩ := u.ok.found d t ht
      have hsd := hs u List.mem_cons_self u List.mem_cons_self
      have hfirst : x ∈ (u.run d).seen →
          (runAll (u :: us) x).last = (runAll (u :: us) d).last ∧
          (runAll (u :: us) x).result = (runAll (u :: us) d).result := by
        intro hx
        have hx' : x u.src = some t ∧ x.put u.dst (u.fin t) = d.put u.dst (u.fin t) := by
          rcases h3 x hx with rfl | ⟨y, rfl⟩
          · exact ⟨ht, rfl⟩
          · exact ⟨by rw [put_other _ _ hsd, ht], put_put _ _ _ _⟩
        obtain ⟨k1, k2, -⟩ := u.ok.found x t hx'.1
        rw [hx'.2, ← h1] at k1
        rw [← h2] at k2
        unfold runAll Step.andThen
        rw [k2]
        cases hr : (u.run d).result with
        | error e => simp only [k1, k2, hr, and_self]
        | ok _ => simp only [k1, and_self]
      cases hr : (u.run d).result with
      | error e =>
        apply hfirst
        unfold runAll Step.andThen at hx
        simpa only [hr] using hx
      | ok _ =>
        have hx' := hx
        unfold runAll Step.andThen at hx'
        simp only [hr, List.mem_append] at hx'
        rcases hx' with hx' | hx'
        · exact hfirst hx'
        · have hkeep : ∀ p, (∀ v ∈ us, p ≠ v.dst) → x p = (u.run d).last p :=
            runAll_frame us _ x (Or.inl hx')
          have e1 : x u.src = some t := by
            rw [hkeep _ fun v hv => hs u List.mem_cons_self v (List.mem_cons_of_mem _ hv), h1, put_other _ _ hsd, ht]
          have e2 : x u.dst = some (u.fin t) := by
            rw [hkeep _ fun v hv => hd.1 v hv, h1, put_same]
          have e3 : x.put u.dst (u.fin t) = x := by
            funext q
            by_cases hq : q = u.dst
            · rw [hq, put_same, e2]
            · exact put_other _ _ hq
          obtain ⟨k1, k2, -⟩ := u.ok.found x t e1
          rw [e3] at k1
          rw [← h2, hr] at k2
          obtain ⟨i1, i2⟩ := ih _ x hx'
          unfold runAll Step.andThen
          simp only [k2, hr, k1]
          exact ⟨i1, i2⟩

private def three (root name : Str) (nip : Nat) : List One :=
  [⟨_, _, _, _, _, clean_unit root (pntheffOut name) c!"PNTHEFF"⟩,
   ⟨_, _, _, _, _, clean_unit root (couplingOut name) couplingIn⟩,
   ⟨_, _, _, _, _, nip_unit root (vibronOut name) (vibronIn name) nip⟩]

private theorem parse_three (root name : Str) (nip : Nat) (d : Files) :
    (runAll (three root name nip) d).last = (parsePrepVibron root name nip d).last ∧
    (runAll (three root name nip) d).result = (parsePrepVibron root name nip d).result ∧
    ∀ x ∈ (parsePrepVibron root name nip d).seen, x ∈ (runAll (three root name nip) d).seen := by
  rw [parse_eq]
  simp only [three, runAll]
  have key : ∀ (s : Step) (f g : Files → Step), (∀ d, (f d).last = (g d).last ∧ (f d).result = (g d).result ∧
      ∀ x ∈ (g d).seen, x ∈ (f d).seen) →
      (s.andThen f).last = (s.andThen g).last ∧ (s.andThen f).result = (s.andThen g).result ∧
      ∀ x ∈ (s.andThen g).seen, x ∈ (s.andThen f).seen := by
    intro s f g h
    unfold Step.andThen
    cases s.result with
    | error e => exact ⟨rfl, rfl, fun _ h => h⟩
    | ok _ =>
      obtain ⟨h1, h2, h3⟩ := h s.last
      refine ⟨h1, h2, fun x hx => ?_⟩
      rcases List.mem_append.1 hx with hx | hx
      · exact List.mem_append_left _ hx
      · exact List.mem_append_right _ (h3 x hx)
  refine key _ _ _ fun d => key _ _ _ fun d => ?_
  generalize (copyOutput root (vibronOut name) (vibronIn name) d).andThen _ = s
  unfold Step.andThen
  cases hs : s.result with
  | error e => exact ⟨rfl, hs, fun _ h => h⟩
  | ok _ => exact ⟨rfl, by simp, fun x hx => List.mem_append_left _ hx⟩

private theorem lasts (root name : Str) :
    (join root (pntheffOut name)).getLast? = some 'f' ∧ (join root (couplingOut name)).getLast? = some 'g' ∧
    (join root (vibronOut name)).getLast? = some 't' ∧ (join root c!"PNTHEFF").getLast? = some 'F' ∧
    (join root couplingIn).getLast? = some 'o' ∧ (join root (vibronIn name)).getLast? = some 'n' :=
  ⟨last_of (last_append _ _ (by decide)), last_of (last_append _ _ (by decide)), last_of (last_append _ _ (by decide)),
    last_of (by decide), last_of (by decide), last_of (last_append _ _ (by decide))⟩

private theorem three_apart (root name : Str) (nip : Nat) :
    (three root name nip).Pairwise (fun u v => u.dst ≠ v.dst) ∧
    ∀ u ∈ three root name nip, ∀ v ∈ three root name nip, u.src ≠ v.dst := by
  obtain ⟨a, b, c, d, e, f⟩ := lasts root name
  constructor
  · simp only [three, List.pairwise_cons, List.mem_cons, List.not_mem_nil, or_false, forall_eq_or_imp, forall_eq,
      false_implies, implies_true, and_true, List.Pairwise.nil]
    exact ⟨⟨ne_of_last d e (by decide), ne_of_last d f (by decide)⟩, ne_of_last e f (by decide)⟩
  · simp only [three, List.mem_cons, List.not_mem_nil, or_false, forall_eq_or_imp, forall_eq]
    exact ⟨⟨ne_of_last a d (by decide), ne_of_last a e (by decide), ne_of_last a f (by decide)⟩,
      ⟨ne_of_last b d (by decide), ne_of_last b e (by decide), ne_of_last b f (by decide)⟩,
      ne_of_last c d (by decide), ne_of_last c e (by decide), ne_of_last c f (by decide)⟩

private theorem clean_kept {t kept : Str} (h : KeptFrom heffTarget t kept) : removeExtraHeff heffTarget t = .ok kept := by
  obtain ⟨pre, hp, hb, hn, hin⟩ := h
  have hk : heffTarget <:+: kept := hin.trans (List.takeWhile_prefix _).isInfix
  have ht : heffTarget <:+: t := hp ▸ hk.trans (List.suffix_append _ _).isInfix
  cases hr : removeExtraHeff heffTarget t with
  | error e => exact absurd ht ((Buffer.C66_rejected heffTarget t (by decide)).1.1 ⟨e, hr⟩)
  | ok out =>
    obtain ⟨pre2, hp2, hb2, hn2, hin2⟩ := Buffer.C66_kept heffTarget t out (by decide) hr
    have hn2 : ¬ heffTarget <:+: pre2 := fun h => hn2 ⟨by decide, h⟩
    have key : ∀ (p k q l : Str), p ++ k = q ++ l → (q = [] ∨ q.getLast? = some '\n') → ¬ heffTarget <:+: q →
        heffTarget <:+: k.takeWhile (· ≠ '\n') → q.length ≤ p.length := by
      intro p k q l he hq hnq hk
      by_contra hlt
      rcases hq with rfl | hq
      · simp at hlt
      obtain ⟨x, hx⟩ : p <+: q :=
        List.prefix_of_prefix_length_le (List.prefix_append p k) (he ▸ List.prefix_append q l) (by omega)
      subst hx
      have he' : k = x ++ l := by simpa using he
      have hxne : x ≠ [] := by rintro rfl; simp at hlt
      have hxl : x.getLast? = some '\n' := by
        rw [List.getLast?_append] at hq
        cases hg : x.getLast? with
        | none => exact absurd (List.getLast?_eq_none_iff.1 hg) hxne
        | some c => rw [hg] at hq; exact hq
      apply hnq
      have : k.takeWhile (· ≠ '\n') = x.takeWhile (· ≠ '\n') := by
        rw [he', List.takeWhile_append, if_neg]
        intro hlen
        have hall : x.takeWhile (· ≠ '\n') = x := (List.takeWhile_prefix _).eq_of_length hlen
        have := (List.takeWhile_eq_self_iff.mp hall) '\n' (List.mem_of_getLast? hxl)
        simp at this
      rw [this] at hk
      exact hk.trans ((List.takeWhile_prefix _).isInfix.trans (List.suffix_append p x).isInfix)
    have l1 := key pre kept pre2 out (hp ▸ hp2) hb2 hn2 hin
    have l2 := key pre2 out pre kept (hp2 ▸ hp) hb hn hin2
    have : pre = pre2 ∧ kept = out := List.append_inj (hp.symm.trans hp2) (by omega)
    rw [this.2]

/-! ### C103 -/

/-- C103: when the three outputs are there, have the expected marks and the number of states has at most five
digits, the inputs of the vibronic calculation are the two cleaned outputs and the third output with the number in
its place; the outputs and all other files are as before. -/
theorem C103_inputs (root name : Str) (nip : Nat) (hn : nip < 100000) (d : Files) (p c v p' c' v' : Str)
    (hp : d (join root (name ++ c!"_prepvib.pntheff")) = some p)
    (hc : d (join root (name ++ c!"_prepvib.vibronic_coupling")) = some c)
    (hv : d (join root (name ++ c!"_prepvib.vibron_input")) = some v)
    (hp' : KeptFrom c!"HEFF_IP2" p p') (hc' : KeptFrom c!"HEFF_IP2" c c') (hv' : NumberIn nip v v') :
    (parsePrepVibron root name nip d).result = .ok () ∧
    (parsePrepVibron root name nip d).last (join root c!"PNTHEFF") = some p' ∧
    (parsePrepVibron root name nip d).last (join root c!"cp.auto") = some c' ∧
    (parsePrepVibron root name nip d).last (join root (name ++ c!"_vibron.in")) = some v' ∧
    ∀ q, q ∉ inputs root name → (parsePrepVibron root name nip d).last q = d q := by
  obtain ⟨hd, hs⟩ := three_apart root name nip
  obtain ⟨e1, e2, -⟩ := parse_three root name nip d
  rw [← e1, ← e2]
  obtain ⟨a1, a2, a3, a4, a5, a6⟩ := lasts root name
  have hcl1 : cleanFin p = p' ∧ cleanRes p = .ok () := by simp [cleanFin, cleanRes, clean_kept hp', Except.map]
  have hcl2 : cleanFin c = c' ∧ cleanRes c = .ok () := by simp [cleanFin, cleanRes, clean_kept hc', Except.map]
  have hnp : addNip nip v = (v', .ok ()) := by
    obtain ⟨a, b, h1, h2, h3, h4⟩ := hv'
    rw [h4]
    exact Buffer.C67_written nip v a b hn h2 (by rw [← h1]; exact h3) h1
  obtain ⟨u1, u2, -⟩ := (clean_unit root (pntheffOut name) c!"PNTHEFF").found d p hp
  rw [hcl1.2] at u2
  rw [hcl1.1] at u1
  have hc2 : (d.put (join root c!"PNTHEFF") p') (join root (couplingOut name)) = some c := by
    rw [put_other _ _ (ne_of_last a2 a4 (by decide))]; exact hc
  obtain ⟨w1, w2, -⟩ := (clean_unit root (couplingOut name) couplingIn).found _ c hc2
  rw [hcl2.2] at w2
  rw [hcl2.1] at w1
  have hv2 : ((d.put (join root c!"PNTHEFF") p').put (join root couplingIn) c') (join root (vibronOut name)) = some v := by
    rw [put_other _ _ (ne_of_last a3 a5 (by decide)), put_other _ _ (ne_of_last a3 a4 (by decide))]; exact hv
  obtain ⟨x1, x2, -⟩ := (nip_unit root (vibronOut name) (vibronIn name) nip).found _ v hv2
  simp only [hnp] at x1 x2
  have hl : (runAll (three root name nip) d).last =
      ((d.put (join root c!"PNTHEFF") p').put (join root couplingIn) c').put (join root (vibronIn name)) v' ∧
      (runAll (three root name nip) d).result = .ok () := by
    simp only [three, runAll]
    simp only [Step.andThen] at u1 u2 w1 w2 x1 x2 ⊢
    simp only [u1, u2, w1, w2, x1, x2, and_self]
  rw [hl.1, hl.2]
  refine ⟨rfl, ?_, ?_, ?_, ?_⟩
  · rw [put_other _ _ (ne_of_last a4 a6 (by decide)), put_other _ _ (ne_of_last a4 a5 (by decide)), put_same]
  · exact (put_other _ _ (ne_of_last a5 a6 (by decide))).trans (put_same _ _ _)
  · exact put_same _ _ _
  · intro q hq
    simp only [inputs, List.mem_cons, List.not_mem_nil, or_false, not_or] at hq
    exact (put_other _ _ hq.2.2).trans ((put_other _ _ hq.2.1).trans (put_other _ _ hq.1))

/-- C103: interrupted anywhere (within a copy, within the cleaning, within the writing of the number), the step can be
repeated: it ends with the same files and the same outcome as the undisturbed step. -/
theorem C103_repeated (root name : Str) (nip : Nat) (d x : Files) (hx : x ∈ (parsePrepVibron root name nip d).seen) :
    (parsePrepVibron root name nip x).last = (parsePrepVibron root name nip d).last ∧
    (parsePrepVibron root name nip x).result = (parsePrepVibron root name nip d).result := by
  obtain ⟨hd, hs⟩ := three_apart root name nip
  obtain ⟨e1, e2, e3⟩ := parse_three root name nip d
  obtain ⟨f1, f2, -⟩ := parse_three root name nip x
  rw [← e1, ← e2, ← f1, ← f2]
  exact runAll_again _ hd hs d x (e3 x hx)

/-- C103: at every moment, and whatever the outcome, every file but the three inputs is as before, in particular the
outputs of the coupling calculation. -/
theorem C103_outputs_kept (root name : Str) (nip : Nat) (d x : Files)
    (hx : x ∈ (parsePrepVibron root name nip d).seen ∨ x = (parsePrepVibron root name nip d).last) (q : Str)
    (hq : q ∉ inputs root name) : x q = d q := by
  obtain ⟨e1, -, e3⟩ := parse_three root name nip d
  refine runAll_frame (three root name nip) d x (hx.imp (e3 x) fun h => h.trans e1.symm) q ?_
  simp only [inputs, List.mem_cons, List.not_mem_nil, or_false, not_or] at hq
  simp only [three, List.mem_cons, List.not_mem_nil, or_false, forall_eq_or_imp, forall_eq]
  exact ⟨hq.1, hq.2.1, hq.2.2⟩

/-- The outputs are not among the inputs. -/
theorem sources_apart (root name : Str) : ∀ q ∈ sources root name, q ∉ inputs root name := by
  obtain ⟨a1, a2, a3, a4, a5, a6⟩ := lasts root name
  simp only [sources, inputs, List.mem_cons, List.not_mem_nil, or_false, not_or, forall_eq_or_imp, forall_eq]
  exact ⟨⟨ne_of_last a1 a4 (by decide), ne_of_last a1 a5 (by decide), ne_of_last a1 a6 (by decide)⟩,
      ⟨ne_of_last a2 a4 (by decide), ne_of_last a2 a5 (by decide), ne_of_last a2 a6 (by decide)⟩,
      ne_of_last a3 a4 (by decide), ne_of_last a3 a5 (by decide), ne_of_last a3 a6 (by decide)⟩

/-- C103: when an output is missing the step fails; it does not touch the input made from it. -/
theorem C103_missing (root name : Str) (nip : Nat) (d : Files) :
    (d (join root (name ++ c!"_prepvib.pntheff")) = none → (parsePrepVibron root name nip d).last = d ∧
      (parsePrepVibron root name nip d).result = .error .os) ∧
    (∀ q ∈ (sources root name).zip (inputs root name), d q.1 = none →
      (∃ e, (parsePrepVibron root name nip d).result = .error e) ∧
      (parsePrepVibron root name nip d).last q.2 = d q.2) := by
  obtain ⟨e1, e2, -⟩ := parse_three root name nip d
  obtain ⟨a1, a2, a3, a4, a5, a6⟩ := lasts root name
  rw [← e1, ← e2]
  have first : d (join root (pntheffOut name)) = none → (runAll (three root name nip) d).last = d ∧
      (runAll (three root name nip) d).result = .error .os := by
    intro h
    have := (clean_unit root (pntheffOut name) c!"PNTHEFF").missing d h
    simp only [Step.andThen] at this
    simp only [three, runAll, Step.andThen, this, and_self]
  have second : ∀ d : Files, d (join root (couplingOut name)) = none →
      (runAll (three root name nip).tail d).last = d ∧ (runAll (three root name nip).tail d).result = .error .os := by
    intro d h
    have := (clean_unit root (couplingOut name) couplingIn).missing d h
    simp only [Step.andThen] at this
    simp only [three, List.tail, runAll, Step.andThen, this, and_self]
  have third : ∀ d : Files, d (join root (vibronOut name)) = none →
      (runAll (three root name nip).tail.tail d).last = d ∧
      (runAll (three root name nip).tail.tail d).result = .error .os := by
    intro d h
    have := (nip_unit root (vibronOut name) (vibronIn name) nip).missing d h
    simp only [Step.andThen] at this
    simp only [three, List.tail, runAll, Step.andThen, this, and_self]
  -- one stage, whatever it does, keeps everything but its destination
  have stage : ∀ (u : One) (f : Files → Step) (d : Files) (q q' : Str), q ≠ u.dst → q' ≠ u.dst →
      (∀ d', d' q = none → (f d').last q' = d' q' ∧ ∃ e, (f d').result = .error e) → d q = none →
      ((u.run d).andThen f).last q' = d q' ∧ ∃ e, ((u.run d).andThen f).result = .error e := by
    intro u f d q q' hq hq' hf hn
    cases ht : d u.src with
    | none => rw [u.ok.missing d ht]; exact ⟨rfl, _, rfl⟩
    | some t =>
      obtain ⟨h1, -, -⟩ := u.ok.found d t ht
      unfold Step.andThen
      cases hr : (u.run d).result with
      | error e => exact ⟨by simp only [h1]; exact put_other _ _ hq', _, hr⟩
      | ok _ =>
        have hn' : (u.run d).last q = none := by rw [h1, put_other _ _ hq, hn]
        obtain ⟨k1, k2⟩ := hf _ hn'
        refine ⟨?_, k2⟩
        simp only [k1]
        rw [h1, put_other _ _ hq']
  refine ⟨first, ?_⟩
  simp only [sources, inputs, List.zip_cons_cons, List.zip_nil_right, List.mem_cons, List.not_mem_nil, or_false,
    forall_eq_or_imp, forall_eq]
  refine ⟨fun h => ?_, fun h => ?_, fun h => ?_⟩
  · obtain ⟨k1, k2⟩ := first h
    exact ⟨⟨_, k2⟩, by rw [k1]⟩
  · have := stage ⟨_, _, _, _, _, clean_unit root (pntheffOut name) c!"PNTHEFF"⟩ (runAll (three root name nip).tail) d
      (join root (couplingOut name)) (join root couplingIn) (ne_of_last a2 a4 (by decide)) (ne_of_last a5 a4 (by decide))
      (fun d' h' => ⟨by rw [(second d' h').1], _, (second d' h').2⟩) h
    exact ⟨this.2, this.1⟩
  · have := stage ⟨_, _, _, _, _, clean_unit root (pntheffOut name) c!"PNTHEFF"⟩ (runAll (three root name nip).tail) d
      (join root (vibronOut name)) (join root (vibronIn name)) (ne_of_last a3 a4 (by decide)) (ne_of_last a6 a4 (by decide))
      (fun d' h' => stage ⟨_, _, _, _, _, clean_unit root (couplingOut name) couplingIn⟩
        (runAll (three root name nip).tail.tail) d' (join root (vibronOut name)) (join root (vibronIn name))
        (ne_of_last a3 a5 (by decide)) (ne_of_last a6 a5 (by decide))
        (fun d'' h'' => ⟨by rw [(third d'' h'').1], _, (third d'' h'').2⟩) h') h
    exact ⟨this.2, this.1⟩

/-- C103: so the step can fail half-way with inputs of two different calculations: the first input is new, the
others are whatever was there before. -/
theorem C103_mixed_inputs (root name : Str) (nip : Nat) (d : Files) (p p' : Str)
    (hp : d (join root (name ++ c!"_prepvib.pntheff")) = some p) (hp' : KeptFrom c!"HEFF_IP2" p p')
    (hc : d (join root (name ++ c!"_prepvib.vibronic_coupling")) = none) :
    (parsePrepVibron root name nip d).result = .error .os ∧
    (parsePrepVibron root name nip d).last (join root c!"PNTHEFF") = some p' ∧
    (parsePrepVibron root name nip d).last (join root c!"cp.auto") = d (join root c!"cp.auto") := by
  obtain ⟨e1, e2, -⟩ := parse_three root name nip d
  obtain ⟨a1, a2, a3, a4, a5, a6⟩ := lasts root name
  rw [← e1, ← e2]
  have hcl1 : cleanFin p = p' ∧ cleanRes p = .ok () := by simp [cleanFin, cleanRes, clean_kept hp', Except.map]
  obtain ⟨u1, u2, -⟩ := (clean_unit root (pntheffOut name) c!"PNTHEFF").found d p hp
  rw [hcl1.2] at u2
  rw [hcl1.1] at u1
  have hc2 : (d.put (join root c!"PNTHEFF") p') (join root (couplingOut name)) = none := by
    rw [put_other _ _ (ne_of_last a2 a4 (by decide))]; exact hc
  have w := (clean_unit root (couplingOut name) couplingIn).missing _ hc2
  have hl : (runAll (three root name nip) d).last = d.put (join root c!"PNTHEFF") p' ∧
      (runAll (three root name nip) d).result = .error .os := by
    simp only [three, runAll]
    simp only [Step.andThen] at u1 u2 w ⊢
    simp only [u1, u2, w, and_self]
  rw [hl.1, hl.2]
  exact ⟨rfl, put_same _ _ _, put_other _ _ (ne_of_last a5 a4 (by decide))⟩

/-- Witness: the outputs of a molecule with two lines before the effective Hamiltonian. -/
example : KeptFrom c!"HEFF_IP2" c!"junk\nmore\n a HEFF_IP2 1\n2\n" c!" a HEFF_IP2 1\n2\n" ∧
    KeptFrom c!"HEFF_IP2" c!"HEFF_IP2\n" c!"HEFF_IP2\n" ∧
    NumberIn 12 c!"&in nip=xxx    /\n" (c!"&in nip=" ++ pad6 12 ++ c!" /\n") := by
  refine ⟨⟨c!"junk\nmore\n", by decide, Or.inr (by decide), by decide, by decide⟩,
    ⟨[], by decide, Or.inl rfl, by decide, by decide⟩, ⟨c!"&in nip=", c!"    /\n", by decide, by decide, by decide, rfl⟩⟩

/-- Witness: a step that is interrupted within the first copy can be seen. -/
example (d : Files) (h : d c!"r/m_prepvib.pntheff" = some c!"HEFF_IP2 1\n") :
    d.put c!"r/PNTHEFF" c!"HEFF" ∈ (parsePrepVibron c!"r" c!"m" 3 d).seen := by
  have hj : join c!"r" (pntheffOut c!"m") = c!"r/m_prepvib.pntheff" := by decide
  have hsub : ∀ (s : Step) (f : Files → Step) (x : Files), x ∈ s.seen → x ∈ (s.andThen f).seen := by
    intro s f x hx
    unfold Step.andThen
    split
    · exact hx
    · exact List.mem_append_left _ hx
  unfold parsePrepVibron
  refine hsub _ _ _ (hsub _ _ _ (hsub _ _ _ (hsub _ _ _ ?_)))
  rw [copy_found (hj ▸ h)]
  refine List.mem_cons_of_mem _ (List.mem_map.2 ⟨4, by decide, ?_⟩)
  rfl

end Pibronic.Props.Handover
