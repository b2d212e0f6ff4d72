import Verif.Spec.Results
import Mathlib.Order.Basic
import Mathlib.Algebra.Order.BigOperators.Group.List
import Mathlib.Algebra.Order.Group.Nat

set_option autoImplicit false

namespace Pibronic.Results
open Pibronic.Py Pibronic.Spec.Results

variable {V : Type}

theorem assignSlice_append {α : Type} (a b src : List α) (len : Nat) (hs : src.length = len)
    (hl : len ≤ b.length) :
    assignSlice (a ++ b) a.length len src = .ok (a ++ src ++ b.drop len) := by
  have h1 : min a.length (a.length + b.length) = a.length := by omega
  have h2 : min (a.length + len) (a.length + b.length) = a.length + len := by omega
  simp [assignSlice, h2, hs]

theorem assignSlice_overflow {α : Type} (a b src : List α) (len : Nat) (hs : src.length = len)
    (hl : b.length < len) (h1 : len ≠ 1) :
    assignSlice (a ++ b) a.length len src = .error .broadcast := by
  have h1 : min a.length (a.length + b.length) = a.length := by omega
  have h2 : min (a.length + len) (a.length + b.length) = a.length + b.length := by omega
  have h3 : src.length ≠ b.length := by omega
  simp only [assignSlice, List.length_append, h1, h2]
  rw [if_neg (by omega)]
  match src, hs with
  | [], _ => rfl
  | [x], hs => simp at hs; omega
  | _ :: _ :: _, _ => rfl

/-! ### block loops -/

/-- An output array after `i` blocks. -/
def filled (val : Nat → Nat → V) (B X i : Nat) : Arr V :=
  (List.range (i * B)).map (fun s => some (val (s / B) (s % B))) ++
    List.replicate (X - i * B) none

theorem filled_zero (val : Nat → Nat → V) (B X : Nat) :
    filled val B X 0 = List.replicate X none := by simp [filled]

theorem range_blocks (val : Nat → Nat → V) (B i : Nat) :
    (List.range ((i + 1) * B)).map (fun s => some (val (s / B) (s % B))) =
      (List.range (i * B)).map (fun s => some (val (s / B) (s % B))) ++ blockRow val B i := by
  rw [Nat.succ_mul, List.range_add, List.map_append, blockRow, List.map_map]
  congr 1
  apply List.map_congr_left
  intro j hj
  have hj : j < B := by simpa using hj
  have hB : 0 < B := by omega
  have h1 : (i * B + j) / B = i := by
    rw [Nat.mul_comm, Nat.mul_add_div hB, Nat.div_eq_of_lt hj]; rfl
  have h2 : (i * B + j) % B = j := by
    rw [Nat.mul_comm, Nat.mul_add_mod, Nat.mod_eq_of_lt hj]
  simp [h1, h2]

theorem assign_filled (val : Nat → Nat → V) (B X i : Nat) (h : (i + 1) * B ≤ X) :
    assignSlice (filled val B X i) (i * B) B (blockRow val B i) = .ok (filled val B X (i + 1)) := by
  have hlen : ((List.range (i * B)).map
      (fun s => some (val (s / B) (s % B)))).length = i * B := by simp
  have h' : i * B + B ≤ X := by rwa [Nat.succ_mul] at h
  have := assignSlice_append ((List.range (i * B)).map (fun s => some (val (s / B) (s % B))))
    (List.replicate (X - i * B) none) (blockRow val B i) B (by simp [blockRow])
    (by simp; omega)
  rw [hlen] at this
  rw [filled, this, filled, range_blocks]
  simp only [List.append_assoc, List.drop_replicate]
  rw [Nat.succ_mul, Nat.sub_sub]

/-- The arrays of a box after `i` blocks. -/
structure Filled (vals : BlockValues V) (X B i : Nat) (b : Box V) : Prop where
  rho : b.scaledRho = filled vals.rho B X i
  g : b.scaledG = filled vals.g B X i
  gP : b.cls = .pm → b.gofrPlus = filled vals.gP B X i
  gM : b.cls = .pm → b.gofrMinus = filled vals.gM B X i

/-- `b'` differs from `b` at most in its arrays. -/
structure SameMeta (b b' : Box V) : Prop where
  cls : b'.cls = b.cls
  samples : b'.samples = b.samples
  partialName : b'.partialName = b.partialName
  idJob : b'.idJob = b.idJob
  pathRoot : b'.pathRoot = b.pathRoot
  hashVib : b'.hashVib = b.hashVib
  hashRho : b'.hashRho = b.hashRho

theorem SameMeta.refl (b : Box V) : SameMeta b b := ⟨rfl, rfl, rfl, rfl, rfl, rfl, rfl⟩
theorem SameMeta.trans {a b c : Box V} (h : SameMeta a b) (k : SameMeta b c) : SameMeta a c :=
  ⟨k.1.trans h.1, k.2.trans h.2, k.3.trans h.3, k.4.trans h.4, k.5.trans h.5, k.6.trans h.6,
    k.7.trans h.7⟩

theorem blockStep_ok (vals : BlockValues V) (X B i : Nat) (b : Box V) (h : (i + 1) * B ≤ X)
    (hb : Filled vals X B i b) :
    ∃ b', blockStep vals X B i b = .ok b' ∧ SameMeta b b' ∧ Filled vals X B (i + 1) b' := by
  have h' : i * B + B ≤ X := by rwa [Nat.succ_mul] at h
  have hrows : min ((i + 1) * B) X - min (i * B) X = B := by
    rw [Nat.succ_mul]; omega
  have hr := assign_filled vals.rho B X i h
  have hg := assign_filled vals.g B X i h
  have hp := assign_filled vals.gP B X i h
  have hm := assign_filled vals.gM B X i h
  by_cases hc : b.cls = .pm
  · refine ⟨{ b with
      scaledRho := filled vals.rho B X (i + 1), scaledG := filled vals.g B X (i + 1)
      gofrPlus := filled vals.gP B X (i + 1), gofrMinus := filled vals.gM B X (i + 1) }, ?_,
      ⟨rfl, rfl, rfl, rfl, rfl, rfl, rfl⟩, ⟨rfl, rfl, fun _ => rfl, fun _ => rfl⟩⟩
    simp [blockStep, hrows, bind, Except.bind, hb.rho, hb.g, hr, hg, hc, hb.gP hc, hb.gM hc, hp,
      hm]
  · refine ⟨{ b with
      scaledRho := filled vals.rho B X (i + 1), scaledG := filled vals.g B X (i + 1) }, ?_,
      ⟨rfl, rfl, rfl, rfl, rfl, rfl, rfl⟩, ⟨rfl, rfl, fun k => absurd k hc, fun k => absurd k hc⟩⟩
    simp [blockStep, hrows, bind, Except.bind, hb.rho, hb.g, hr, hg, hc]

theorem blockLoop_ok (vals : BlockValues V) (X B : Nat) (k : Nat) :
    ∀ (i : Nat) (b : Box V), (i + k) * B ≤ X → Filled vals X B i b →
    ∃ b', blockLoop vals X B i k b = .ok b' ∧ SameMeta b b' ∧ Filled vals X B (i + k) b' := by
  induction k with
  | zero => intro i b _ hb; exact ⟨b, rfl, .refl b, hb⟩
  | succ k ih =>
    intro i b h hb
    have h1 : (i + 1) * B ≤ X :=
      le_trans (Nat.mul_le_mul_right B (by omega)) h
    obtain ⟨b1, e1, m1, f1⟩ := blockStep_ok vals X B i b h1 hb
    obtain ⟨b2, e2, m2, f2⟩ := ih (i + 1) b1 (by rwa [Nat.add_assoc, Nat.add_comm 1 k]) f1
    refine ⟨b2, ?_, m1.trans m2, ?_⟩
    · simp [blockLoop, bind, Except.bind, e1, e2]
    · rwa [Nat.add_assoc, Nat.add_comm 1 k] at f2

theorem blockStep_overflow (vals : BlockValues V) (X B i : Nat) (b : Box V)
    (h : X < (i + 1) * B) (hi : i * B ≤ X) (hb : Filled vals X B i b) :
    blockStep vals X B i b = .error .broadcast := by
  have h' : X < i * B + B := by rwa [Nat.succ_mul] at h
  have hrows : min ((i + 1) * B) X - min (i * B) X = X - i * B := by
    rw [Nat.succ_mul]; omega
  simp only [blockStep, hrows, bind, Except.bind]
  by_cases h1 : X - i * B ≠ B ∧ X - i * B ≠ 1
  · rw [if_pos h1]
  · rw [if_neg h1]
    have hone : X - i * B = 1 := by
      by_contra hne; exact h1 ⟨by omega, hne⟩
    have hlen : ((List.range (i * B)).map
      (fun s => some (vals.rho (s / B) (s % B)))).length = i * B := by simp
    have := assignSlice_overflow ((List.range (i * B)).map
      (fun s => some (vals.rho (s / B) (s % B))))
      (List.replicate (X - i * B) none) (blockRow vals.rho B i) B (by simp [blockRow])
      (by simp; omega) (by omega)
    rw [hlen] at this
    rw [hb.rho, filled, this]

theorem blockLoop_overflow (vals : BlockValues V) (X B : Nat) (k : Nat) :
    ∀ (i : Nat) (b : Box V), i * B ≤ X → X < (i + k) * B → Filled vals X B i b →
    blockLoop vals X B i k b = .error .broadcast := by
  induction k with
  | zero => intro i b h h' _; simp at h'; omega
  | succ k ih =>
    intro i b h h' hb
    by_cases h1 : (i + 1) * B ≤ X
    · obtain ⟨b1, e1, m1, f1⟩ := blockStep_ok vals X B i b h1 hb
      have := ih (i + 1) b1 h1 (by rwa [Nat.add_assoc, Nat.add_comm 1 k]) f1
      simp [blockLoop, bind, Except.bind, e1, this]
    · have := blockStep_overflow vals X B i b (by omega) h hb
      simp [blockLoop, bind, Except.bind, this]

/-! ### loading several files -/

theorem keysPresent_iff (cls : Cls) (f : ResultFile V) :
    keysPresent cls f = true ↔ Usable cls f := by
  cases cls <;> simp [keysPresent, Usable, Option.isSome_iff_exists, and_assoc]

theorem numberAt_of {d : Disk V} {p : Str} {f : ResultFile V} (h : d p = some f) :
    numberAt d p = f.number.getD 0 := by simp [numberAt, h]
theorem rhoAt_of {d : Disk V} {p : Str} {f : ResultFile V} (h : d p = some f) :
    rhoAt d p = f.rho.getD [] := by simp [rhoAt, h]
theorem gAt_of {d : Disk V} {p : Str} {f : ResultFile V} (h : d p = some f) :
    gAt d p = f.g.getD [] := by simp [gAt, h]
theorem gPAt_of {d : Disk V} {p : Str} {f : ResultFile V} (h : d p = some f) :
    gPAt d p = f.gP.getD [] := by simp [gPAt, h]
theorem gMAt_of {d : Disk V} {p : Str} {f : ResultFile V} (h : d p = some f) :
    gMAt d p = f.gM.getD [] := by simp [gMAt, h]

@[simp] theorem total_nil (d : Disk V) : total d [] = 0 := rfl
@[simp] theorem total_cons (d : Disk V) (p : Str) (l : List Str) :
    total d (p :: l) = numberAt d p + total d l := by simp [total]
@[simp] theorem total_append (d : Disk V) (l l' : List Str) :
    total d (l ++ l') = total d l + total d l' := by simp [total]

/-- The arrays stored at `p` all have the stated number of entries. -/
structure Sized (d : Disk V) (cls : Cls) (p : Str) : Prop where
  there : ∃ f, d p = some f
  rho : (rhoAt d p).length = numberAt d p
  g : (gAt d p).length = numberAt d p
  gP : cls = .pm → (gPAt d p).length = numberAt d p
  gM : cls = .pm → (gMAt d p).length = numberAt d p

theorem sized_of {d : Disk V} {cls : Cls} {p : Str} {f : ResultFile V} (h : d p = some f)
    (hu : Usable cls f) (hw : WellFormed f) : Sized d cls p := by
  obtain ⟨⟨n, hn⟩, ⟨r, hr⟩, ⟨g, hg⟩, hpm⟩ := hu
  obtain ⟨w1, w2, w3, w4⟩ := hw n hn
  refine ⟨⟨f, h⟩, ?_, ?_, ?_, ?_⟩
  · simp [rhoAt, numberAt, h, hr, hn, w1 r hr]
  · simp [gAt, numberAt, h, hg, hn, w2 g hg]
  · intro hc
    obtain ⟨⟨a, ha⟩, _⟩ := hpm hc
    simp [gPAt, numberAt, h, ha, hn, w3 a ha]
  · intro hc
    obtain ⟨_, ⟨a, ha⟩⟩ := hpm hc
    simp [gMAt, numberAt, h, ha, hn, w4 a ha]

/-- The box's arrays are the given lists, padded with NaN up to `N` entries. -/
structure Padded (b : Box V) (N start : Nat) (dr dg dp dm : Arr V) : Prop where
  lr : dr.length = start
  lg : dg.length = start
  lp : b.cls = .pm → dp.length = start
  lm : b.cls = .pm → dm.length = start
  rho : b.scaledRho = dr ++ List.replicate (N - start) none
  g : b.scaledG = dg ++ List.replicate (N - start) none
  gP : b.cls = .pm → b.gofrPlus = dp ++ List.replicate (N - start) none
  gM : b.cls = .pm → b.gofrMinus = dm ++ List.replicate (N - start) none

/-- The box's arrays are exactly the given lists. -/
structure Exactly (b : Box V) (dr dg dp dm : Arr V) : Prop where
  rho : b.scaledRho = dr
  g : b.scaledG = dg
  gP : b.cls = .pm → b.gofrPlus = dp
  gM : b.cls = .pm → b.gofrMinus = dm

section
variable [Zero V] [DecidableEq V]

theorem anyZero_false {a : Arr V} (h : some 0 ∉ a) : anyZero a = false := by
  simp only [anyZero, List.any_eq_false, beq_iff_eq]
  intro x hx e; exact h (e ▸ hx)

theorem anyZero_true {a : Arr V} (h : some 0 ∈ a) : anyZero a = true := by
  simp only [anyZero, List.any_eq_true, beq_iff_eq]
  exact ⟨_, h, rfl⟩

/-- One file fits. -/
theorem copy_step (d : Disk V) (desired N : Nat) (p : Str) (rest : List Str) (start len : Nat)
    (b : Box V) (dr dg dp dm : Arr V) (hs : Sized d b.cls p) (hst : start < desired)
    (hlen : len = min (numberAt d p) desired) (hfit : start + len ≤ N)
    (hz : some 0 ∉ (rhoAt d p).take len) (hb : Padded b N start dr dg dp dm) :
    ∃ b', copyLoop d desired (p :: rest) start b = copyLoop d desired rest (start + len) b' ∧
      SameMeta b b' ∧ Padded b' N (start + len) (dr ++ (rhoAt d p).take len)
        (dg ++ (gAt d p).take len) (dp ++ (gPAt d p).take len) (dm ++ (gMAt d p).take len) := by
  obtain ⟨f, hf⟩ := hs.there
  have hn : len ≤ numberAt d p := by omega
  have key : ∀ (done src : Arr V), done.length = start → src.length = numberAt d p →
      assignSlice (done ++ List.replicate (N - start) none) start len (src.take len) =
        .ok ((done ++ src.take len) ++ List.replicate (N - (start + len)) none) := by
    intro done src h1 h2
    have := assignSlice_append done (List.replicate (N - start) none) (src.take len) len
      (by simp; omega) (by simp; omega)
    rw [h1] at this
    rw [this, List.drop_replicate, Nat.sub_sub]
  have hr := key dr _ hb.lr hs.rho
  have hg := key dg _ hb.lg hs.g
  have hnz := anyZero_false hz
  rw [rhoAt_of hf] at hr hnz ⊢
  rw [gAt_of hf] at hg ⊢
  rw [gPAt_of hf, gMAt_of hf]
  rw [numberAt_of hf] at hlen hn
  by_cases hc : b.cls = .pm
  · have hp := key dp _ (hb.lp hc) (hs.gP hc)
    have hm := key dm _ (hb.lm hc) (hs.gM hc)
    rw [gPAt_of hf] at hp
    rw [gMAt_of hf] at hm
    refine ⟨{ b with
      scaledRho := dr ++ (f.rho.getD []).take len ++ List.replicate (N - (start + len)) none
      scaledG := dg ++ (f.g.getD []).take len ++ List.replicate (N - (start + len)) none
      gofrPlus := dp ++ (f.gP.getD []).take len ++ List.replicate (N - (start + len)) none
      gofrMinus := dm ++ (f.gM.getD []).take len ++ List.replicate (N - (start + len)) none }, ?_,
      ⟨rfl, rfl, rfl, rfl, rfl, rfl, rfl⟩,
      ⟨?_, ?_, fun _ => ?_, fun _ => ?_, rfl, rfl, fun _ => rfl, fun _ => rfl⟩⟩
    · simp [copyLoop, not_le.2 hst, hf, ← hlen, hnz, bind, Except.bind, hb.g, hg, hb.rho, hr, hc,
        hb.gP hc, hp, hb.gM hc, hm]
    · have := hs.rho; rw [rhoAt_of hf, numberAt_of hf] at this; simp [hb.lr]; omega
    · have := hs.g; rw [gAt_of hf, numberAt_of hf] at this; simp [hb.lg]; omega
    · have := hs.gP hc; rw [gPAt_of hf, numberAt_of hf] at this; simp [hb.lp hc]; omega
    · have := hs.gM hc; rw [gMAt_of hf, numberAt_of hf] at this; simp [hb.lm hc]; omega
  · refine ⟨{ b with
      scaledRho := dr ++ (f.rho.getD []).take len ++ List.replicate (N - (start + len)) none
      scaledG := dg ++ (f.g.getD []).take len ++ List.replicate (N - (start + len)) none }, ?_,
      ⟨rfl, rfl, rfl, rfl, rfl, rfl, rfl⟩,
      ⟨?_, ?_, fun k => absurd k hc, fun k => absurd k hc, rfl, rfl, fun k => absurd k hc,
        fun k => absurd k hc⟩⟩
    · simp [copyLoop, not_le.2 hst, hf, ← hlen, hnz, bind, Except.bind, hb.g, hg, hb.rho, hr, hc]
    · have := hs.rho; rw [rhoAt_of hf, numberAt_of hf] at this; simp [hb.lr]; omega
    · have := hs.g; rw [gAt_of hf, numberAt_of hf] at this; simp [hb.lg]; omega

theorem copy_stop (d : Disk V) (desired : Nat) (l : List Str) (start : Nat) (b : Box V)
    (h : desired ≤ start) : copyLoop d desired l start b = .ok b := by
  cases l with
  | nil => rfl
  | cons p l => simp [copyLoop, h]

/-- The limit falls strictly inside a file after `start` samples were read. -/
def Bad (d : Disk V) (desired start : Nat) (order : List Str) : Prop :=
  ∃ before p after, order = before ++ p :: after ∧ 0 < start + total d before ∧
    start + total d before < desired ∧ desired < start + total d before + numberAt d p

theorem copy_ok (d : Disk V) (desired N : Nat) : ∀ (order : List Str) (start : Nat) (b : Box V)
    (dr dg dp dm : Arr V), (∀ p ∈ order, Sized d b.cls p) → (∀ p ∈ order, some 0 ∉ rhoAt d p) →
    start ≤ desired → N = min desired (start + total d order) → ¬ Bad d desired start order →
    Padded b N start dr dg dp dm →
    ∃ b', copyLoop d desired order start b = .ok b' ∧ SameMeta b b' ∧
      Exactly b' ((dr ++ order.flatMap (rhoAt d)).take desired)
        ((dg ++ order.flatMap (gAt d)).take desired) ((dp ++ order.flatMap (gPAt d)).take desired)
        ((dm ++ order.flatMap (gMAt d)).take desired) := by
  intro order
  induction order with
  | nil =>
    intro start b dr dg dp dm _ _ hst hN _ hb
    refine ⟨b, rfl, .refl b, ?_⟩
    have : N = start := by simp at hN; omega
    refine ⟨?_, ?_, fun hc => ?_, fun hc => ?_⟩
    · simp [hb.rho, this]; rw [hb.lr]; omega
    · simp [hb.g, this]; rw [hb.lg]; omega
    · simp [hb.gP hc, this]; rw [hb.lp hc]; omega
    · simp [hb.gM hc, this]; rw [hb.lm hc]; omega
  | cons p rest ih =>
    intro start b dr dg dp dm hs hz hst hN hbad hb
    rw [total_cons] at hN
    rcases Nat.lt_or_ge start desired with hlt | hge
    · have hs0 := hs p List.mem_cons_self
      by_cases hov : start + numberAt d p ≤ desired
      · -- the whole file fits
        have hlen : numberAt d p = min (numberAt d p) desired := by omega
        obtain ⟨b1, e1, m1, p1⟩ := copy_step d desired N p rest start _ b dr dg dp dm hs0 hlt hlen
          (by omega) (fun hm => hz p List.mem_cons_self (List.mem_of_mem_take hm)) hb
        have ht : ∀ (a : Arr V), a.length = numberAt d p → a.take (numberAt d p) = a :=
          fun a ha => List.take_of_length_le (by omega)
        obtain ⟨b2, e2, m2, x2⟩ := ih (start + numberAt d p) b1 _ _ _ _
          (fun q hq => by rw [m1.cls]; exact hs q (List.mem_cons_of_mem _ hq))
          (fun q hq => hz q (List.mem_cons_of_mem _ hq)) hov (by omega)
          (by
            rintro ⟨before, q, after, rfl, h1, h2, h3⟩
            exact hbad ⟨p :: before, q, after, rfl, by simp; omega, by simp; omega,
              by simp; omega⟩) p1
        refine ⟨b2, by rw [e1, e2], m1.trans m2, ?_⟩
        have hc2 : b2.cls = b.cls := (m1.trans m2).cls
        refine ⟨?_, ?_, fun hc => ?_, fun hc => ?_⟩
        · rw [x2.rho, ht _ hs0.rho]; simp
        · rw [x2.g, ht _ hs0.g]; simp
        · rw [x2.gP hc, ht _ (hs0.gP (hc2 ▸ hc))]; simp
        · rw [x2.gM hc, ht _ (hs0.gM (hc2 ▸ hc))]; simp
      · -- the limit lies inside this file: it must be the first one with samples
        have h0 : start = 0 := by
          by_contra hne
          exact hbad ⟨[], p, rest, rfl, by simp; omega, by simpa using hlt, by simp; omega⟩
        subst h0
        have hlen : desired = min (numberAt d p) desired := by omega
        obtain ⟨b1, e1, m1, p1⟩ := copy_step d desired N p rest 0 _ b dr dg dp dm hs0 hlt hlen
          (by omega) (fun hm => hz p List.mem_cons_self (List.mem_of_mem_take hm)) hb
        refine ⟨b1, by rw [e1, copy_stop _ _ _ _ _ (by omega)], m1, ?_⟩
        have hN' : N - (0 + desired) = 0 := by omega
        have hd : ∀ (done a r : Arr V), done.length = 0 → a.length = numberAt d p →
            done ++ a.take desired ++ List.replicate (N - (0 + desired)) none =
              (done ++ (a ++ r)).take desired := by
          intro done a r h1 h2
          have := List.length_eq_zero_iff.1 h1
          subst this
          simp only [hN', List.nil_append, List.replicate_zero, List.append_nil]
          rw [List.take_append_of_le_length (by omega)]
        refine ⟨?_, ?_, fun hc => ?_, fun hc => ?_⟩
        · rw [p1.rho, List.flatMap_cons]; exact hd _ _ _ hb.lr hs0.rho
        · rw [p1.g, List.flatMap_cons]; exact hd _ _ _ hb.lg hs0.g
        · rw [p1.gP hc, List.flatMap_cons]
          exact hd _ _ _ (hb.lp (m1.cls ▸ hc)) (hs0.gP (m1.cls ▸ hc))
        · rw [p1.gM hc, List.flatMap_cons]
          exact hd _ _ _ (hb.lm (m1.cls ▸ hc)) (hs0.gM (m1.cls ▸ hc))
    · refine ⟨b, copy_stop _ _ _ _ _ hge, .refl b, ?_⟩
      have hd : desired = start := by omega
      have hN' : N - start = 0 := by omega
      subst hd
      have hk : ∀ (done r : Arr V), done.length = desired →
          done ++ List.replicate (N - desired) none = (done ++ r).take desired := by
        intro done r h
        rw [hN', ← h]; simp
      exact ⟨by rw [hb.rho]; exact hk _ _ hb.lr, by rw [hb.g]; exact hk _ _ hb.lg,
        fun hc => by rw [hb.gP hc]; exact hk _ _ (hb.lp hc),
        fun hc => by rw [hb.gM hc]; exact hk _ _ (hb.lm hc)⟩

/-- The limit falls inside a later file: numpy refuses the assignment. -/
theorem copy_bad (d : Disk V) (desired N : Nat) : ∀ (order : List Str) (start : Nat) (b : Box V)
    (dr dg dp dm : Arr V), (∀ p ∈ order, Sized d b.cls p) → (∀ p ∈ order, some 0 ∉ rhoAt d p) →
    start ≤ desired → N = min desired (start + total d order) → Bad d desired start order →
    Padded b N start dr dg dp dm →
    copyLoop d desired order start b = .error .broadcast := by
  intro order
  induction order with
  | nil => rintro start b dr dg dp dm _ _ _ _ ⟨before, p, after, h, _⟩; simp at h
  | cons p rest ih =>
    rintro start b dr dg dp dm hs hz hst hN ⟨before, q, after, heq, h1, h2, h3⟩ hb
    rw [total_cons] at hN
    have hs0 := hs p List.mem_cons_self
    cases before with
    | nil =>
      simp only [List.nil_append, List.cons.injEq] at heq
      obtain ⟨rfl, rfl⟩ := heq
      simp only [total_nil, Nat.add_zero] at h1 h2 h3
      obtain ⟨f, hf⟩ := hs0.there
      have hnz := anyZero_false (a := ((rhoAt d p).take (min (numberAt d p) desired)))
        (fun hm => hz p List.mem_cons_self (List.mem_of_mem_take hm))
      have hg0 := hs0.g
      have hov := assignSlice_overflow dg (List.replicate (N - start) none)
        ((gAt d p).take (min (numberAt d p) desired)) (min (numberAt d p) desired)
        (by simp; omega) (by simp; omega) (by omega)
      rw [hb.lg] at hov
      rw [rhoAt_of hf] at hnz
      rw [gAt_of hf] at hov
      rw [numberAt_of hf] at hnz hov
      simp [copyLoop, not_le.2 h2, hf, hnz, bind, Except.bind, hb.g, hov]
    | cons p' before =>
      simp only [List.cons_append, List.cons.injEq] at heq
      obtain ⟨rfl, rfl⟩ := heq
      rw [total_cons] at h1 h2 h3
      have hlen : numberAt d p = min (numberAt d p) desired := by omega
      obtain ⟨b1, e1, m1, p1⟩ := copy_step d desired N p (before ++ q :: after) start _ b dr dg dp dm
        hs0 (by omega) hlen (by omega)
        (fun hm => hz p List.mem_cons_self (List.mem_of_mem_take hm)) hb
      rw [e1]
      exact ih (start + numberAt d p) b1 _ _ _ _
        (fun q hq => by rw [m1.cls]; exact hs q (List.mem_cons_of_mem _ hq))
        (fun q hq => hz q (List.mem_cons_of_mem _ hq)) (by omega) (by omega)
        ⟨before, q, after, rfl, by omega, by omega, by omega⟩ p1

/-- A zero denominator is refused. -/
theorem copy_zero (d : Disk V) (N : Nat) : ∀ (order : List Str) (start : Nat) (b : Box V)
    (dr dg dp dm : Arr V), (∀ p ∈ order, Sized d b.cls p) → (∃ p ∈ order, some 0 ∈ rhoAt d p) →
    N = start + total d order → Padded b N start dr dg dp dm →
    copyLoop d N order start b = .error .assertion := by
  intro order
  induction order with
  | nil => rintro start b dr dg dp dm _ ⟨p, hp, _⟩; simp at hp
  | cons p rest ih =>
    rintro start b dr dg dp dm hs ⟨q, hq, hqz⟩ hN hb
    rw [total_cons] at hN
    have hs0 := hs p List.mem_cons_self
    have hpos : ∀ q ∈ p :: rest, some 0 ∈ rhoAt d q → 0 < numberAt d q := by
      intro q hq hm
      have h1 := (hs q hq).rho
      have h2 := List.length_pos_of_mem hm
      omega
    by_cases hpz : some 0 ∈ rhoAt d p
    · have hp := hpos p List.mem_cons_self hpz
      obtain ⟨f, hf⟩ := hs0.there
      have ht : (rhoAt d p).take (min (numberAt d p) N) = rhoAt d p :=
        List.take_of_length_le (by rw [hs0.rho]; omega)
      have hnz := anyZero_true (a := ((rhoAt d p).take (min (numberAt d p) N))) (by rwa [ht])
      rw [rhoAt_of hf, numberAt_of hf] at hnz
      have hlt : ¬ N ≤ start := by omega
      simp [copyLoop, hlt, hf, hnz]
    · have hq' : q ∈ rest := by
        rcases List.mem_cons.1 hq with rfl | h
        · exact absurd hqz hpz
        · exact h
      have hqpos := hpos q hq hqz
      have hle : numberAt d q ≤ total d rest := by
        rw [total]; exact List.single_le_sum (by simp) _ (List.mem_map_of_mem hq')
      have hlen : numberAt d p = min (numberAt d p) N := by omega
      obtain ⟨b1, e1, m1, p1⟩ := copy_step d N N p rest start _ b dr dg dp dm
        hs0 (by omega) hlen (by omega) (fun hm => hpz (List.mem_of_mem_take hm)) hb
      rw [e1]
      exact ih (start + numberAt d p) b1 _ _ _ _
        (fun q hq => by rw [m1.cls]; exact hs q (List.mem_cons_of_mem _ hq))
        ⟨q, hq', hqz⟩ (by omega) p1

end

/-- The first pass. -/
theorem scan_ok (d : Disk V) (cls : Cls) : ∀ (paths : List Str), (∀ p ∈ paths, ∃ f, d p = some f) →
    ∃ bad, scanLoop d cls paths =
        .ok (((paths.filter fun p => (d p).any (keysPresent cls)).map (numberAt d)).sum, bad) ∧
      ∀ p, p ∈ bad ↔ p ∈ paths ∧ ∃ f, d p = some f ∧ ¬ Usable cls f := by
  intro paths
  induction paths with
  | nil => intro _; exact ⟨[], rfl, by simp⟩
  | cons p rest ih =>
    intro h
    obtain ⟨f, hf⟩ := h p List.mem_cons_self
    obtain ⟨bad, e, hbad⟩ := ih fun q hq => h q (List.mem_cons_of_mem _ hq)
    by_cases hk : keysPresent cls f = true
    · refine ⟨bad, ?_, ?_⟩
      · simp [scanLoop, hf, e, bind, Except.bind, hk, numberAt_of hf]
      · intro q
        rw [hbad q, List.mem_cons]
        constructor
        · rintro ⟨h1, h2⟩; exact ⟨.inr h1, h2⟩
        · rintro ⟨rfl | h1, f', h2, h3⟩
          · rw [hf] at h2; cases h2
            exact absurd ((keysPresent_iff cls f).1 hk) h3
          · exact ⟨h1, f', h2, h3⟩
    · refine ⟨p :: bad, ?_, ?_⟩
      · simp only [Bool.not_eq_true] at hk
        simp [scanLoop, hf, e, bind, Except.bind, hk]
      · intro q
        rw [List.mem_cons, hbad q, List.mem_cons]
        constructor
        · rintro (rfl | ⟨h1, h2⟩)
          · exact ⟨.inl rfl, f, hf, fun hu => hk ((keysPresent_iff cls f).2 hu)⟩
          · exact ⟨.inr h1, h2⟩
        · rintro ⟨rfl | h1, h2⟩
          · exact .inl rfl
          · exact .inr ⟨h1, h2⟩

end Pibronic.Results
