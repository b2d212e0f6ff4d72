import Verif.Lemmas.Molecule
import Verif.Model.OldFormats
import Verif.Spec.OldFormats
import Verif.Lemmas.Str
import Verif.Lemmas.OpText
import Mathlib.Algebra.Group.Basic

set_option autoImplicit false
set_option linter.unusedSectionVars false

/-!
Theorems about the older formats of models: `*.auto` (C88) and `*.h` (C89).
-/
namespace Pibronic.Props.OldFormats
open Py Buffer Workflow Pibronic.OldFormats Pibronic.Spec.OldFormats

variable {V : Type} {A N : Nat}

theorem bind_ok {α β : Type} {x : Except Err α} {f : α → Except Err β} {b : β} :
    (x >>= f) = .ok b ↔ ∃ a, x = .ok a ∧ f a = .ok b := by
  cases x with
  | error e => simp [bind, Except.bind]
  | ok a => simp [bind, Except.bind]

theorem loop_flatten {β : Type} (step : Nat → List Str → Except Err (β × List Str)) (n : Nat) :
    ∀ (k : Nat) (blk : Fin n → List Str) (v : Fin n → β) (rest : List Str),
      (∀ (i : Fin n) (r : List Str), step (k + i) (blk i ++ r) = .ok (v i, r)) →
      loop step k n ((List.ofFn blk).flatten ++ rest) = .ok (List.ofFn v, rest) := by
  induction n with
  | zero => intro k blk v rest _; simp [loop]
  | succ n ih =>
    intro k blk v rest h
    have h0 := h 0 ((List.ofFn fun i : Fin n => blk i.succ).flatten ++ rest)
    have h1 := ih (k + 1) (fun i => blk i.succ) (fun i => v i.succ) rest (by
      intro i r
      have := h i.succ r
      rwa [Fin.val_succ, ← Nat.add_assoc, Nat.add_right_comm] at this)
    simp only [Fin.val_zero, Nat.add_zero] at h0
    rw [List.ofFn_succ, List.ofFn_succ, List.flatten_cons, List.append_assoc]
    unfold loop
    rw [h0]
    simp only [bind, Except.bind]
    rw [h1]

theorem loop_lines {β : Type} (step : Nat → List Str → Except Err (β × List Str)) (n : Nat)
    (line : Fin n → Str) (v : Fin n → β) (rest : List Str)
    (h : ∀ (i : Fin n) (r : List Str), step i (line i :: r) = .ok (v i, r)) :
    loop step 0 n (List.ofFn line ++ rest) = .ok (List.ofFn v, rest) := by
  have := loop_flatten step n 0 (fun i => [line i]) v rest (by intro i r; simpa using h i r)
  rwa [show (List.ofFn fun i => [line i]).flatten = List.ofFn line from by
    have : (List.ofFn line).map (fun s => [s]) = List.ofFn fun i => [line i] := by
      rw [List.map_ofFn]; rfl
    rw [← this, ← List.flatMap_def]
    exact List.flatMap_singleton' _] at this

/-- A loop that takes one line in each step leaves the lines behind. -/
theorem loop_rest {β : Type} (step : Nat → List Str → Except Err (β × List Str)) (n : Nat)
    (h : ∀ i l ls v r, step i (l :: ls) = .ok (v, r) → r = ls) :
    ∀ (k : Nat) (lines rest : List Str) (vs : List β) (r : List Str), lines.length = n →
      loop step k n (lines ++ rest) = .ok (vs, r) → r = rest := by
  induction n with
  | zero =>
    intro k lines rest vs r hl hr
    rw [List.length_eq_zero_iff] at hl
    subst hl
    simp only [loop, List.nil_append, Except.ok.injEq, Prod.mk.injEq] at hr
    exact hr.2.symm
  | succ n ih =>
    intro k lines rest vs r hl hr
    cases lines with
    | nil => simp at hl
    | cons l lines =>
      unfold loop at hr
      obtain ⟨⟨v, r1⟩, h1, hr1⟩ := bind_ok.1 hr
      obtain ⟨⟨vs1, r2⟩, h2, hr2⟩ := bind_ok.1 hr1
      have e1 := h _ _ _ _ _ h1
      simp only [Except.ok.injEq, Prod.mk.injEq] at hr2
      rw [← hr2.2]
      simp only [e1] at h2
      exact ih _ _ _ _ _ (by simpa using hl) h2

theorem rows_ok (c : Convert V A) (line : Fin A → Str) (v : Fin A → Fin A → V) (rest : List Str)
    (h : ∀ a, c.coef (line a) = .ok (v a)) :
    loop (row c) 0 A (List.ofFn line ++ rest) = .ok (List.ofFn v, rest) :=
  loop_lines _ _ _ _ _ fun i r => by simp [row, next, h, bind, Except.bind]

theorem block_ok (c : Convert V A) (k : Nat) (head : Str) (line : Fin A → Str) (v : Fin A → Fin A → V)
    (rest : List Str) (h0 : c.gradient head = .ok ()) (h : ∀ a, c.coef (line a) = .ok (v a)) :
    block c k (head :: List.ofFn line ++ rest) = .ok (List.ofFn v, rest) := by
  unfold block
  simp only [List.cons_append, next, bind, Except.bind, h0]
  exact rows_ok c line v rest h

/-- C88: a frequency is the number between the units `cm-1` and `eV` of its line; the second unit may
be missing. -/
theorem C88_frequency_text (c : Convert V A) (k : Nat) (a v b : Str) (ls : List Str)
    (ha : ¬ c!"cm-1" <:+: a) (hv : ¬ c!"eV" <:+: v) (x : V) (hx : c.float v = .ok x) :
    frequency c k ((a ++ c!"cm-1" ++ (v ++ c!"eV" ++ b)) :: ls) = .ok (x, ls) ∧
    frequency c k ((a ++ c!"cm-1" ++ v) :: ls) = .ok (x, ls) := by
  have h1 : between (a ++ c!"cm-1" ++ (v ++ c!"eV" ++ b)) = v := by
    unfold between
    rw [find_of_not_infix 'c' c!"m-1" a _ (by decide) ha]
    simp only
    rw [find_of_not_infix 'e' c!"V" v b (by decide) hv]
  have h2 : between (a ++ c!"cm-1" ++ v) = v := by
    unfold between
    rw [find_of_not_infix 'c' c!"m-1" a _ (by decide) ha]
    simp only
    rw [find_none_of_not_infix _ _ hv]
  have key : ∀ l : Str, between l = v → frequency c k (l :: ls) = .ok (x, ls) := by
    intro l hl
    simp [frequency, next, hl, hx, bind, Except.bind]
  exact ⟨key _ h1, key _ h2⟩

theorem plainBlock_ok (c : Convert V A) (k : Nat) (head : Str) (line : Fin A → Str)
    (v : Fin A → Fin A → V) (rest : List Str) (h : ∀ a, c.coef (line a) = .ok (v a)) :
    plainBlock c k (head :: List.ofFn line ++ rest) = .ok (List.ofFn v, rest) := by
  unfold plainBlock
  simp only [List.cons_append, next, bind, Except.bind]
  exact rows_ok c line v rest h

theorem front_ok [Zero V] [Add V] (close : V → V → Bool) (c : Convert V A) (t : AutoText A N)
    (w : Fin N → V) (e : Fin A → Fin A → V) (rest : List Str)
    (h0 : c.grid (t.header 0) = .ok ()) (h1 : c.irreps (t.header 1) = .ok ())
    (h2 : c.modes (t.header 2) = .ok ()) (hw : ∀ i, c.float (between (t.parentHessian i)) = .ok (w i))
    (he : ∀ a, c.coef (t.hamiltonian a) = .ok (e a)) :
    readAutoLines close c N (t.front ++ rest) = (do
      let (e, ls) ← energies c rest
      let (_, ls) ← next ls
      let (g1, ls) ← loop (block c) 0 N ls
      let (_, ls) ← next ls
      let (diag, ls) ← loop (block c) 0 N ls
      let (_, ls) ← next ls
      let (off, _) ← loop (fun i => loop (plainBlock c) 0 i) 0 N ls
      let g1 : Nat → Nat → Nat → V := fun i => rowsArray (g1.getD i [])
      let g2 := quadraticAfter (quadraticBefore diag off)
      if confirmed close A N g1 g2 = true then
        .ok ⟨A, N, rowsArray e, fun i => (List.ofFn w).getD i 0, g1, g2⟩
      else .error .assertion) := by
  have e1 : t.front ++ rest = t.title :: t.header 0 :: t.header 1 :: t.header 2 :: t.header 3 ::
      t.parentGradientTitle :: (List.ofFn t.parentGradient ++ t.parentHessianTitle ::
        (List.ofFn t.parentHessian ++ t.hamiltonianTitle :: (List.ofFn t.hamiltonian ++ rest))) := by
    simp [AutoText.front, List.ofFn_succ]
  have e2 : loop (fun _ => next) 0 N (List.ofFn t.parentGradient ++ t.parentHessianTitle ::
      (List.ofFn t.parentHessian ++ t.hamiltonianTitle :: (List.ofFn t.hamiltonian ++ rest))) =
      .ok (List.ofFn t.parentGradient, t.parentHessianTitle ::
        (List.ofFn t.parentHessian ++ t.hamiltonianTitle :: (List.ofFn t.hamiltonian ++ rest))) :=
    loop_lines _ _ _ _ _ fun i r => rfl
  have e3 : loop (frequency c) 0 N (List.ofFn t.parentHessian ++ t.hamiltonianTitle ::
      (List.ofFn t.hamiltonian ++ rest)) =
      .ok (List.ofFn w, t.hamiltonianTitle :: (List.ofFn t.hamiltonian ++ rest)) :=
    loop_lines _ _ _ _ _ fun i r => by simp [frequency, next, hw, bind, Except.bind]
  have e4 : energies c (List.ofFn t.hamiltonian ++ rest) = .ok (List.ofFn e, rest) := rows_ok c _ _ _ he
  rw [e1]
  unfold readAutoLines readHeader
  simp only [next, bind, Except.bind, h0, h1, h2, e2, e3, e4]

/-! ### C88 -/

/-- C88, refuted: a file with the documented layout is never read when the title of the section with the
linear terms is not a row of numbers: the rows of the reference Hamiltonian are read twice, and the second
time the title is taken for the first row. -/
theorem C88_documented_refuted [Zero V] [Add V] (close : V → V → Bool) (c : Convert V (A + 1))
    (t : AutoText (A + 1) N) (e : Err) (ht : c.coef t.linearTitle = .error e) :
    ∃ e', readAutoLines close c N t.lines = .error e' := by
  cases hr : readAutoLines close c N t.lines with
  | error e' => exact ⟨e', rfl⟩
  | ok m =>
    exfalso
    have e1 : t.lines = t.title :: t.header 0 :: t.header 1 :: t.header 2 :: t.header 3 ::
        t.parentGradientTitle :: (List.ofFn t.parentGradient ++ t.parentHessianTitle ::
          (List.ofFn t.parentHessian ++ t.hamiltonianTitle :: (List.ofFn t.hamiltonian ++ t.back))) := by
      simp [AutoText.lines, AutoText.front, List.ofFn_succ]
    rw [e1] at hr
    unfold readAutoLines readHeader at hr
    simp only [next] at hr
    obtain ⟨⟨_, ls⟩, h, hr⟩ := bind_ok.1 hr
    cases h
    obtain ⟨ls, h, hr⟩ := bind_ok.1 hr
    obtain ⟨⟨_, ls0⟩, h', h⟩ := bind_ok.1 h
    cases h'
    obtain ⟨_, _, h⟩ := bind_ok.1 h
    obtain ⟨⟨_, ls0⟩, h', h⟩ := bind_ok.1 h
    cases h'
    obtain ⟨_, _, h⟩ := bind_ok.1 h
    obtain ⟨⟨_, ls0⟩, h', h⟩ := bind_ok.1 h
    cases h'
    obtain ⟨_, _, h⟩ := bind_ok.1 h
    obtain ⟨⟨_, ls0⟩, h', h⟩ := bind_ok.1 h
    cases h'
    cases h
    obtain ⟨⟨_, ls⟩, h, hr⟩ := bind_ok.1 hr
    cases h
    obtain ⟨⟨_, ls⟩, h, hr⟩ := bind_ok.1 hr
    have := loop_rest _ N (by intro i l ls v r h; cases h; rfl) _ _ _ _ _ (by simp) h
    subst this
    obtain ⟨⟨_, ls⟩, h', hr⟩ := bind_ok.1 hr
    cases h'
    obtain ⟨⟨_, ls⟩, h, hr⟩ := bind_ok.1 hr
    have := loop_rest _ N (by
      intro i l ls v r h
      unfold frequency at h
      obtain ⟨⟨_, _⟩, h', h⟩ := bind_ok.1 h
      cases h'
      obtain ⟨_, _, h⟩ := bind_ok.1 h
      cases h
      rfl) _ _ _ _ _ (by simp) h
    subst this
    obtain ⟨⟨_, ls⟩, h', hr⟩ := bind_ok.1 hr
    cases h'
    obtain ⟨⟨_, ls⟩, h, hr⟩ := bind_ok.1 hr
    have := loop_rest _ (A + 1) (by
      intro i l ls v r h
      unfold row at h
      obtain ⟨⟨_, _⟩, h', h⟩ := bind_ok.1 h
      cases h'
      obtain ⟨_, _, h⟩ := bind_ok.1 h
      cases h
      rfl) _ _ _ _ _ (by simp) h
    subst this
    obtain ⟨⟨_, ls⟩, h, hr⟩ := bind_ok.1 hr
    simp [energies, AutoText.back, loop, row, next, ht, bind, Except.bind] at h

/-- C88: if the rows of the reference Hamiltonian are written twice, the entries of the model are the
numbers in the file: energies, frequencies, linear terms, diagonal and off-diagonal quadratic terms, the
latter for both orders of the modes. -/
theorem C88_reads_partial [AddMonoid V] (close : V → V → Bool) (hclose : ∀ x, close x x = true)
    (c : Convert V A) (t : AutoText A N) (w : Fin N → V) (e : Fin A → Fin A → V)
    (l d : Fin N → Fin A → Fin A → V) (o : (i : Fin N) → Fin i → Fin A → Fin A → V)
    (h0 : c.grid (t.header 0) = .ok ()) (h1 : c.irreps (t.header 1) = .ok ())
    (h2 : c.modes (t.header 2) = .ok ()) (hw : ∀ i, c.float (between (t.parentHessian i)) = .ok (w i))
    (he : ∀ a, c.coef (t.hamiltonian a) = .ok (e a))
    (hl0 : ∀ i, c.gradient (t.linearHead i) = .ok ()) (hl : ∀ i a, c.coef (t.linear i a) = .ok (l i a))
    (hd0 : ∀ i, c.gradient (t.diagonalHead i) = .ok ())
    (hd : ∀ i a, c.coef (t.diagonal i a) = .ok (d i a))
    (ho : ∀ i j a, c.coef (t.offDiagonal i j a) = .ok (o i j a))
    (sl : ∀ i a b, l i a b = l i b a) (sd : ∀ i a b, d i a b = d i b a)
    (so : ∀ i j a b, o i j a b = o i j b a) :
    ∃ m, readAutoLines close c N t.linesTwice = .ok m ∧ m.nel = A ∧ m.nmode = N ∧
      (∀ a b : Fin A, m.E a b = e a b) ∧ (∀ i : Fin N, m.w i = w i) ∧
      (∀ (i : Fin N) (a b : Fin A), m.G1 i a b = l i a b) ∧
      (∀ (i : Fin N) (a b : Fin A), m.G2 i i a b = d i a b) ∧
      (∀ (i : Fin N) (j : Fin i) (a b : Fin A), m.G2 i j a b = o i j a b ∧ m.G2 j i a b = o i j a b) := by
  have e1 : t.linesTwice = t.front ++ (List.ofFn t.hamiltonian ++ (t.linearTitle ::
      ((List.ofFn fun i => t.linearHead i :: List.ofFn (t.linear i)).flatten ++ t.diagonalTitle ::
        ((List.ofFn fun i => t.diagonalHead i :: List.ofFn (t.diagonal i)).flatten ++
          t.offDiagonalTitle :: ((List.ofFn fun i => (List.ofFn fun j =>
            t.offDiagonalHead i j :: List.ofFn (t.offDiagonal i j)).flatten).flatten ++ []))))) := by
    simp [AutoText.linesTwice, AutoText.back]
  have e2 : ∀ r, energies c (List.ofFn t.hamiltonian ++ r) = .ok (List.ofFn e, r) :=
    fun r => rows_ok c _ _ _ he
  have e3 : ∀ r, loop (block c) 0 N ((List.ofFn fun i => t.linearHead i :: List.ofFn (t.linear i)).flatten ++
      r) = .ok (List.ofFn fun i => List.ofFn (l i), r) :=
    fun r => loop_flatten _ _ _ _ _ _ fun i r => block_ok c _ _ _ _ _ (hl0 i) (hl i)
  have e4 : ∀ r, loop (block c) 0 N ((List.ofFn fun i =>
      t.diagonalHead i :: List.ofFn (t.diagonal i)).flatten ++ r) =
      .ok (List.ofFn fun i => List.ofFn (d i), r) :=
    fun r => loop_flatten _ _ _ _ _ _ fun i r => block_ok c _ _ _ _ _ (hd0 i) (hd i)
  have e5 : ∀ r, loop (fun i => loop (plainBlock c) 0 i) 0 N ((List.ofFn fun i => (List.ofFn fun j =>
      t.offDiagonalHead i j :: List.ofFn (t.offDiagonal i j)).flatten).flatten ++ r) =
      .ok (List.ofFn fun i => List.ofFn fun j => List.ofFn (o i j), r) := by
    intro r
    refine loop_flatten _ _ _ _ _ _ fun i r => ?_
    simp only [Nat.zero_add]
    exact loop_flatten _ _ _ _ _ _ fun j r => plainBlock_ok c _ _ _ _ _ (ho i j)
  have rowsArray_ofFn : ∀ (f : Fin A → Fin A → V) (a b : Nat) (ha : a < A) (hb : b < A),
      rowsArray (List.ofFn f) a b = f ⟨a, ha⟩ ⟨b, hb⟩ := by
    intro f a b ha hb
    simp [rowsArray, ha, hb]
  have getD_ofFn : ∀ {β : Type} (n : Nat) (f : Fin n → β) (dflt : β) (i : Nat) (hi : i < n),
      (List.ofFn f).getD i dflt = f ⟨i, hi⟩ := by
    intro β n f dflt i hi
    simp [List.getD, hi]
  set g1 : Nat → Nat → Nat → V := fun i => rowsArray ((List.ofFn fun i => List.ofFn (l i)).getD i []) with hg1
  set g2 := quadraticAfter (quadraticBefore (List.ofFn fun i => List.ofFn (d i))
    (List.ofFn fun i => List.ofFn fun j => List.ofFn (o i j))) with hg2
  have v1 : ∀ (i a b : Nat) (hi : i < N) (ha : a < A) (hb : b < A),
      g1 i a b = l ⟨i, hi⟩ ⟨a, ha⟩ ⟨b, hb⟩ := by
    intro i a b hi ha hb
    simp only [hg1, getD_ofFn N _ _ i hi, rowsArray_ofFn _ a b ha hb]
  have v2 : ∀ (i a b : Nat) (hi : i < N) (ha : a < A) (hb : b < A),
      g2 i i a b = d ⟨i, hi⟩ ⟨a, ha⟩ ⟨b, hb⟩ := by
    intro i a b hi ha hb
    simp only [hg2, quadraticAfter, quadraticBefore, getD_ofFn N _ _ i hi, rowsArray_ofFn _ a b ha hb]
    simp
  have v3 : ∀ (i j a b : Nat) (hi : i < N) (hj : j < i) (ha : a < A) (hb : b < A),
      g2 i j a b = o ⟨i, hi⟩ ⟨j, hj⟩ ⟨a, ha⟩ ⟨b, hb⟩ ∧ g2 j i a b = o ⟨i, hi⟩ ⟨j, hj⟩ ⟨a, ha⟩ ⟨b, hb⟩ := by
    intro i j a b hi hj ha hb
    simp only [hg2, quadraticAfter, quadraticBefore, getD_ofFn N _ _ i hi, getD_ofFn i _ _ j hj,
      rowsArray_ofFn _ a b ha hb]
    constructor
    · simp [hj, Nat.ne_of_gt hj, Nat.not_lt.2 (Nat.le_of_lt hj)]
    · simp [hj, Nat.ne_of_lt hj, Nat.ne_of_gt hj, Nat.not_lt.2 (Nat.le_of_lt hj)]
  have hconf : confirmed close A N g1 g2 = true := by
    simp only [confirmed, Bool.and_eq_true, List.all_eq_true, List.mem_range]
    refine ⟨fun a ha b hb => ⟨fun i hi => ?_, fun i hi j hj => ?_⟩, fun i hi j hj a ha b hb => ?_⟩
    · rw [v1 i a b hi ha hb, v1 i b a hi hb ha, sl]; exact hclose _
    · have : g2 i j a b = g2 i j b a := by
        rcases Nat.lt_trichotomy i j with h | rfl | h
        · rw [(v3 j i a b hj h ha hb).2, (v3 j i b a hj h hb ha).2, so]
        · rw [v2 i a b hi ha hb, v2 i b a hi hb ha, sd]
        · rw [(v3 i j a b hi h ha hb).1, (v3 i j b a hi h hb ha).1, so]
      rw [this]; exact hclose _
    · have : g2 i j a b = g2 j i a b := by
        rcases Nat.lt_trichotomy i j with h | rfl | h
        · rw [(v3 j i a b hj h ha hb).2, (v3 j i a b hj h ha hb).1]
        · rfl
        · rw [(v3 i j a b hi h ha hb).1, (v3 i j a b hi h ha hb).2]
      rw [this]; exact hclose _
  refine ⟨⟨A, N, rowsArray (List.ofFn e), fun i => (List.ofFn w).getD i 0, g1, g2⟩, ?_, rfl, rfl,
    fun a b => rowsArray_ofFn e a b a.2 b.2, fun i => getD_ofFn N w 0 i i.2,
    fun i a b => v1 i a b i.2 a.2 b.2, fun i a b => v2 i a b i.2 a.2 b.2,
    fun i j a b => v3 i j a b i.2 j.2 a.2 b.2⟩
  rw [e1, front_ok close c t w e _ h0 h1 h2 hw he]
  simp only [e2, e3, e4, e5, next, bind, Except.bind]
  rw [if_pos hconf]

/-- C88: a file that is not there is an error. -/
theorem C88_no_file [Zero V] [Add V] (close : V → V → Bool) (c : Convert V 2) :
    readModelAutoFile close c none = .error .os := rfl

/-- C88: blank lines and rulers do not matter, wherever they are. -/
theorem C88_separators [Zero V] [Add V] (close : V → V → Bool) (c : Convert V 2) (xs ys : List Str)
    (sep : Str) (h : strip sep = [] ∨ c!"--------" <:+: strip sep) :
    readModelAutoFile close c (some (xs ++ sep :: ys)) = readModelAutoFile close c (some (xs ++ ys)) := by
  have : autoLines (xs ++ sep :: ys) = autoLines (xs ++ ys) := by
    simp only [autoLines, List.filter_append, List.filter_cons]
    rcases h with h | h <;> simp [h]
  simp only [readModelAutoFile, this]

/-- C88: blanks at the end of a line do not matter. -/
theorem C88_trailing_blanks [Zero V] [Add V] (close : V → V → Bool) (c : Convert V 2) (xs ys : List Str)
    (l ws : Str) (h : ∀ x ∈ ws, isWs x = true) :
    readModelAutoFile close c (some (xs ++ (l ++ ws) :: ys)) = readModelAutoFile close c (some (xs ++ l :: ys)) := by
  have hd : ((l ++ ws).reverse.dropWhile isWs) = l.reverse.dropWhile isWs := by
    rw [List.reverse_append, List.dropWhile_append_of_pos (by simpa using h)]
  have hs : strip (l ++ ws) = strip l := by
    unfold strip
    have hw : ws.dropWhile isWs = [] := by
      simpa using List.dropWhile_append_of_pos (l₂ := []) h
    rw [List.dropWhile_append]
    split
    · next he => rw [List.isEmpty_iff.1 he, hw]
    · rw [List.reverse_append, List.dropWhile_append_of_pos (by simpa using h)]
  have : autoLines (xs ++ (l ++ ws) :: ys) = autoLines (xs ++ l :: ys) := by
    simp only [autoLines, List.filter_append, List.filter_cons, hs]
    split <;> simp only [List.map_append, List.map_cons, hd]
  simp only [readModelAutoFile, this]

/-- C88: the lines of a file without rulers, blank lines and blanks at the ends of lines are read as
they stand. -/
theorem C88_lines_as_they_stand [Zero V] [Add V] (close : V → V → Bool) (c : Convert V 2) (ls : List Str)
    (h : ∀ l ∈ ls, ¬ c!"--------" <:+: l ∧ ∃ x, l.getLast? = some x ∧ isWs x = false) :
    readModelAutoFile close c (some ls) = readAutoLines close c 12 ls := by
  have hr : ∀ l ∈ ls, (l.reverse.dropWhile isWs).reverse = l := by
    intro l hl
    obtain ⟨-, x, hx, hw⟩ := h l hl
    obtain ⟨i, rfl⟩ := List.getLast?_eq_some_iff.mp hx
    simp [hw]
  have hs : ∀ l ∈ ls, strip l = l.dropWhile isWs := by
    intro l hl
    unfold strip
    have h2 : ∃ x, (l.dropWhile isWs).getLast? = some x ∧ isWs x = false := by
      obtain ⟨-, x, hx, hw⟩ := h l hl
      obtain ⟨i, rfl⟩ := List.getLast?_eq_some_iff.mp hx
      refine ⟨x, ?_, hw⟩
      rw [List.dropWhile_append]
      split
      · simp [hw]
      · simp
    obtain ⟨x, hx, hw⟩ := h2
    obtain ⟨i, hi⟩ := List.getLast?_eq_some_iff.mp hx
    rw [hi]
    simp [hw]
  have : autoLines ls = ls := by
    unfold autoLines
    rw [List.filter_eq_self.mpr]
    · conv_rhs => rw [← List.map_id ls]
      exact List.map_congr_left hr
    · intro l hl
      rw [hs l hl, Bool.and_eq_true, decide_eq_true_eq, decide_eq_true_eq]
      obtain ⟨h1, x, hx, hw⟩ := h l hl
      constructor
      · intro h0
        have := Molecule.dropWhile_nil h0 x (List.mem_of_getLast? hx)
        rw [hw] at this; cases this
      · exact fun hi => h1 (hi.trans (List.dropWhile_suffix _).isInfix)
  simp only [readModelAutoFile, this]

/-- Witness: two lines of such a file. -/
example : ∀ l ∈ [c!" number of modes  12", c!"  0.5  1.5"],
    ¬ c!"--------" <:+: l ∧ ∃ x, l.getLast? = some x ∧ isWs x = false := by
  intro l hl
  simp only [List.mem_cons, List.not_mem_nil, or_false] at hl
  rcases hl with rfl | rfl
  · exact ⟨by decide, '2', by decide, by decide⟩
  · exact ⟨by decide, '5', by decide, by decide⟩

/-- C88: whatever is read, the quadratic terms do not depend on the order of the two modes, and a linear
or quadratic term that depends on the order of the surfaces by more than the tolerance is rejected. -/
theorem C88_symmetric [AddMonoid V] (close : V → V → Bool) (c : Convert V A) (ls : List Str) (m : Auto V)
    (h : readAutoLines close c N ls = .ok m) :
    m.nel = A ∧ m.nmode = N ∧ (∀ i j a b, m.G2 i j a b = m.G2 j i a b) ∧
    (∀ i j a b, i < N → j < N → a < A → b < A →
      close (m.G1 i a b) (m.G1 i b a) = true ∧ close (m.G2 i j a b) (m.G2 i j b a) = true) := by
  unfold readAutoLines at h
  obtain ⟨⟨_, _⟩, _, h⟩ := bind_ok.1 h
  obtain ⟨_, _, h⟩ := bind_ok.1 h
  obtain ⟨⟨_, _⟩, _, h⟩ := bind_ok.1 h
  obtain ⟨⟨_, _⟩, _, h⟩ := bind_ok.1 h
  obtain ⟨⟨_, _⟩, _, h⟩ := bind_ok.1 h
  obtain ⟨⟨w, _⟩, _, h⟩ := bind_ok.1 h
  obtain ⟨⟨_, _⟩, _, h⟩ := bind_ok.1 h
  obtain ⟨⟨_, _⟩, _, h⟩ := bind_ok.1 h
  obtain ⟨⟨e, _⟩, _, h⟩ := bind_ok.1 h
  obtain ⟨⟨_, _⟩, _, h⟩ := bind_ok.1 h
  obtain ⟨⟨g1, _⟩, _, h⟩ := bind_ok.1 h
  obtain ⟨⟨_, _⟩, _, h⟩ := bind_ok.1 h
  obtain ⟨⟨d, _⟩, _, h⟩ := bind_ok.1 h
  obtain ⟨⟨_, _⟩, _, h⟩ := bind_ok.1 h
  obtain ⟨⟨o, _⟩, _, h⟩ := bind_ok.1 h
  simp only at h
  split at h
  · next hc =>
    cases h
    refine ⟨rfl, rfl, fun i j a b => ?_, fun i j a b hi hj ha hb => ?_⟩
    · simp only [quadraticAfter, quadraticBefore]
      rcases Nat.lt_trichotomy i j with h | rfl | h
      · simp [h, Nat.ne_of_lt h, Nat.ne_of_gt h, Nat.not_lt.2 (Nat.le_of_lt h)]
      · rfl
      · simp [h, Nat.ne_of_lt h, Nat.ne_of_gt h, Nat.not_lt.2 (Nat.le_of_lt h)]
    · simp only [confirmed, Bool.and_eq_true, List.all_eq_true, List.mem_range] at hc
      exact ⟨(hc.1 a ha b hb).1 i hi, (hc.1 a ha b hb).2 i hi j hj⟩
  · cases h

/-! Files that end too early. -/

/-- A part of a reader takes certain lines, whatever comes after them, and raises `StopIteration` when they end too early. -/
def Steady {β : Type} (p : List Str → Except Err (β × List Str)) : Prop :=
  ∀ ls v rest, p ls = .ok (v, rest) → ∃ used, ls = used ++ rest ∧ (∀ r, p (used ++ r) = .ok (v, r)) ∧
    ∀ u, u <+: used → u ≠ used → p u = .error .exception

/-- The same for a whole reader. -/
def SteadyEnd {β : Type} (q : List Str → Except Err β) : Prop :=
  ∀ ls v, q ls = .ok v → ∃ used rest, ls = used ++ rest ∧ (∀ r, q (used ++ r) = .ok v) ∧
    ∀ u, u <+: used → u ≠ used → q u = .error .exception

theorem prefix_cases {u a b : List Str} (h : u <+: a ++ b) (hne : u ≠ a ++ b) :
    (u <+: a ∧ u ≠ a) ∨ ∃ u', u = a ++ u' ∧ u' <+: b ∧ u' ≠ b := by
  rcases List.prefix_or_prefix_of_prefix h (List.prefix_append a b) with h1 | ⟨u', rfl⟩
  · by_cases he : u = a
    · subst he
      exact .inr ⟨[], by simp, List.nil_prefix, fun hb => hne (by simp [← hb])⟩
    · exact .inl ⟨h1, he⟩
  · refine .inr ⟨u', rfl, ?_, fun hb => hne (by rw [hb])⟩
    exact (List.prefix_append_right_inj a).1 h

theorem steady_next : Steady next := by
  intro ls v rest h
  cases ls with
  | nil => cases h
  | cons l ls =>
    cases h
    refine ⟨[v], rfl, fun r => rfl, fun u hu hne => ?_⟩
    rcases List.prefix_cons_iff.1 hu with rfl | ⟨t, rfl, ht⟩
    · rfl
    · rw [List.prefix_nil] at ht
      exact absurd (by rw [ht]) hne

theorem steady_pure {β : Type} (v : β) : Steady fun ls => .ok (v, ls) := by
  intro ls v' rest h
  cases h
  exact ⟨[], rfl, fun r => rfl, fun u hu hne => absurd (List.prefix_nil.1 hu) hne⟩

theorem steady_bind {β γ : Type} {p : List Str → Except Err (β × List Str)}
    {k : β × List Str → Except Err (γ × List Str)} (hp : Steady p) (hk : ∀ v, Steady fun ls => k (v, ls)) :
    Steady fun ls => p ls >>= k := by
  intro ls v rest h
  obtain ⟨⟨a, mid⟩, h1, h2⟩ := bind_ok.1 h
  obtain ⟨u1, rfl, g1, e1⟩ := hp _ _ _ h1
  obtain ⟨u2, rfl, g2, e2⟩ := hk a _ _ _ h2
  refine ⟨u1 ++ u2, by simp, fun r => ?_, fun u hu hne => ?_⟩
  · show (p (u1 ++ u2 ++ r) >>= k) = _
    rw [List.append_assoc, g1]
    exact g2 r
  · show (p u >>= k) = _
    rcases prefix_cases hu hne with ⟨h3, h4⟩ | ⟨u', rfl, h3, h4⟩
    · rw [e1 u h3 h4]; rfl
    · rw [g1]
      exact e2 u' h3 h4

theorem steadyEnd_bind {β γ : Type} {p : List Str → Except Err (β × List Str)}
    {k : β × List Str → Except Err γ} (hp : Steady p) (hk : ∀ v, SteadyEnd fun ls => k (v, ls)) :
    SteadyEnd fun ls => p ls >>= k := by
  intro ls v h
  obtain ⟨⟨a, mid⟩, h1, h2⟩ := bind_ok.1 h
  obtain ⟨u1, rfl, g1, e1⟩ := hp _ _ _ h1
  obtain ⟨u2, rest, rfl, g2, e2⟩ := hk a _ _ h2
  refine ⟨u1 ++ u2, rest, by simp, fun r => ?_, fun u hu hne => ?_⟩
  · show (p (u1 ++ u2 ++ r) >>= k) = _
    rw [List.append_assoc, g1]
    exact g2 r
  · show (p u >>= k) = _
    rcases prefix_cases hu hne with ⟨h3, h4⟩ | ⟨u', rfl, h3, h4⟩
    · rw [e1 u h3 h4]; rfl
    · rw [g1]
      exact e2 u' h3 h4

theorem steady_lift {β γ : Type} (x : Except Err γ) {k : γ → List Str → Except Err (β × List Str)}
    (hk : ∀ a, Steady (k a)) : Steady fun ls => x >>= fun a => k a ls := by
  cases x with
  | error e => intro ls v rest h; cases h
  | ok a => exact hk a

theorem steadyEnd_lift {β γ : Type} (x : Except Err γ) {k : γ → List Str → Except Err β}
    (hk : ∀ a, SteadyEnd (k a)) : SteadyEnd fun ls => x >>= fun a => k a ls := by
  cases x with
  | error e => intro ls v h; cases h
  | ok a => exact hk a

theorem steadyEnd_const {β : Type} (x : Except Err β) : SteadyEnd fun _ => x := by
  intro ls v h
  exact ⟨[], ls, rfl, fun r => h, fun u hu hne => absurd (List.prefix_nil.1 hu) hne⟩

theorem steady_loop {β : Type} (step : Nat → List Str → Except Err (β × List Str)) (hs : ∀ i, Steady (step i)) (n : Nat) :
    ∀ i, Steady (loop step i n) := by
  induction n with
  | zero => exact fun i => steady_pure _
  | succ n ih => exact fun i => steady_bind (hs i) fun v => steady_bind (ih (i + 1)) fun vs => steady_pure _

theorem steady_row (c : Convert V A) (i : Nat) : Steady (row c i) :=
  steady_bind steady_next fun _ => steady_lift _ fun _ => steady_pure _

theorem steady_block (c : Convert V A) (i : Nat) : Steady (block c i) :=
  steady_bind steady_next fun _ => steady_lift _ fun _ => steady_loop _ (steady_row c) _ _

theorem steady_plainBlock (c : Convert V A) (i : Nat) : Steady (plainBlock c i) :=
  steady_bind steady_next fun _ => steady_loop _ (steady_row c) _ _

theorem steady_frequency (c : Convert V A) (i : Nat) : Steady (frequency c i) :=
  steady_bind steady_next fun _ => steady_lift _ fun _ => steady_pure _

/-- C88: a file from which a model is read holds a certain first part that decides: with any lines after it the same
model is read, and when the file ends anywhere within it the reader stops with an exception. -/
theorem C88_cut_short [Zero V] [Add V] (close : V → V → Bool) (c : Convert V A) (ls : List Str) (m : Auto V)
    (h : readAutoLines close c N ls = .ok m) :
    ∃ n ≤ ls.length, (∀ more, readAutoLines close c N (ls.take n ++ more) = .ok m) ∧
      ∀ k < n, readAutoLines close c N (ls.take k) = .error .exception := by
  have key : SteadyEnd (readAutoLines close c N) := by
    unfold readAutoLines readHeader
    simp only [bind_assoc, ← Bool.cond_eq_ite]
    refine steadyEnd_bind steady_next fun _ => ?_
    refine steadyEnd_bind steady_next fun _ => ?_
    dsimp only
    refine steadyEnd_lift _ fun _ => ?_
    refine steadyEnd_bind steady_next fun _ => ?_
    dsimp only
    refine steadyEnd_lift _ fun _ => ?_
    refine steadyEnd_bind steady_next fun _ => ?_
    dsimp only
    refine steadyEnd_lift _ fun _ => ?_
    refine steadyEnd_bind steady_next fun _ => ?_
    refine steadyEnd_bind steady_next fun _ => ?_
    dsimp only
    refine steadyEnd_bind (steady_loop _ (fun _ => steady_next) _ _) fun _ => ?_
    dsimp only
    refine steadyEnd_bind steady_next fun _ => ?_
    dsimp only
    refine steadyEnd_bind (steady_loop _ (steady_frequency c) _ _) fun _ => ?_
    dsimp only
    refine steadyEnd_bind steady_next fun _ => ?_
    dsimp only
    refine steadyEnd_bind (p := energies c) (steady_loop _ (steady_row c) _ _) fun _ => ?_
    dsimp only
    refine steadyEnd_bind (p := energies c) (steady_loop _ (steady_row c) _ _) fun _ => ?_
    dsimp only
    refine steadyEnd_bind steady_next fun _ => ?_
    dsimp only
    refine steadyEnd_bind (steady_loop _ (steady_block c) _ _) fun _ => ?_
    dsimp only
    refine steadyEnd_bind steady_next fun _ => ?_
    dsimp only
    refine steadyEnd_bind (steady_loop _ (steady_block c) _ _) fun _ => ?_
    dsimp only
    refine steadyEnd_bind steady_next fun _ => ?_
    dsimp only
    refine steadyEnd_bind (steady_loop _ (fun i => steady_loop _ (steady_plainBlock c) _ _) _ _) fun _ => ?_
    dsimp only
    exact steadyEnd_const _
  obtain ⟨used, rest, rfl, h1, h2⟩ := key ls m h
  refine ⟨used.length, by simp, fun more => ?_, fun k hk => ?_⟩
  · rw [List.take_left]; exact h1 more
  · rw [List.take_append_of_le_length hk.le]
    refine h2 _ (List.take_prefix _ _) fun he => ?_
    have := congrArg List.length he
    rw [List.length_take] at this
    omega

/-! ### C89 -/

/-- C89, refuted: no file of this format is ever read. -/
theorem C89_never_read_refuted (disk : Files) (path : Str) :
    (readModelHFile disk path : Except Err (Auto V)) = .error
      (if disk path ≠ none ∧ disk (path.take (path.length - 2) ++ c!".in") ≠ none then .type else .os) := by
  unfold readModelHFile
  split
  · next h => simp [h]
  · next h => split <;> next h' => simp [h, h']

/-- C89: nothing is written, neither from a file of this format nor from a link. -/
theorem C89_nothing_written {D : Type} (files : D → Files)
    (save : D → Str → Auto V → D × Except Err Unit) (pathVibModel : Str) (d : D) (path url : Str) :
    (createCouplingFromHFile files save pathVibModel d path).1 = d ∧
    (createCouplingFromOpHyperlink d url).1 = d ∧
    (∀ p, (createCouplingFromHFile files save pathVibModel d path).2 ≠ .ok p) ∧
    (createCouplingFromOpHyperlink d url).2 = .error .assertion := by
  have h := C89_never_read_refuted (V := V) (files d) path
  refine ⟨?_, rfl, ?_, rfl⟩
  · simp [createCouplingFromHFile, h]
  · intro p hp
    simp [createCouplingFromHFile, h] at hp

/-- C89: missing files are reported as such. -/
theorem C89_missing (disk : Files) (path : Str)
    (h : disk path = none ∨ disk (path.take (path.length - 2) ++ c!".in") = none) :
    (readModelHFile disk path : Except Err (Auto V)) = .error .os := by
  unfold readModelHFile
  rcases h with h | h
  · rw [h]
  · rw [h]
    split <;> rfl

/-- A line with a number in front of a label. -/
def countLine (pad : Str) (n : Nat) (gap label rest : Str) : Str := pad ++ natStr n ++ ' ' :: gap ++ label ++ rest

theorem first_word (pad : Str) (n : Nat) (gap label rest : Str) (hp : ∀ c ∈ pad, isWs c = true) :
    item (splitWs (countLine pad n gap label rest)) 0 = .ok (natStr n) := by
  have e : countLine pad n gap label rest = pad ++ (natStr n ++ ' ' :: (gap ++ label ++ rest)) := by
    simp [countLine]
  have hne : natStr n ≠ [] := by
    unfold natStr
    split <;> simp
  have hw : ∀ c ∈ natStr n, isWs c = false := by
    intro c hc
    by_contra hcon
    simp only [Bool.not_eq_false, isWs, Bool.or_eq_true, decide_eq_true_eq] at hcon
    rcases hcon with ((rfl | rfl) | rfl) | rfl <;> exact notMem_natStr (by decide) n hc
  rw [e, OpFile.splitWs_blank pad _ hp, OpFile.splitWs_word _ _ _ hne hw (by decide)]
  rfl

/-- C89: the numbers of states and modes are the ones in front of their labels. -/
theorem C89_counts (pad gap rest : Str) (hp : ∀ c ∈ pad, isWs c = true) (n s o : Nat) (first : Str)
    (more : List Str) :
    numberOfStates (first :: countLine pad n gap c!"Number of electronic states" rest :: more) = .ok (n, more) ∧
    numberOfModes (countLine pad s gap c!"Number of symmetric normal modes" rest ::
      countLine pad o gap c!"Number of non-A1 normal modes" rest :: more) = .ok (s + o, s, more) := by
  have hin : ∀ n label, label <:+: countLine pad n gap label rest := fun n label =>
    ⟨pad ++ natStr n ++ ' ' :: gap, rest, rfl⟩
  constructor
  · unfold numberOfStates
    simp only [List.drop_succ_cons, List.drop_zero, List.headD_cons]
    rw [if_pos (hin _ _), first_word pad n gap _ rest hp]
    simp [bind, Except.bind, pyInt_natStr]
  · have hl : ∀ n label, labelled label (countLine pad n gap label rest) = .ok n := by
      intro n label
      unfold labelled
      rw [if_pos (hin n label), first_word pad n gap label rest hp]
      simp [bind, Except.bind, pyInt_natStr]
    unfold numberOfModes
    simp only [List.drop_succ_cons, List.drop_zero, List.headD_cons, hl, bind, Except.bind]

/-- C89: a file without a label in the expected line is rejected. -/
theorem C89_label_missing (first line line' : Str) (more : List Str)
    (h : ¬ c!"Number of electronic states" <:+: line)
    (h' : ¬ c!"Number of symmetric normal modes" <:+: line) :
    numberOfStates (first :: line :: more) = .error .exception ∧
    numberOfModes (line :: line' :: more) = .error .exception := by
  constructor
  · unfold numberOfStates
    simp only [List.drop_succ_cons, List.drop_zero, List.headD_cons]
    rw [if_neg h]
  · have hl : labelled c!"Number of symmetric normal modes" line = .error .exception := if_neg h'
    unfold numberOfModes
    simp only [List.headD_cons, hl, bind, Except.bind]

/-- C89: the frequencies are the numbers of the two lines, the symmetric modes first. -/
theorem C89_frequencies (num : Str → Except Err V) (n s : Nat) (x0 x1 l1 x2 l2 : Str) (more : List Str)
    (a b : List V) (ha : (splitWs l1).mapM num = .ok a) (hb : (splitWs l2).mapM num = .ok b)
    (hs : a.length = s) (hn : s + b.length = n) :
    hFrequencies num n s (x0 :: x1 :: l1 :: x2 :: l2 :: more) = .ok (a ++ b) := by
  unfold hFrequencies
  simp only [List.drop_succ_cons, List.drop_zero, List.headD_cons, ha, hb, bind, Except.bind]
  have h1 : assignSlice s a = .ok a := by simp [assignSlice, hs]
  have h2 : assignSlice (n - s) b = .ok b := by
    have : b.length = n - s := by omega
    simp [assignSlice, this]
  rw [h1]
  simp only
  rw [h2]

/-- C89: a line with neither one number nor as many numbers as there are modes of its kind is
rejected. -/
theorem C89_wrong_number (num : Str → Except Err V) (n s : Nat) (x0 x1 l1 x2 l2 : Str)
    (a b : List V) (ha : (splitWs l1).mapM num = .ok a) (hb : (splitWs l2).mapM num = .ok b)
    (h : (a.length ≠ s ∧ a.length ≠ 1) ∨ (a.length = s ∧ b.length ≠ n - s ∧ b.length ≠ 1)) :
    hFrequencies num n s [x0, x1, l1, x2, l2] = .error .broadcast := by
  have bad : ∀ (m : Nat) (l : List V), l.length ≠ m → l.length ≠ 1 →
      assignSlice m l = .error .broadcast := by
    intro m l h1 h2
    unfold assignSlice
    rw [if_neg h1]
    match l, h2 with
    | [], _ => rfl
    | [_], h2 => exact absurd rfl h2
    | _ :: _ :: _, _ => rfl
  unfold hFrequencies
  simp only [List.drop_succ_cons, List.drop_zero, List.headD_cons, ha, hb, bind, Except.bind]
  rcases h with ⟨h1, h2⟩ | ⟨h1, h2, h3⟩
  · rw [bad s a h1 h2]
  · have : assignSlice s a = .ok a := by simp [assignSlice, h1]
    rw [this]
    simp only
    rw [bad _ b h2 h3]

/-- C89, refuted: a line with one number is taken for all modes of its kind. -/
theorem C89_one_frequency_refuted (num : Str → Except Err V) (v : V) (b : List V) (n : Nat)
    (x0 x1 l1 x2 l2 : Str) (ha : (splitWs l1).mapM num = .ok [v]) (hb : (splitWs l2).mapM num = .ok b)
    (hn : 3 + b.length = n) :
    hFrequencies num n 3 [x0, x1, l1, x2, l2] = .ok ([v, v, v] ++ b) := by
  unfold hFrequencies
  simp only [List.drop_succ_cons, List.drop_zero, List.headD_cons, ha, hb, bind, Except.bind]
  have h2 : assignSlice (n - 3) b = .ok b := by
    have : b.length = n - 3 := by omega
    simp [assignSlice, this]
  simp only [assignSlice, List.length_singleton]
  simp only [assignSlice] at h2
  rw [if_neg (by decide)]
  simp only [List.replicate]
  rw [h2]

/-! ### Instances -/

/-- A file with one surface and two modes. -/
def demo : AutoText 1 2 where
  title := c!"title"
  header := fun _ => c!"head"
  parentGradientTitle := c!"gradient"
  parentGradient := fun _ => c!"0.0"
  parentHessianTitle := c!"hessian"
  parentHessian := fun _ => c!"mode 1000.00 cm-1 7 eV"
  hamiltonianTitle := c!"Reference Hamiltonian"
  hamiltonian := fun _ => c!"5"
  linearTitle := c!"Gradients"
  linearHead := fun _ => c!"mode"
  linear := fun _ _ => c!"5"
  diagonalTitle := c!"Diagonal"
  diagonalHead := fun _ => c!"mode"
  diagonal := fun _ _ => c!"5"
  offDiagonalTitle := c!"Off-diagonal"
  offDiagonalHead := fun _ _ => c!"modes"
  offDiagonal := fun _ _ _ => c!"5"

/-- Conversions that know the number 5. -/
def demoConvert : Convert Nat 1 where
  grid := fun _ => .ok ()
  irreps := fun _ => .ok ()
  modes := fun _ => .ok ()
  gradient := fun _ => .ok ()
  coef := fun s => if s = c!"5" then .ok fun _ => 5 else .error .value
  float := fun _ => .ok 7

example : ∃ e, readAutoLines (fun x y => decide (x = y)) demoConvert 2 demo.lines = .error e :=
  C88_documented_refuted _ _ demo .value (by decide)

example : ∃ m, readAutoLines (fun x y => decide (x = y)) demoConvert 2 demo.linesTwice = .ok m ∧
    m.E 0 0 = 5 ∧ m.G2 0 1 0 0 = 5 := by
  obtain ⟨m, h, -, -, h1, -, -, -, h2⟩ := C88_reads_partial (fun x y => decide (x = y)) (by simp) demoConvert
    demo (fun _ => 7) (fun _ _ => 5) (fun _ _ _ => 5) (fun _ _ _ => 5) (fun _ _ _ _ => 5) rfl rfl rfl
    (fun _ => rfl) (fun _ => rfl) (fun _ => rfl) (fun _ _ => rfl) (fun _ => rfl) (fun _ _ => rfl)
    (fun _ _ _ => rfl) (by simp) (by simp) (by simp)
  exact ⟨m, h, h1 0 0, (h2 1 ⟨0, by decide⟩ 0 0).2⟩

example : numberOfModes (countLine c!"  " 2 c!" " c!"Number of symmetric normal modes" [] ::
    countLine c!"  " 1 c!" " c!"Number of non-A1 normal modes" [] :: []) = .ok (3, 2, []) :=
  (C89_counts c!"  " c!" " [] (by decide) 0 2 1 [] []).2

end Pibronic.Props.OldFormats
