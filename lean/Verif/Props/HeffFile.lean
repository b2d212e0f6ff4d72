import Verif.Lemmas.HeffFile

set_option autoImplicit false

/-!
Properties of the readers of the parameters in `*.h` files (C119).
-/
namespace Pibronic.Props.HeffFile
open Pibronic.Py Pibronic.Buffer Pibronic.HeffFile Pibronic.HeffFile.Spec

variable {V : Type}

private theorem plain_titles : '\n' ∉ titleReference ∧ '\n' ∉ titleLinear ∧ '\n' ∉ titleQuadratic ∧
    '\n' ∉ titleOffdiag ∧ '\n' ∉ titleCubic := by decide

/-- The positions of the two titles of a section. -/
private theorem section_found {lines : List Str} {title next first : Str} {inner : List Str}
    (hs : IsSection lines title next first inner) (ht : '\n' ∉ title) (ht0 : title ≠ [])
    (hn : '\n' ∉ next) (hn0 : next ≠ []) :
    ∃ L part s j, terminated lines = terminated (L ++ [first] ++ inner) ++ (part ++ s) ∧
      findString (terminated lines) title = .ok ((terminated L).length + j) ∧ j ≤ first.length ∧
      findString (terminated lines) next
        = .ok ((terminated (L ++ [first] ++ inner)).length + part.length) ∧
      (∀ l ∈ L, l ∈ lines) := by
  obtain ⟨before, last, after, rfl, h1, h2, h3, h4⟩ := hs.ex
  obtain ⟨j, hj, hj'⟩ := findString_lines ht ht0 before first (inner ++ last :: after) h1 h2
  obtain ⟨k, hk, hk'⟩ := findString_lines hn hn0 (before ++ first :: inner) last after h3 h4
  have e : before ++ first :: inner = before ++ [first] ++ inner := by simp
  refine ⟨before, last.take k, last.drop k ++ '\n' :: terminated after, j, ?_, ?_, by omega, ?_, ?_⟩
  · rw [e, terminated_app, terminated_cons, ← List.append_assoc (last.take k), List.take_append_drop]
  · rw [← hj]; simp
  · rw [hk, e, List.length_take, min_eq_left (by omega)]
  · intro l hl; simp [hl]

/-- The text of a frequency: not empty, on one line. -/
def Plain (w : Str) : Prop := w ≠ [] ∧ '\n' ∉ w

private theorem blocks_ok (num : Str → Except Err V) (A : Nat) (lines : List Str) (hl : ∀ l ∈ lines, '\n' ∉ l)
    (title next : Str) (first : Str) (inner : List Str) (hs : IsSection lines title next first inner)
    (ht : '\n' ∉ title) (ht0 : title ≠ []) (hn : '\n' ∉ next) (hn0 : next ≠ [])
    (freqs : List Str) (rows : List (List Str)) (vals : List (List (List V)))
    (hb : List.Forall₂ (fun w r => Plain w ∧ ¬ w <:+: first ∧ IsBelow inner w r ∧ r.length = A) freqs rows)
    (hv : List.Forall₂ (List.Forall₂ (Shows num A)) rows vals) :
    extractBlocks num (some A) title next (terminated lines) freqs = .ok vals := by
  obtain ⟨L, part, s, j, e1, e2, e3, e4, -⟩ := section_found hs ht ht0 hn hn0
  have hi : ∀ l ∈ inner, '\n' ∉ l := by
    obtain ⟨before, last, after, rfl, -⟩ := hs.ex
    intro l hm; exact hl l (by simp [hm])
  unfold extractBlocks
  rw [e2, e4]
  simp only [bind, Except.bind]
  rw [Pibronic.Postprocessing.mapM_ok_iff]
  clear e2 e4
  induction hb generalizing vals with
  | nil => cases hv; exact .nil
  | cons h1 h2 ih =>
    cases hv with
    | cons g1 g2 =>
      refine .cons ?_ (ih _ g2)
      obtain ⟨⟨w0, wn⟩, hf, ⟨bef, header, aft, rfl, hh, hbef⟩, hA⟩ := h1
      have := blockAt_lines num A wn w0 (L := L ++ [first]) (pos := (terminated L).length + j)
        (Or.inr ⟨L, first, j, rfl, e3, rfl, hf⟩) bef header _ aft part s _ hbef hh
        (hi _ (by simp)) (fun r hr => hi r (by simp [hr])) hA g1
      rw [e1]
      have e : ∀ r : List Str, L ++ [first] ++ (bef ++ header :: r ++ aft)
          = L ++ [first] ++ bef ++ header :: (r ++ aft) := by simp
      rw [e, this]

/-- C119: the linear couplings of a mode are the numbers below the first line of their section that shows
the mode's frequency.  It is assumed that the number of surfaces is known. -/
theorem C119_linear_partial (num : Str → Except Err V) (A : Nat) (lines : List Str)
    (hl : ∀ l ∈ lines, '\n' ∉ l) (first : Str) (inner : List Str)
    (hs : IsSection lines c!"Gradients of heff along normal modes"
      c!"Diagonal second order corrections of heff" first inner)
    (freqs : List Str) (rows : List (List Str)) (vals : List (List (List V)))
    (hb : List.Forall₂ (fun w r => Plain w ∧ ¬ w <:+: first ∧ IsBelow inner w r ∧ r.length = A) freqs rows)
    (hv : List.Forall₂ (List.Forall₂ (Shows num A)) rows vals) :
    extractLinear num (some A) (terminated lines) freqs = .ok vals :=
  blocks_ok num A lines hl _ _ first inner hs plain_titles.2.1 (by decide) plain_titles.2.2.1 (by decide)
    freqs rows vals hb hv

/-- C119: the same for the quadratic couplings of a mode with itself. -/
theorem C119_quadratic_partial (num : Str → Except Err V) (A : Nat) (lines : List Str)
    (hl : ∀ l ∈ lines, '\n' ∉ l) (first : Str) (inner : List Str)
    (hs : IsSection lines c!"Diagonal second order corrections of heff"
      c!"Off-diagonal second order corrections heff" first inner)
    (freqs : List Str) (rows : List (List Str)) (vals : List (List (List V)))
    (hb : List.Forall₂ (fun w r => Plain w ∧ ¬ w <:+: first ∧ IsBelow inner w r ∧ r.length = A) freqs rows)
    (hv : List.Forall₂ (List.Forall₂ (Shows num A)) rows vals) :
    extractQuadratic num (some A) (terminated lines) freqs = .ok vals :=
  blocks_ok num A lines hl _ _ first inner hs plain_titles.2.2.1 (by decide) plain_titles.2.2.2.1 (by decide)
    freqs rows vals hb hv

/-- A block: a header and the lines below it. -/
structure Block where
  header : Str
  rows : List Str

/-- C119: a section that lists the modes in their order is read mode by mode, if the frequency of each mode
is shown in the mode's header and on no line before it. -/
theorem C119_own_block_partial (num : Str → Except Err V) (A : Nat) (lines : List Str)
    (hl : ∀ l ∈ lines, '\n' ∉ l) (first : Str) (blocks : List Block) (rest : List Str)
    (hs : IsSection lines c!"Gradients of heff along normal modes"
      c!"Diagonal second order corrections of heff" first
      (blocks.flatMap (fun b => b.header :: b.rows) ++ rest))
    (freqs : List Str) (hlen : freqs.length = blocks.length) (hp : ∀ w ∈ freqs, Plain w ∧ ¬ w <:+: first)
    (hown : ∀ i (h : i < blocks.length), freqs[i] <:+: blocks[i].header ∧ blocks[i].rows.length = A)
    (hother : ∀ i (h : i < blocks.length), ∀ b ∈ blocks.take i, ∀ l ∈ b.header :: b.rows, ¬ freqs[i] <:+: l)
    (vals : List (List (List V)))
    (hv : List.Forall₂ (List.Forall₂ (Shows num A)) (blocks.map Block.rows) vals) :
    extractLinear num (some A) (terminated lines) freqs = .ok vals := by
  refine C119_linear_partial num A lines hl first _ hs freqs (blocks.map Block.rows) vals ?_ hv
  rw [List.forall₂_iff_get]
  refine ⟨by simp [hlen], fun i h1 h2 => ?_⟩
  have hi : i < blocks.length := by omega
  simp only [List.get_eq_getElem, List.getElem_map]
  refine ⟨(hp _ (List.getElem_mem _)).1, (hp _ (List.getElem_mem _)).2, ⟨⟨(blocks.take i).flatMap (fun b => b.header :: b.rows),
    blocks[i].header, (blocks.drop (i + 1)).flatMap (fun b => b.header :: b.rows) ++ rest, ?_, (hown i hi).1, ?_⟩⟩,
    (hown i hi).2⟩
  · have e : blocks = blocks.take i ++ blocks[i] :: blocks.drop (i + 1) := by simp
    have := congrArg (List.flatMap fun b => b.header :: b.rows) e
    rw [this, List.flatMap_append, List.flatMap_cons]
    simp only [List.append_assoc, List.cons_append]
  · intro l hm
    obtain ⟨b, hb, hm⟩ := List.mem_flatMap.mp hm
    exact hother i hi b hb l hm

/-! ### The reference Hamiltonian -/

private theorem strip_nl (s : Str) : Workflow.strip ('\n' :: s) = Workflow.strip s := by
  unfold Workflow.strip
  rw [List.dropWhile_cons_of_pos (by decide)]

private theorem shows_ink {num : Str → Except Err V} {A : Nat} {r : Str} {v : List V} (h : Shows num A r v)
    (hA : A ≠ 0) : ∃ c ∈ r, isWs c = false := by
  by_contra hc
  push Not at hc
  have : ∀ r : Str, (∀ c ∈ r, isWs c ≠ false) → splitWs r = [] := by
    intro r
    induction r with
    | nil => intro _; rfl
    | cons c r ih =>
      intro h
      have h1 := h c (by simp)
      rw [Bool.ne_false_iff] at h1
      unfold splitWs
      rw [if_pos h1]
      exact ih fun d hd => h d (by simp [hd])
  have h1 := h.1
  rw [this r hc] at h1
  exact hA h1.symm

/-- C119: the reference Hamiltonian is the matrix of numbers between its title and the title of the linear
couplings.  It is assumed that the number of surfaces is known. -/
theorem C119_energies_partial (num : Str → Except Err V) (A : Nat) (before : List Str) (first : Str)
    (ham blanks : List Str) (indent tail : Str) (after : List Str)
    (hl : ∀ l ∈ before ++ first :: (ham ++ blanks), '\n' ∉ l)
    (h1 : c!"Reference Hamiltonian" <:+: first) (h2 : ∀ l ∈ before, ¬ c!"Reference Hamiltonian" <:+: l)
    (h3 : ∀ l ∈ before ++ first :: (ham ++ blanks), ¬ c!"Gradients of heff along normal modes" <:+: l)
    (hblank : ∀ l ∈ indent :: blanks, ∀ c ∈ l, isWs c = true)
    (vals : List (List V)) (hA : ham.length = A) (hv : List.Forall₂ (Shows num A) ham vals) :
    extractEnergies num (some A) (terminated (before ++ first :: (ham ++ blanks) ++
      (indent ++ c!"Gradients of heff along normal modes" ++ tail) :: after)) = .ok vals := by
  set last := indent ++ c!"Gradients of heff along normal modes" ++ tail with hlast'
  have hin : titleLinear <:+: last := ⟨indent, tail, rfl⟩
  obtain ⟨j, hj, hj'⟩ := findString_lines plain_titles.1 (by decide) before first
    ((ham ++ blanks) ++ last :: after) h1 h2
  obtain ⟨k, hk, hk'⟩ := findString_lines plain_titles.2.1 (by decide) (before ++ first :: (ham ++ blanks)) last
    after hin h3
  have hki : k ≤ indent.length := by
    have hb : terminated (before ++ first :: (ham ++ blanks) ++ last :: after)
        = terminated (before ++ first :: (ham ++ blanks)) ++ (indent ++ (titleLinear ++ (tail ++ '\n' :: terminated after))) := by
      rw [terminated_app _ (last :: after), terminated_cons, hlast']
      simp [titleLinear]
    have hu := hk
    unfold findString at hu
    cases hm : mmFind (terminated (before ++ first :: (ham ++ blanks) ++ last :: after)) titleLinear 0 with
    | none => rw [hm] at hu; cases hu
    | some i =>
      rw [hm] at hu
      simp only [Except.ok.injEq] at hu
      obtain ⟨-, -, hmin⟩ := mmFind_some hm
      by_contra hlt
      refine hmin ((terminated (before ++ first :: (ham ++ blanks))).length + indent.length) (by omega)
        (by omega) ?_
      rw [hb, ← List.append_assoc, ← List.length_append, List.drop_left]
      exact List.prefix_append _ _
  have e1 : terminated (before ++ first :: (ham ++ blanks) ++ last :: after)
      = terminated before ++ (first ++ '\n' :: (terminated (ham ++ blanks) ++ (last ++ '\n' :: terminated after))) := by
    rw [List.append_assoc, terminated_app, List.cons_append, terminated_cons, terminated_app (ham ++ blanks),
      terminated_cons]
  have hline := lineAt_mid before first (terminated (ham ++ blanks) ++ (last ++ '\n' :: terminated after))
    (hl first (by simp)) j (by omega)
  have hj2 : findString (terminated (before ++ first :: (ham ++ blanks) ++ last :: after)) titleReference
      = .ok ((terminated before).length + j) := by
    rw [← hj, List.append_assoc, List.cons_append]
  unfold extractEnergies
  rw [hj2, hk]
  simp only [bind, Except.bind]
  rw [e1, hline]
  have e2 : (terminated before).length + j + (first.drop j ++ ['\n']).length
      = (terminated (before ++ [first])).length := by
    rw [terminated_app, terminated_cons]
    simp only [List.length_append, List.length_cons, List.length_drop, terminated, List.flatMap_nil,
      List.length_nil]
    omega
  have e3 : terminated before ++ (first ++ '\n' :: (terminated (ham ++ blanks) ++ (last ++ '\n' :: terminated after)))
      = terminated (before ++ [first]) ++ (terminated (ham ++ blanks) ++ (last ++ '\n' :: terminated after)) := by
    rw [terminated_app before, terminated_cons]
    simp [terminated]
  have e4 : (terminated (before ++ first :: (ham ++ blanks))).length + k
      = (terminated (before ++ [first])).length + ((terminated (ham ++ blanks)).length + k) := by
    have : before ++ first :: (ham ++ blanks) = before ++ [first] ++ (ham ++ blanks) := by simp
    rw [this, terminated_app _ (ham ++ blanks), List.length_append, Nat.add_assoc]
  rw [e2, e3, e4, if_pos (by omega), List.drop_left, Nat.add_sub_cancel_left, List.take_append,
    List.take_of_length_le (by omega), Nat.add_sub_cancel_left, List.take_append_of_le_length (by omega)]
  have hw := Pibronic.Orbitals.strip_rows ham (terminated blanks ++ last.take k)
    (fun r hr => hl r (by simp [hr]))
    (fun r hr => by
      cases hv with
      | nil => cases hr
      | cons g1 g2 => cases hr; exact shows_ink g1 (by simp only [← hA]; simp))
    (fun r hr => by
      obtain ⟨i, hi⟩ := List.mem_iff_getElem.mp (List.mem_of_getLast? hr)
      obtain ⟨hi, rfl⟩ := hi
      have := (List.forall₂_iff_get.mp hv).2 i hi (by rw [← (List.forall₂_iff_get.mp hv).1]; exact hi)
      simp only [List.get_eq_getElem] at this
      exact shows_ink this (by omega))
    (by
      intro c hc
      rcases List.mem_append.mp hc with hc | hc
      · unfold terminated at hc
        obtain ⟨l, hl1, hl2⟩ := List.mem_flatMap.mp hc
        rcases List.mem_append.mp hl2 with h | h
        · exact hblank l (by simp [hl1]) c h
        · simp only [List.mem_singleton] at h; subst h; decide
      · rw [hlast', List.append_assoc, List.take_append_of_le_length hki] at hc
        exact hblank indent (by simp) c (List.mem_of_mem_take hc))
  rw [strip_nl] at hw
  rw [terminated_app ham blanks, List.append_assoc]
  set got := Molecule.splitlines (Workflow.strip (terminated ham ++ (terminated blanks ++ last.take k))) with hgot
  have hlen : got.length = ham.length := by simpa using congrArg List.length hw
  rw [Pibronic.Postprocessing.mapM_ok_iff, List.forall₂_iff_get]
  have hfv := List.forall₂_iff_get.mp hv
  refine ⟨by simp [← hfv.1, hA], fun i g1 g2 => ?_⟩
  have hi : i < ham.length := by rw [hfv.1]; exact g2
  have hsh := hfv.2 i hi g2
  simp only [List.get_eq_getElem, List.getElem_range] at hsh ⊢
  have hit : item got i = .ok got[i] := by
    unfold item
    rw [List.getElem?_eq_getElem (by omega)]
  rw [hit]
  simp only
  have hwi : splitWs (got[i]'(by omega)) = splitWs ham[i] := by
    have := congrArg (fun l => l[i]?) hw
    simpa [List.getElem?_map, List.getElem?_eq_getElem, hi, hlen] using this
  apply setRow_shows
  unfold Shows at hsh ⊢
  rw [hwi]
  exact hsh

/-! ### Pairs of modes -/

/-- The lines of a block. -/
def Block.lines (b : Block) : List Str := b.header :: b.rows

/-- A block for a pair of modes: the header shows both frequencies, and there is a line for each surface. -/
structure ForPair (A : Nat) (w1 w2 : Str) (b : Block) : Prop where
  one : w1 <:+: b.header
  two : w2 <:+: b.header
  rows : b.rows.length = A

private theorem pairsWith_ok (num : Str → Except Err V) (A : Nat) (all : List Str) (ha : ∀ w ∈ all, Plain w)
    (w1 : Str) (h1 : w1 ∈ all) (part s : Str) :
    ∀ (ws : List Str) (bs : List Block) (vs : List (List (List V))) (L zs : List Str) (pos : Nat),
      (∀ w ∈ ws, w ∈ all) → (∀ w ∈ all, At L pos w) → (∀ l ∈ bs.flatMap Block.lines, '\n' ∉ l) →
      List.Forall₂ (ForPair A w1) ws bs →
      List.Forall₂ (fun b v => List.Forall₂ (Shows num A) b.rows v) bs vs →
      ∃ pos', pairsWith num (some A) (terminated (L ++ (bs.flatMap Block.lines ++ zs)) ++ (part ++ s))
          ((terminated (L ++ (bs.flatMap Block.lines ++ zs))).length + part.length) w1 ws pos = .ok (vs, pos') ∧
        ∀ w ∈ all, At (L ++ bs.flatMap Block.lines) pos' w := by
  intro ws
  induction ws with
  | nil =>
    intro bs vs L zs pos _ hp _ hb hv
    cases hb; cases hv
    exact ⟨pos, by simp [pairsWith], by simpa using hp⟩
  | cons w2 ws ih =>
    intro bs vs L zs pos hw hp hn hb hv
    cases hb with
    | cons b1 b2 =>
      rename_i b bs
      cases hv with
      | cons v1 v2 =>
        rename_i v vs
        have hw2 := hw w2 (by simp)
        have el : (b :: bs).flatMap Block.lines ++ zs = b.header :: (b.rows ++ (bs.flatMap Block.lines ++ zs)) := by
          simp [Block.lines]
        obtain ⟨i, hi⟩ := mmFindIn_some (ha w1 h1).2 (ha w1 h1).1 (hp w1 h1) b.header
          (b.rows ++ (bs.flatMap Block.lines ++ zs)) part s b1.one
        have hblk := blockAt_lines num A (ha w2 hw2).2 (ha w2 hw2).1 (hp w2 hw2) [] b.header b.rows
          (bs.flatMap Block.lines ++ zs) part s v (by simp) b1.two (hn _ (by simp [Block.lines]))
          (fun r hr => hn r (by simp [Block.lines, hr])) b1.rows v1
        rw [List.append_nil] at hblk
        have e2 : L ++ b.header :: (b.rows ++ (bs.flatMap Block.lines ++ zs))
            = (L ++ b.header :: b.rows) ++ (bs.flatMap Block.lines ++ zs) := by simp
        obtain ⟨pos', hp1, hp2⟩ := ih bs vs (L ++ b.header :: b.rows) zs
          (terminated (L ++ b.header :: b.rows)).length (fun w h => hw w (by simp [h]))
          (fun w _ => Or.inl rfl) (fun l hl => hn l (by simp only [List.flatMap_cons, List.mem_append]; exact Or.inr hl))
          b2 v2
        refine ⟨pos', ?_, ?_⟩
        · rw [el, pairsWith, hi]
          simp only [hblk, bind, Except.bind]
          rw [e2, hp1]
        · have : L ++ (b :: bs).flatMap Block.lines = L ++ b.header :: b.rows ++ bs.flatMap Block.lines := by
            simp [Block.lines]
          rw [this]; exact hp2

/-- The blocks of the remaining modes `ws`, after the modes `before`. -/
private def PairBlocks (A : Nat) : List Str → List Str → List (List Block) → Prop
  | _, [], gs => gs = []
  | _, _ :: _, [] => False
  | before, w :: ws, g :: gs => List.Forall₂ (ForPair A w) before g ∧ PairBlocks A (before ++ [w]) ws gs

private theorem pairs_ok (num : Str → Except Err V) (A : Nat) (all : List Str) (ha : ∀ w ∈ all, Plain w)
    (part s : Str) :
    ∀ (ws before : List Str) (gs : List (List Block)) (vs : List (List (List (List V)))) (L zs : List Str)
      (pos : Nat), before ++ ws = all → (∀ w ∈ all, At L pos w) →
      (∀ l ∈ gs.flatten.flatMap Block.lines, '\n' ∉ l) → PairBlocks A before ws gs →
      List.Forall₂ (List.Forall₂ fun b v => List.Forall₂ (Shows num A) b.rows v) gs vs →
      pairs num (some A) (terminated (L ++ (gs.flatten.flatMap Block.lines ++ zs)) ++ (part ++ s))
          ((terminated (L ++ (gs.flatten.flatMap Block.lines ++ zs))).length + part.length) before ws pos
        = .ok vs := by
  intro ws
  induction ws with
  | nil =>
    intro before gs vs L zs pos _ _ _ hb hv
    cases hb; cases hv
    rfl
  | cons w ws ih =>
    intro before gs vs L zs pos hall hp hn hb hv
    cases gs with
    | nil => cases hb
    | cons g gs =>
      obtain ⟨b1, b2⟩ := hb
      cases hv with
      | cons v1 v2 =>
        rename_i v vs
        have ef : (g :: gs).flatten.flatMap Block.lines ++ zs
            = g.flatMap Block.lines ++ (gs.flatten.flatMap Block.lines ++ zs) := by simp
        obtain ⟨pos', h1, h2⟩ := pairsWith_ok num A all ha w (by rw [← hall]; simp) part s before g v L
          (gs.flatten.flatMap Block.lines ++ zs) pos (fun x hx => by rw [← hall]; simp [hx]) hp
          (fun l hl => hn l (by rw [List.flatten_cons, List.flatMap_append]; exact List.mem_append_left _ hl)) b1 v1
        have h3 := ih (before ++ [w]) gs vs (L ++ g.flatMap Block.lines) zs pos' (by rw [← hall]; simp) h2
          (fun l hl => hn l (by rw [List.flatten_cons, List.flatMap_append]; exact List.mem_append_right _ hl)) b2 v2
        rw [List.append_assoc] at h3
        rw [ef, pairs, h1]
        simp only [bind, Except.bind, h3]

/-- C119: the quadratic couplings of pairs of modes are read block by block, if the section lists the pairs in
their order (each mode with all modes before it) and the header of each block shows both frequencies.  It is
assumed that the number of surfaces is known. -/
theorem C119_pairs_partial (num : Str → Except Err V) (A : Nat) (lines : List Str)
    (hl : ∀ l ∈ lines, '\n' ∉ l) (first : Str) (groups : List (List Block)) (rest : List Str)
    (hs : IsSection lines c!"Off-diagonal second order corrections heff"
      c!"Diagonal Cubic corrections of heff" first (groups.flatten.flatMap Block.lines ++ rest))
    (freqs : List Str) (hlen : groups.length = freqs.length) (hp : ∀ w ∈ freqs, Plain w ∧ ¬ w <:+: first)
    (hg : ∀ i (h : i < freqs.length), List.Forall₂ (ForPair A freqs[i]) (freqs.take i) groups[i])
    (vals : List (List (List (List V))))
    (hv : List.Forall₂ (List.Forall₂ fun b v => List.Forall₂ (Shows num A) b.rows v) groups vals) :
    extractOffdiag num (some A) (terminated lines) freqs = .ok vals := by
  obtain ⟨L, part, s, j, e1, e2, e3, e4, -⟩ := section_found hs plain_titles.2.2.2.1 (by decide)
    plain_titles.2.2.2.2 (by decide)
  have hi : ∀ l ∈ groups.flatten.flatMap Block.lines, '\n' ∉ l := by
    obtain ⟨before, last, after, rfl, -⟩ := hs.ex
    intro l hm
    exact hl l (by
      simp only [List.mem_append, List.mem_cons]
      exact Or.inl (Or.inr (Or.inr (Or.inl hm))))
  have key : ∀ (ws before : List Str) (gs : List (List Block)), gs.length = ws.length →
      (∀ i (h : i < ws.length) (h' : i < gs.length), List.Forall₂ (ForPair A ws[i]) (before ++ ws.take i) gs[i]) →
      PairBlocks A before ws gs := by
    intro ws
    induction ws with
    | nil => intro before gs h _; exact List.eq_nil_of_length_eq_zero h
    | cons w ws ih =>
      intro before gs h hh
      cases gs with
      | nil => cases h
      | cons g gs =>
        have h0 := hh 0 (by simp) (by simp)
        rw [List.take_zero, List.append_nil] at h0
        refine ⟨h0, ih _ gs (by simpa using h) fun i hi hi' => ?_⟩
        have h1 := hh (i + 1) (by simpa using hi) (by simpa using hi')
        rw [List.take_succ_cons] at h1
        rw [List.append_assoc]
        exact h1
  unfold extractOffdiag
  have e2' : findString (terminated lines) titleOffdiag = .ok ((terminated L).length + j) := e2
  have e4' : findString (terminated lines) titleCubic = .ok ((terminated
    (L ++ [first] ++ (groups.flatten.flatMap Block.lines ++ rest))).length + part.length) := e4
  rw [e2', e4', e1]
  simp only [bind, Except.bind]
  exact pairs_ok num A freqs (fun w h => (hp w h).1) part s freqs [] groups vals (L ++ [first]) rest _ rfl
    (fun w h => Or.inr ⟨L, first, j, rfl, e3, rfl, (hp w h).2⟩) hi
    (key freqs [] groups hlen fun i h h' => by simpa using hg i h) hv

/-! ### Any file -/

private theorem setRow_length {num : Str → Except Err V} {A : Nat} {line : Str} {v : List V}
    (h : setRow num A line = .ok v) : v.length = A := by
  unfold setRow OldFormats.assignSlice at h
  by_cases hA : (splitWs line).length = A
  · rw [if_pos hA] at h
    simp only [bind, Except.bind] at h
    rw [Pibronic.Postprocessing.mapM_ok_iff] at h
    rw [← h.length_eq, hA]
  · rw [if_neg hA] at h
    split at h
    · simp only [bind, Except.bind] at h
      rw [Pibronic.Postprocessing.mapM_ok_iff] at h
      rw [← h.length_eq, List.length_replicate]
    · cases h

private theorem rowsAt_shape {num : Str → Except Err V} {A : Nat} {buf : Str} :
    ∀ {n pos : Nat} {vs : List (List V)} {q : Nat}, rowsAt num A buf n pos = .ok (vs, q) →
      vs.length = n ∧ ∀ r ∈ vs, r.length = A := by
  intro n
  induction n with
  | zero => intro pos vs q h; cases h; simp
  | succ n ih =>
    intro pos vs q h
    rw [rowsAt] at h
    cases h1 : setRow num A (lineAt buf pos) with
    | error e => rw [h1] at h; cases h
    | ok row =>
      rw [h1] at h
      simp only [bind, Except.bind] at h
      cases h2 : rowsAt num A buf n (pos + (lineAt buf pos).length) with
      | error e => rw [h2] at h; cases h
      | ok p =>
        obtain ⟨rows, q'⟩ := p
        rw [h2] at h
        simp only [Except.ok.injEq, Prod.mk.injEq] at h
        obtain ⟨rfl, -⟩ := h
        obtain ⟨h3, h4⟩ := ih h2
        refine ⟨by simp [h3], fun r hr => ?_⟩
        rcases List.mem_cons.mp hr with rfl | hr
        · exact setRow_length h1
        · exact h4 r hr

/-- A matrix with a row and a column for each surface. -/
def Square (A : Nat) (m : List (List V)) : Prop := m.length = A ∧ ∀ r ∈ m, r.length = A

private theorem blockAt_shape {num : Str → Except Err V} {A : Nat} {buf w : Str} {a b q : Nat}
    {vs : List (List V)} (h : blockAt num (some A) buf w a b = .ok (vs, q)) : Square A vs := by
  unfold blockAt at h
  split at h
  · cases h
  · exact rowsAt_shape h

private theorem blocks_shape {num : Str → Except Err V} {A : Nat} {title next buf : Str} {freqs : List Str}
    {vals : List (List (List V))} (h : extractBlocks num (some A) title next buf freqs = .ok vals) :
    vals.length = freqs.length ∧ ∀ m ∈ vals, Square A m := by
  unfold extractBlocks at h
  cases h1 : findString buf title with
  | error e => rw [h1] at h; cases h
  | ok a =>
    cases h2 : findString buf next with
    | error e => rw [h1, h2] at h; cases h
    | ok b =>
      rw [h1, h2] at h
      simp only [bind, Except.bind] at h
      refine ⟨((Pibronic.Postprocessing.mapM_ok_iff _ _ _).mp h).length_eq.symm, fun m hm => ?_⟩
      obtain ⟨w, -, hw⟩ := (Pibronic.Postprocessing.mapM_mem h m).mp hm
      cases h3 : blockAt num (some A) buf w a b with
      | error e => rw [h3] at hw; cases hw
      | ok p =>
        rw [h3] at hw
        simp only [Except.ok.injEq] at hw
        subst hw
        exact blockAt_shape h3

/-- C119: whatever the file holds, a call that returns has found a square matrix for every mode. -/
theorem C119_shape (num : Str → Except Err V) (A : Nat) (buf : Str) (freqs : List Str)
    (vals : List (List (List V)))
    (h : extractLinear num (some A) buf freqs = .ok vals ∨ extractQuadratic num (some A) buf freqs = .ok vals) :
    vals.length = freqs.length ∧ ∀ m ∈ vals, m.length = A ∧ ∀ r ∈ m, r.length = A := by
  rcases h with h | h
  · exact blocks_shape h
  · exact blocks_shape h

/-- C119: the same for the reference Hamiltonian. -/
theorem C119_energies_shape (num : Str → Except Err V) (A : Nat) (buf : Str) (vals : List (List V))
    (h : extractEnergies num (some A) buf = .ok vals) : vals.length = A ∧ ∀ r ∈ vals, r.length = A := by
  unfold extractEnergies at h
  cases h1 : findString buf titleReference with
  | error e => rw [h1] at h; cases h
  | ok a =>
    cases h2 : findString buf titleLinear with
    | error e => rw [h1, h2] at h; cases h
    | ok b =>
      rw [h1, h2] at h
      simp only [bind, Except.bind] at h
      refine ⟨by simpa using ((Pibronic.Postprocessing.mapM_ok_iff _ _ _).mp h).length_eq.symm, fun r hr => ?_⟩
      obtain ⟨d, -, hd⟩ := (Pibronic.Postprocessing.mapM_mem h r).mp hr
      split at hd
      · cases hd
      · exact setRow_length hd

private theorem pairsWith_shape {num : Str → Except Err V} {A : Nat} {buf w1 : Str} {b : Nat} :
    ∀ {ws : List Str} {pos : Nat} {vs : List (List (List V))} {q : Nat},
      pairsWith num (some A) buf b w1 ws pos = .ok (vs, q) →
      vs.length = ws.length ∧ ∀ m ∈ vs, Square A m := by
  intro ws
  induction ws with
  | nil => intro pos vs q h; cases h; simp
  | cons w ws ih =>
    intro pos vs q h
    rw [pairsWith] at h
    split at h
    · cases h
    · cases h1 : blockAt num (some A) buf w pos b with
      | error e => rw [h1] at h; cases h
      | ok p =>
        obtain ⟨m, p1⟩ := p
        rw [h1] at h
        simp only [bind, Except.bind] at h
        cases h2 : pairsWith num (some A) buf b w1 ws p1 with
        | error e => rw [h2] at h; cases h
        | ok p =>
          obtain ⟨ms, p2⟩ := p
          rw [h2] at h
          simp only [Except.ok.injEq, Prod.mk.injEq] at h
          obtain ⟨rfl, -⟩ := h
          obtain ⟨h3, h4⟩ := ih h2
          refine ⟨by simp [h3], fun x hx => ?_⟩
          rcases List.mem_cons.mp hx with rfl | hx
          · exact blockAt_shape h1
          · exact h4 x hx

private theorem pairs_shape {num : Str → Except Err V} {A : Nat} {buf : Str} {b : Nat} :
    ∀ {ws before : List Str} {pos : Nat} {vs : List (List (List (List V)))},
      pairs num (some A) buf b before ws pos = .ok vs →
      vs.length = ws.length ∧ ∀ i (h : i < vs.length), vs[i].length = before.length + i ∧ ∀ m ∈ vs[i], Square A m := by
  intro ws
  induction ws with
  | nil => intro before pos vs h; cases h; simp
  | cons w ws ih =>
    intro before pos vs h
    rw [pairs] at h
    cases h1 : pairsWith num (some A) buf b w before pos with
    | error e => rw [h1] at h; cases h
    | ok p =>
      obtain ⟨g, p1⟩ := p
      rw [h1] at h
      simp only [bind, Except.bind] at h
      cases h2 : pairs num (some A) buf b (before ++ [w]) ws p1 with
      | error e => rw [h2] at h; cases h
      | ok gs =>
        rw [h2] at h
        simp only [Except.ok.injEq] at h
        subst h
        obtain ⟨h3, h4⟩ := ih h2
        refine ⟨by simp [h3], fun i hi => ?_⟩
        cases i with
        | zero => exact pairsWith_shape h1
        | succ i =>
          obtain ⟨h5, h6⟩ := h4 i (by simpa using hi)
          refine ⟨?_, h6⟩
          rw [List.getElem_cons_succ, h5]
          simp only [List.length_append, List.length_singleton]
          omega

/-- C119: the same for pairs: each mode has a square matrix with every mode before it. -/
theorem C119_pairs_shape (num : Str → Except Err V) (A : Nat) (buf : Str) (freqs : List Str)
    (vals : List (List (List (List V)))) (h : extractOffdiag num (some A) buf freqs = .ok vals) :
    vals.length = freqs.length ∧ ∀ i (h : i < vals.length), vals[i].length = i ∧
      ∀ m ∈ vals[i], m.length = A ∧ ∀ r ∈ m, r.length = A := by
  unfold extractOffdiag at h
  cases h1 : findString buf titleOffdiag with
  | error e => rw [h1] at h; cases h
  | ok a =>
    cases h2 : findString buf titleCubic with
    | error e => rw [h1, h2] at h; cases h
    | ok b =>
      rw [h1, h2] at h
      simp only [bind, Except.bind] at h
      obtain ⟨h3, h4⟩ := pairs_shape h
      exact ⟨h3, fun i hi => by simpa [Square] using h4 i hi⟩

/-- C119: a file without one of the two titles of a section is refused, whether or not the number of surfaces
is known. -/
theorem C119_no_title (num : Str → Except Err V) (states : Option Nat) (buf : Str) (freqs : List Str) :
    (¬ c!"Reference Hamiltonian" <:+: buf ∨ ¬ c!"Gradients of heff along normal modes" <:+: buf →
      extractEnergies num states buf = .error .exception) ∧
    (¬ c!"Gradients of heff along normal modes" <:+: buf ∨
        ¬ c!"Diagonal second order corrections of heff" <:+: buf →
      extractLinear num states buf freqs = .error .exception) ∧
    (¬ c!"Diagonal second order corrections of heff" <:+: buf ∨
        ¬ c!"Off-diagonal second order corrections heff" <:+: buf →
      extractQuadratic num states buf freqs = .error .exception) ∧
    (¬ c!"Off-diagonal second order corrections heff" <:+: buf ∨
        ¬ c!"Diagonal Cubic corrections of heff" <:+: buf →
      extractOffdiag num states buf freqs = .error .exception) := by
  have key : ∀ t : Str, ¬ t <:+: buf → findString buf t = .error .exception := by
    intro t ht
    unfold findString
    rw [mmFind_none.mpr (by simpa using ht)]
  have all : ∀ t : Str, (∃ i, findString buf t = .ok i) ∨ findString buf t = .error .exception := by
    intro t
    unfold findString
    cases mmFind buf t 0 with
    | none => exact Or.inr rfl
    | some i => exact Or.inl ⟨i, rfl⟩
  have two : ∀ {β : Type} (t t' : Str) (f : Nat → Nat → Except Err β), ¬ t <:+: buf ∨ ¬ t' <:+: buf →
      (findString buf t >>= fun a => findString buf t' >>= fun b => f a b) = .error .exception := by
    intro β t t' f h
    rcases all t with ⟨i, h1⟩ | h1
    · rw [h1]
      rcases h with h | h
      · rw [key t h] at h1; cases h1
      · rw [key t' h]; rfl
    · rw [h1]; rfl
  exact ⟨two _ _ _, two _ _ _, two _ _ _, two _ _ _⟩

/-- C119: a frequency that is shown nowhere in the section is an error. -/
theorem C119_no_frequency (num : Str → Except Err V) (states : Option Nat) (lines : List Str)
    (first : Str) (inner : List Str)
    (hs : IsSection lines c!"Gradients of heff along normal modes"
      c!"Diagonal second order corrections of heff" first inner)
    (w : Str) (hw : Plain w) (hno : ∀ l ∈ lines, ¬ w <:+: l) (ws ws' : List Str) (vals : List (List (List V)))
    (hok : extractLinear num states (terminated lines) ws = .ok vals) :
    extractLinear num states (terminated lines) (ws ++ w :: ws') = .error .exception := by
  obtain ⟨L, part, s, j, e1, e2, e3, e4, -⟩ := section_found hs plain_titles.2.1 (by decide)
    plain_titles.2.2.1 (by decide)
  have e2' : findString (terminated lines) titleLinear = .ok ((terminated L).length + j) := e2
  have e4' : findString (terminated lines) titleQuadratic = .ok ((terminated (L ++ [first] ++ inner)).length + part.length) := e4
  unfold extractLinear extractBlocks at hok ⊢
  rw [e2', e4'] at hok ⊢
  simp only [bind, Except.bind] at hok ⊢
  rw [List.mapM_append, hok, List.mapM_cons]
  have hnone : mmFindIn (terminated lines) w ((terminated L).length + j)
      ((terminated (L ++ [first] ++ inner)).length + part.length) = none := by
    unfold mmFindIn
    rw [findAt_none]
    intro h
    have : w <:+: terminated lines :=
      (h.trans (List.drop_suffix _ _).isInfix).trans (List.take_prefix _ _).isInfix
    have := findAt_none.mp (findAt_lines_none hw.2 hw.1 [] (fun h => hw.1 (List.infix_nil.mp h)) lines 0 hno)
    rw [List.append_nil] at this
    exact this ‹_›
  have : blockAt num states (terminated lines) w ((terminated L).length + j)
      ((terminated (L ++ [first] ++ inner)).length + part.length) = .error .exception := by
    unfold blockAt
    rw [hnone]
  rw [this]
  rfl

/-! ### What goes wrong -/

/-- C119, refuted: the number of surfaces is never known, because the only assignment to it comes after a call
that raises; then no parameter is read from any file. -/
theorem C119_unknown_surfaces_refuted (num : Str → Except Err V) (buf : Str) (w1 w2 : Str) (ws : List Str) :
    (extractEnergies num none buf = .error .name ∨ extractEnergies num none buf = .error .exception) ∧
    (extractLinear num none buf (w1 :: ws) = .error .name ∨
      extractLinear num none buf (w1 :: ws) = .error .exception) ∧
    (extractQuadratic num none buf (w1 :: ws) = .error .name ∨
      extractQuadratic num none buf (w1 :: ws) = .error .exception) ∧
    (extractOffdiag num none buf (w1 :: w2 :: ws) = .error .name ∨
      extractOffdiag num none buf (w1 :: w2 :: ws) = .error .exception) := by
  have all : ∀ t : Str, (∃ i, findString buf t = .ok i) ∨ findString buf t = .error .exception := by
    intro t
    unfold findString
    cases mmFind buf t 0 with
    | none => exact Or.inr rfl
    | some i => exact Or.inl ⟨i, rfl⟩
  have two : ∀ {β : Type} (t t' : Str) (f : Nat → Nat → Except Err β),
      (∀ a b, f a b = .error .name ∨ f a b = .error .exception) →
      (findString buf t >>= fun a => findString buf t' >>= fun b => f a b) = .error .name ∨
      (findString buf t >>= fun a => findString buf t' >>= fun b => f a b) = .error .exception := by
    intro β t t' f h
    rcases all t with ⟨i, h1⟩ | h1
    · rcases all t' with ⟨k, h2⟩ | h2
      · rw [h1, h2]; exact h i k
      · rw [h1, h2]; exact Or.inr rfl
    · rw [h1]; exact Or.inr rfl
  have blk : ∀ w a b, blockAt num none buf w a b = .error .name ∨ blockAt num none buf w a b = .error .exception := by
    intro w a b
    unfold blockAt
    cases mmFindIn buf w a b with
    | none => exact Or.inr rfl
    | some k => exact Or.inl rfl
  refine ⟨two _ _ _ fun a b => Or.inl rfl, two _ _ _ fun a b => ?_, two _ _ _ fun a b => ?_,
    two _ _ _ fun a b => ?_⟩
  · rw [List.mapM_cons]
    rcases blk w1 a b with h | h
    · rw [h]; exact Or.inl rfl
    · rw [h]; exact Or.inr rfl
  · rw [List.mapM_cons]
    rcases blk w1 a b with h | h
    · rw [h]; exact Or.inl rfl
    · rw [h]; exact Or.inr rfl
  · rw [pairs, pairsWith]
    simp only [bind, Except.bind]
    rw [pairs, List.nil_append, pairsWith]
    cases mmFindIn buf w2 a b with
    | none => exact Or.inr rfl
    | some k =>
      rcases blk w1 a b with h | h
      · simp only [h, bind, Except.bind]; exact Or.inl trivial
      · simp only [h, bind, Except.bind]; exact Or.inr trivial

/-- C119, refuted: two modes with the same frequency are given the same couplings, whatever the file holds. -/
theorem C119_degenerate_refuted (num : Str → Except Err V) (states : Option Nat) (buf : Str) (freqs : List Str)
    (vals : List (List (List V)))
    (h : extractLinear num states buf freqs = .ok vals ∨ extractQuadratic num states buf freqs = .ok vals)
    (i j : Nat) (hij : freqs[i]? = freqs[j]?) : vals[i]? = vals[j]? := by
  have key : ∀ title next : Str, extractBlocks num states title next buf freqs = .ok vals → vals[i]? = vals[j]? := by
    intro title next h
    unfold extractBlocks at h
    cases h1 : findString buf title with
    | error e => rw [h1] at h; cases h
    | ok a =>
      cases h2 : findString buf next with
      | error e => rw [h1, h2] at h; cases h
      | ok b =>
        rw [h1, h2] at h
        simp only [bind, Except.bind] at h
        have hf := List.forall₂_iff_get.mp ((Pibronic.Postprocessing.mapM_ok_iff _ _ _).mp h)
        by_cases hi : i < freqs.length
        · have hj : j < freqs.length := by
            rw [List.getElem?_eq_getElem hi] at hij
            exact (List.getElem?_eq_some_iff.mp hij.symm).1
          have g1 := hf.2 i hi (by rw [← hf.1]; exact hi)
          have g2 := hf.2 j hj (by rw [← hf.1]; exact hj)
          simp only [List.get_eq_getElem] at g1 g2
          have he : freqs[i] = freqs[j] := by
            rw [List.getElem?_eq_getElem hi, List.getElem?_eq_getElem hj] at hij
            exact Option.some.inj hij
          rw [he, g2] at g1
          rw [List.getElem?_eq_getElem (by rw [← hf.1]; exact hi), List.getElem?_eq_getElem (by rw [← hf.1]; exact hj)]
          exact congrArg some (Except.ok.inj g1).symm
        · have hj : ¬ j < freqs.length := by
            intro hj
            rw [List.getElem?_eq_none (by omega), List.getElem?_eq_getElem hj] at hij
            cases hij
          rw [List.getElem?_eq_none (by rw [← hf.1]; omega), List.getElem?_eq_none (by rw [← hf.1]; omega)]
  rcases h with h | h
  · exact key _ _ h
  · exact key _ _ h

/-! ### Examples -/

/-- A file with two surfaces and the modes 110.5 and 10.5. -/
def sample : List Str :=
  [c!"reference and coupling constants", c!" Reference Hamiltonian (eV)", c!"  1.0 0.5", c!"  0.5 2.0", c!"",
    c!"  Gradients of heff along normal modes", c!"mode 1: 110.5 cm-1", c!" 3 4", c!" 4 5",
    c!"mode 2: 10.5 cm-1", c!" 6 7", c!" 7 8", c!"Diagonal second order corrections of heff",
    c!"mode 1: 110.5 cm-1", c!" 9 1", c!" 1 9", c!"mode 2: 10.5 cm-1", c!" 2 3", c!" 3 2",
    c!"Off-diagonal second order corrections heff", c!"modes 10.5 and 110.5", c!"1 2", c!"2 1",
    c!"Diagonal Cubic corrections of heff"]

/-- Texts stand for numbers. -/
def asText : Str → Except Err Str := .ok

/-- Witness of `C119_energies_partial`. -/
example : extractEnergies asText (some 2) (terminated sample) = .ok [[c!"1.0", c!"0.5"], [c!"0.5", c!"2.0"]] :=
  C119_energies_partial asText 2 [c!"reference and coupling constants"] c!" Reference Hamiltonian (eV)"
    [c!"  1.0 0.5", c!"  0.5 2.0"] [c!""] c!"  " [] (sample.drop 6) (by decide) (by decide) (by decide)
    (by decide) (by decide) _ rfl
    (.cons ⟨by decide, by decide⟩ (.cons ⟨by decide, by decide⟩ .nil))

/-- C119, refuted: a frequency whose text is part of another one is given the couplings of the other mode. -/
theorem C119_part_of_text_refuted :
    extractLinear asText (some 2) (terminated sample) [c!"110.5", c!"10.5"]
      = .ok [[[c!"3", c!"4"], [c!"4", c!"5"]], [[c!"3", c!"4"], [c!"4", c!"5"]]] := by
  decide +kernel

/-- A file with two surfaces and the modes 110.5 and 20.5. -/
def good : List Str :=
  [c!" Reference Hamiltonian (eV)", c!"  1.0 0.5", c!"  0.5 2.0",
    c!"Gradients of heff along normal modes", c!"mode 1: 110.5 cm-1", c!" 3 4", c!" 4 5",
    c!"mode 2: 20.5 cm-1", c!" 6 7", c!" 7 8", c!"Diagonal second order corrections of heff",
    c!"mode 1: 110.5 cm-1", c!" 9 1", c!" 1 9", c!"mode 2: 20.5 cm-1", c!" 2 3", c!" 3 2",
    c!"Off-diagonal second order corrections heff", c!"modes 20.5 and 110.5", c!"1 2", c!"2 1",
    c!"Diagonal Cubic corrections of heff"]

private theorem good_linear : IsSection good c!"Gradients of heff along normal modes"
    c!"Diagonal second order corrections of heff" c!"Gradients of heff along normal modes"
    [c!"mode 1: 110.5 cm-1", c!" 3 4", c!" 4 5", c!"mode 2: 20.5 cm-1", c!" 6 7", c!" 7 8"] :=
  ⟨⟨good.take 3, c!"Diagonal second order corrections of heff", good.drop 11, rfl, by decide, by decide, by decide,
    by decide⟩⟩

private theorem good_quadratic : IsSection good c!"Diagonal second order corrections of heff"
    c!"Off-diagonal second order corrections heff" c!"Diagonal second order corrections of heff"
    [c!"mode 1: 110.5 cm-1", c!" 9 1", c!" 1 9", c!"mode 2: 20.5 cm-1", c!" 2 3", c!" 3 2"] :=
  ⟨⟨good.take 10, c!"Off-diagonal second order corrections heff", good.drop 18, rfl, by decide, by decide, by decide,
    by decide⟩⟩

private theorem good_lines : ∀ l ∈ good, '\n' ∉ l := by decide

/-- Witness of `C119_quadratic_partial`. -/
example : extractQuadratic asText (some 2) (terminated good) [c!"20.5", c!"110.5"]
    = .ok [[[c!"2", c!"3"], [c!"3", c!"2"]], [[c!"9", c!"1"], [c!"1", c!"9"]]] :=
  C119_quadratic_partial asText 2 good good_lines _ _ good_quadratic _
    [[c!" 2 3", c!" 3 2"], [c!" 9 1", c!" 1 9"]] _
    (.cons ⟨⟨by decide, by decide⟩, by decide, ⟨⟨[c!"mode 1: 110.5 cm-1", c!" 9 1", c!" 1 9"], c!"mode 2: 20.5 cm-1",
        [], rfl, by decide, by decide⟩⟩, rfl⟩
      (.cons ⟨⟨by decide, by decide⟩, by decide, ⟨⟨[], c!"mode 1: 110.5 cm-1",
        [c!"mode 2: 20.5 cm-1", c!" 2 3", c!" 3 2"], rfl, by decide, by decide⟩⟩, rfl⟩ .nil))
    (.cons (.cons ⟨by decide, by decide⟩ (.cons ⟨by decide, by decide⟩ .nil))
      (.cons (.cons ⟨by decide, by decide⟩ (.cons ⟨by decide, by decide⟩ .nil)) .nil))

/-- Witness of `C119_own_block_partial` (and of `C119_linear_partial`). -/
example : extractLinear asText (some 2) (terminated good) [c!"110.5", c!"20.5"]
    = .ok [[[c!"3", c!"4"], [c!"4", c!"5"]], [[c!"6", c!"7"], [c!"7", c!"8"]]] :=
  C119_own_block_partial asText 2 good good_lines _
    [⟨c!"mode 1: 110.5 cm-1", [c!" 3 4", c!" 4 5"]⟩, ⟨c!"mode 2: 20.5 cm-1", [c!" 6 7", c!" 7 8"]⟩] []
    good_linear _ rfl (by unfold Plain; decide)
    (by
      intro i h
      match i, h with
      | 0, _ => exact ⟨by simp only [List.getElem_cons_zero]; decide, rfl⟩
      | 1, _ => exact ⟨by simp only [List.getElem_cons_succ, List.getElem_cons_zero]; decide, rfl⟩)
    (by
      intro i h
      match i, h with
      | 0, _ => simp
      | 1, _ =>
        intro b hb
        rw [List.mem_singleton.mp hb]
        simp only [List.getElem_cons_succ, List.getElem_cons_zero]
        decide) _
    (.cons (.cons ⟨by decide, by decide⟩ (.cons ⟨by decide, by decide⟩ .nil))
      (.cons (.cons ⟨by decide, by decide⟩ (.cons ⟨by decide, by decide⟩ .nil)) .nil))

/-- Witness of `C119_pairs_partial`. -/
example : extractOffdiag asText (some 2) (terminated good) [c!"110.5", c!"20.5"]
    = .ok [[], [[[c!"1", c!"2"], [c!"2", c!"1"]]]] :=
  C119_pairs_partial asText 2 good good_lines c!"Off-diagonal second order corrections heff"
    [[], [⟨c!"modes 20.5 and 110.5", [c!"1 2", c!"2 1"]⟩]] []
    ⟨⟨good.take 17, c!"Diagonal Cubic corrections of heff", [], rfl, by decide, by decide, by decide, by decide⟩⟩
    _ rfl (by unfold Plain; decide)
    (by
      intro i h
      match i, h with
      | 0, _ => exact .nil
      | 1, _ => exact .cons ⟨by simp only [List.getElem_cons_succ, List.getElem_cons_zero]; decide, by decide, rfl⟩ .nil) _
    (.cons .nil (.cons (.cons (.cons ⟨by decide, by decide⟩ (.cons ⟨by decide, by decide⟩ .nil)) .nil) .nil))

/-- Witness of `C119_no_frequency`. -/
example : extractLinear asText (some 2) (terminated good) [c!"110.5", c!"30.5", c!"20.5"] = .error .exception :=
  C119_no_frequency asText (some 2) good _ _ good_linear c!"30.5" ⟨by decide, by decide⟩ (by decide)
    [c!"110.5"] [c!"20.5"] [[[c!"3", c!"4"], [c!"4", c!"5"]]] (by decide +kernel)

/-- Witness of `C119_unknown_surfaces_refuted`: the file is complete. -/
example : extractEnergies asText none (terminated good) = .error .name ∧
    extractLinear asText none (terminated good) [c!"110.5", c!"20.5"] = .error .name := by
  decide +kernel

/-- Witness of `C119_degenerate_refuted`: the file shows different couplings for the two modes. -/
example : extractLinear asText (some 1) (terminated [c!"Gradients of heff along normal modes", c!"20.5", c!"1",
    c!"20.5", c!"2", c!"Diagonal second order corrections of heff"]) [c!"20.5", c!"20.5"]
      = .ok [[[c!"1"]], [[c!"1"]]] := by
  decide +kernel

/-- C119, refuted: a line with one number is taken for all surfaces. -/
theorem C119_one_number_refuted :
    extractLinear asText (some 2) (terminated [c!"Gradients of heff along normal modes", c!"20.5", c!"1",
      c!"2 3", c!"Diagonal second order corrections of heff"]) [c!"20.5"]
      = .ok [[[c!"1", c!"1"], [c!"2", c!"3"]]] := by
  decide +kernel

end Pibronic.Props.HeffFile
