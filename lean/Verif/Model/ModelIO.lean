import Verif.Py.Close
import Verif.Py.Chars
import Mathlib.Algebra.Field.Basic
import Mathlib.LinearAlgebra.Matrix.Notation

set_option autoImplicit false

/-!
Model of `pibronic/vibronic/vibronic_model_io.py` and `vibronic_model_keys.py`: vibronic model
dictionaries, their files and the transformations of models.

Simplifications: dictionaries only have the keys of the enumeration `VibronicModelKeys`, dimensions
are natural numbers and the other keys hold arrays; a file is the parsed JSON object (its text is
modelled in `Model/ModelText.lean`); arithmetic is exact, and `np.allclose` is
numpy's comparison of the exact numbers (`Py/Close.lean`).
-/
namespace Pibronic.ModelIO
open Py

/-- vibronic_model_keys.py:9-27: the keys whose values are arrays (`E`, `w`, `G1` ... `G4`). -/
inductive Key where
  | E | w | G1 | G2 | G3 | G4
  deriving DecidableEq, Repr

/-- All array keys. -/
def Key.all : List Key := [.E, .w, .G1, .G2, .G3, .G4]

/-- vibronic_model_keys.py:11-18: the text of a key in the file. -/
def Key.name : Key → Str
  | .E => c!"energies"
  | .w => c!"frequencies"
  | .G1 => c!"linear couplings"
  | .G2 => c!"quadratic couplings"
  | .G3 => c!"cubic couplings"
  | .G4 => c!"quartic couplings"

/-- vibronic_model_keys.py:11-12 -/
def nameN : Str := c!"number of modes"
@[inherit_doc nameN] def nameA : Str := c!"number of surfaces"

/-- Coupled models have surface matrices, diagonal (sampling) models have one value per surface. -/
inductive Kind where
  | coupled | diagonal
  deriving DecidableEq, Repr

/-- The surface axes of an array. -/
def surf : Kind → Nat → List Nat
  | .coupled, A => [A, A]
  | .diagonal, A => [A]

/-- The mode axes of an array. -/
def modes (N : Nat) : Key → List Nat
  | .E => []
  | .w => [N]
  | .G1 => [N]
  | .G2 => [N, N]
  | .G3 => [N, N, N]
  | .G4 => [N, N, N, N]

/-- vibronic_model_io.py:42-73 `model_shape_dict`, `diagonal_model_shape_dict`. -/
def shape (kind : Kind) (A N : Nat) : Key → List Nat
  | .w => [N]
  | k => modes N k ++ surf kind A

variable {α : Type}

/-- A model dictionary: any of the keys may be absent, arrays may have any shape. -/
structure Dict (α : Type) where
  N : Option Nat
  A : Option Nat
  arr : Key → Option (NDArray α)

/-- A well-formed model with `A` surfaces and `N` modes: every array that is present has its
conventional shape. -/
structure Model (α : Type) (kind : Kind) (A N : Nat) where
  arr : (k : Key) → Option (Tensor α (shape kind A N k))

/-- A well-formed model as a dictionary. -/
def Model.toDict {kind : Kind} {A N : Nat} (m : Model α kind A N) : Dict α :=
  { N := some N, A := some A, arr := fun k => (m.arr k).map fun t => ⟨_, t⟩ }

/-- The result of a successful verification: the dimensions and the typed arrays. -/
structure Verified (α : Type) (kind : Kind) where
  A : Nat
  N : Nat
  model : Model α kind A N

/-- vibronic_model_io.py:170-201 `verify_model_parameters`, `verify_diagonal_model_parameters`:
the dimensions must be present and every array must have the right shape.  (The Python function
returns nothing; here the arrays are returned with their now known shapes.) -/
def verify (kind : Kind) (d : Dict α) : Except Err (Verified α kind) :=
  match d.N with
  | none => .error .assertion
  | some N =>
    match d.A with
    | none => .error .assertion
    | some A =>
      if Key.all.all (fun k => match d.arr k with
        | none => true
        | some a => decide (a.shape = shape kind A N k)) then
        .ok ⟨A, N, ⟨fun k => (d.arr k).bind fun a => a.cast? _⟩⟩
      else .error .assertion

/-- A model file: the JSON object as a list of its members. -/
abbrev File (α : Type) : Type := List (Str × J α)

/-- The disk: the model files that exist. -/
abbrev Disk (α : Type) : Type := Str → Option (File α)

/-- `open(path, "w")` + `write` -/
def Disk.write (k : Disk α) (path : Str) (f : File α) : Disk α :=
  fun p => if p = path then some f else k p

variable [CommRing α] [DecidableEq α]

/-- vibronic_model_io.py:517-533 `_save_to_JSON`: the object that is written.  Arrays without a
non-zero entry are left out. -/
def toFile (d : Dict α) : File α :=
  (d.N.toList.map fun n => (nameN, J.int n)) ++ (d.A.toList.map fun n => (nameA, J.int n)) ++
  Key.all.filterMap fun k => match d.arr k with
    | some a => if Tensor.nonzero a.shape a.data then some (k.name, Tensor.tolist a.shape a.data) else none
    | none => none

/-- vibronic_model_io.py:536-553 `save_model_to_JSON`, `save_diagonal_model_to_JSON`: the outcome
and the disk afterwards. -/
def save (kind : Kind) (path : Str) (d : Dict α) (disk : Disk α) : Except Err Unit × Disk α :=
  match verify kind d with
  | .error e => (.error e, disk)
  | .ok _ => (.ok (), disk.write path (toFile d))

/-- One member of the object: `cls(key)` and, for a list, `np.array(value, dtype=F64)`
(vibronic_model_io.py:581-586, vibronic_model_keys.py:39-44).  A number where an array is expected
raises here rather than in the verification that follows. -/
def readMember (d : Dict α) (m : Str × J α) : Except Err (Dict α) :=
  if m.1 = nameN then
    match m.2 with
    | .int n => .ok { d with N := some n }
    | _ => .error .type
  else if m.1 = nameA then
    match m.2 with
    | .int n => .ok { d with A := some n }
    | _ => .error .type
  else match Key.all.find? (fun k => k.name == m.1) with
    | none => .error .value
    | some k =>
      match m.2 with
      | .list l => do
        let a ← npArray (.list l)
        .ok { d with arr := fun k' => if k' = k then some a else d.arr k' }
      | _ => .error .attribute

/-- The dictionary in a file, before the special case for missing energies. -/
def readFile (f : File α) : Except Err (Dict α) :=
  f.foldlM readMember { N := none, A := none, arr := fun _ => none }

/-- vibronic_model_io.py:575-596 `_load_from_JSON`: missing energies become zeros of the COUPLED
shape `(A, A)`, for diagonal models too. -/
def loadDict (f : File α) : Except Err (Dict α) := do
  let d ← readFile f
  match d.arr .E with
  | some _ => .ok d
  | none =>
    match d.N, d.A with
    | some N, some A =>
      let s := shape .coupled A N .E
      .ok { d with arr := fun k => if k = .E then some ⟨s, Tensor.zeros s⟩ else d.arr k }
    | _, _ => .error .key

/-- `open(path)` for reading. -/
def openFile (disk : Disk α) (path : Str) : Except Err (File α) :=
  match disk path with
  | none => .error .os
  | some f => .ok f

/-- vibronic_model_io.py:599-649 `load_model_from_JSON`, `load_diagonal_model_from_JSON` without a
dictionary: load, verify, return. -/
def load (kind : Kind) (path : Str) (disk : Disk α) : Except Err (Verified α kind) := do
  let f ← openFile disk path
  let d ← loadDict f
  verify kind d

/-- vibronic_model_io.py:556-572 `_load_inplace_from_JSON` for one array of shape `s` of the given
dictionary. -/
def loadOneInplace (file : Dict α) (k : Key) (s : List Nat) : Except Err (Tensor α s) :=
  match file.arr k with
  | none => .ok (Tensor.zeros s)
  | some a => assignAll a s

/-- vibronic_model_io.py:564-571: keys that the given dictionary does not have are not loaded. -/
def loadEntry {s : List Nat} (file : Dict α) (k : Key) :
    Option (Tensor α s) → Except Err (Option (Tensor α s))
  | none => .ok none
  | some _ => (loadOneInplace file k s).map some

/-- vibronic_model_io.py:556-572, 614-623: loading into a given dictionary: verify, overwrite every
array, verify (the shapes cannot change, so the second verification is implied).  The dimensions in
the file are not looked at. -/
def loadInplace (kind : Kind) (path : Str) (d : Dict α) (disk : Disk α) :
    Except Err (Verified α kind) := do
  let v ← verify kind d
  let f ← openFile disk path
  let file ← readFile f
  let e ← loadEntry file .E (v.model.arr .E)
  let w ← loadEntry file .w (v.model.arr .w)
  let g1 ← loadEntry file .G1 (v.model.arr .G1)
  let g2 ← loadEntry file .G2 (v.model.arr .G2)
  let g3 ← loadEntry file .G3 (v.model.arr .G3)
  let g4 ← loadEntry file .G4 (v.model.arr .G4)
  .ok ⟨v.A, v.N, ⟨fun k => match k with
    | .E => e | .w => w | .G1 => g1 | .G2 => g2 | .G3 => g3 | .G4 => g4⟩⟩

/-! ### transformations -/

/-- A surface matrix as `Matrix`. -/
def toMat {A : Nat} (t : Tensor α [A, A]) : Matrix (Fin A) (Fin A) α := fun a b => t a b
/-- Apply `f` to every surface matrix of an array; frequencies have none and are unchanged. -/
def mapSurf {kind kind' : Kind} {A N : Nat} (f : Tensor α (surf kind A) → Tensor α (surf kind' A)) :
    (k : Key) → Tensor α (shape kind A N k) → Tensor α (shape kind' A N k)
  | .w, t => t
  | .E, t => Tensor.onTail f (modes N .E) t
  | .G1, t => Tensor.onTail f (modes N .G1) t
  | .G2, t => Tensor.onTail f (modes N .G2) t
  | .G3, t => Tensor.onTail f (modes N .G3) t
  | .G4, t => Tensor.onTail f (modes N .G4) t

/-- Apply `f` to every surface matrix of a model. -/
def Model.mapSurf {kind kind' : Kind} {A N : Nat}
    (f : Tensor α (surf kind A) → Tensor α (surf kind' A)) (m : Model α kind A N) :
    Model α kind' A N :=
  ⟨fun k => (m.arr k).map (ModelIO.mapSurf f k)⟩

/-- vibronic_model_io.py:739-741: set `[..., a, b]` to zero for every pair `a ≠ b`
(`itertools.permutations(range(A), 2)`). -/
def zeroOffdiag {A : Nat} (t : Tensor α [A, A]) : Tensor α [A, A] :=
  fun a b => if a = b then t a b else (0 : α)

/-- vibronic_model_io.py:733-746 `fill_offdiagonal_of_model_with_zeros`. -/
def fillOffdiagonal (d : Dict α) : Except Err (Dict α) := do
  let v ← verify .coupled d
  .ok (Model.mapSurf (kind := .coupled) (kind' := .coupled) (zeroOffdiag (A := v.A)) v.model).toDict

/-- `np.diagonal(..., axis1=ndims-2, axis2=ndims-1)` of one surface matrix. -/
def diagonalOf {A : Nat} (t : Tensor α [A, A]) : Tensor α [A] := fun a => t a a

/-- vibronic_model_io.py:749-761 `remove_coupling_from_model`. -/
def removeCoupling (src dst : Str) (disk : Disk α) : Except Err Unit × Disk α :=
  match load .coupled src disk with
  | .error e => (.error e, disk)
  | .ok v =>
    save .diagonal dst
      (Model.mapSurf (kind := .coupled) (kind' := .diagonal) (diagonalOf (A := v.A)) v.model).toDict disk

/-- `shutil.copyfile` -/
def copyFile (src dst : Str) (disk : Disk α) : Except Err Unit × Disk α :=
  match disk src with
  | none => (.error .os, disk)
  | some f => (.ok (), disk.write dst f)

/-- vibronic_model_io.py:764-787 `create_harmonic_model`, `create_basic_diagonal_model`. -/
def createBasicDiagonal (vib har rho : Str) (disk : Disk α) : Except Err Unit × Disk α :=
  match removeCoupling vib har disk with
  | (.error e, disk) => (.error e, disk)
  | (.ok (), disk) => copyFile har rho disk

/-! ### artificial coupling -/

/-- vibronic_model_io.py:76-87 `_array_is_symmetric_in_A` for one surface matrix:
`np.allclose(array, array.transpose(new_dims))`. -/
def SymMat [AllClose α] {A : Nat} (t : Tensor α [A, A]) : Prop := ∀ a b : Fin A, Close (t a b : α) (t b a)

/-- `P` holds for every surface matrix of an array. -/
def allSurf {kind : Kind} {A N : Nat} (P : Tensor α (surf kind A) → Prop) :
    (k : Key) → Tensor α (shape kind A N k) → Prop
  | .w, _ => True
  | .E, t => P t
  | .G1, t => ∀ i : Fin N, P (t i)
  | .G2, t => ∀ i j : Fin N, P (t i j)
  | .G3, t => ∀ i j k : Fin N, P (t i j k)
  | .G4, t => ∀ i j k l : Fin N, P (t i j k l)

/-- vibronic_model_io.py:89-102 `model_parameters_are_symmetric_in_surfaces` (after the
verification). -/
def SymmetricInSurfaces [AllClose α] {A N : Nat} (m : Model α .coupled A N) : Prop :=
  ∀ k t, m.arr k = some t → allSurf (kind := .coupled) (SymMat (A := A)) k t

/-- vibronic_model_io.py:105-131 `model_parameters_are_symmetric_in_modes` (after the
verification): quadratic terms under exchange of the modes, quartic terms under the exchange of the
first two together with the last two. -/
def SymmetricInModes [AllClose α] {A N : Nat} (m : Model α .coupled A N) : Prop :=
  (∀ t : Tensor α [N, N, A, A], m.arr .G2 = some t →
    ∀ i j, Tensor.Close [A, A] (t i j) (t j i)) ∧
  (∀ t : Tensor α [N, N, N, N, A, A], m.arr .G4 = some t →
    ∀ i j k l, Tensor.Close [A, A] (t i j k l) (t j i l k))

/-- The argument `transformation_matrix` of `create_fake_coupled_model`. -/
inductive UArg (α : Type) where
  /-- not given: the matrix that `create_orthonormal_matrix_lambda_close_to_identity` returns for
  the number of surfaces -/
  | fresh (mk : Nat → Except Err (NDArray α))
  /-- `"re-use"`: the matrix stored on disk -/
  | reuse
  /-- a numpy array -/
  | given (U : NDArray α)
  /-- anything else -/
  | other

/-- `np.einsum('bj,jk,ck->bc', U, old, U)`, vibronic_model_io.py:841-845. -/
def einsumSurf {A : Nat} (U : Tensor α [A, A]) (old : Tensor α [A, A]) : Tensor α [A, A] :=
  fun b c => (∑ j, ∑ k, (toMat U b j * toMat old j k * toMat U c k) : α)

open Classical in
/-- vibronic_model_io.py:822-832: the transformation matrix that is used, as an `A × A` matrix.
Only a given array is checked for orthonormality. -/
noncomputable def chooseU [AllClose α] (A : Nat) (stored : Option (NDArray α)) (arg : UArg α) :
    Except Err (Tensor α [A, A]) :=
  let shaped (U : NDArray α) : Except Err (Tensor α [A, A]) :=
    match U.cast? [A, A] with
    | some u => .ok u
    | none => .error .value
  match arg with
  | .fresh mk => do shaped (← mk A)
  | .reuse =>
    match stored with
    | none => .error .os
    | some U => shaped U
  | .given U => do
    let u ← shaped U
    if ∀ a b, Close ((toMat u * (toMat u).transpose) a b) ((1 : Matrix (Fin A) (Fin A) α) a b) then .ok u
    else .error .assertion
  | .other => .error .exception

/-- One file operation; the new contents are `none` while the file is being rewritten (it is
truncated first and unreadable until the write is complete). -/
structure Op (α : Type) where
  path : Str
  contents : Option (File α)

/-- The effect of one operation. -/
def Op.run (disk : Disk α) (op : Op α) : Disk α :=
  fun p => if p = op.path then op.contents else disk p

/-- The disk after a sequence of operations. -/
def runOps (ops : List (Op α)) (disk : Disk α) : Disk α := ops.foldl Op.run disk

open Classical in
/-- vibronic_model_io.py:802-872 `create_fake_coupled_model`: the file operations of a call that
gets through its checks (nothing is written before that), and the matrix stored at the end.  The
assertion of line 859 compares two expressions that are equal in exact arithmetic.  `vib`, `orig`
are the paths of the coupled model and of the backup. -/
noncomputable def createFake [AllClose α] (vib orig : Str) (stored : Option (NDArray α)) (arg : UArg α)
    (disk : Disk α) : Except Err (List (Op α) × NDArray α) :=
  match disk vib with
  | none => .error .assertion
  | some old => do
    let v ← load .coupled vib disk
    let U ← chooseU v.A stored arg
    if SymmetricInSurfaces v.model ∧ SymmetricInModes v.model then
      let new := (Model.mapSurf (kind := .coupled) (kind' := .coupled) (einsumSurf U) v.model).toDict
      match verify .coupled new with
      | .error e => .error e
      | .ok _ =>
        .ok ([⟨orig, none⟩, ⟨orig, some old⟩, ⟨vib, none⟩, ⟨vib, some (toFile new)⟩], ⟨[v.A, v.A], U⟩)
    else .error .assertion

/-! ### comparison -/

/-- An array of a model, zeros when the key is absent (the template plus `update` of
vibronic_model_io.py:219-223). -/
def Model.get {kind : Kind} {A N : Nat} (m : Model α kind A N) (k : Key) :
    Tensor α (shape kind A N k) := (m.arr k).getD (Tensor.zeros _)

open Classical in
/-- vibronic_model_io.py:224-227, 259-262: the loop over the array keys of the two templates.  Both
templates are made for the dimensions of the first dictionary; arrays of different shapes raise
`ValueError` (the dimensions then differ although they are close, so they are above 1 and numpy cannot
broadcast the arrays). -/
noncomputable def compareKeys [AllClose α] {kind : Kind} (v1 v2 : Verified α kind) : List Key → Except Err Bool
  | [] => .ok true
  | k :: ks =>
    let y : NDArray α := match v2.model.arr k with
      | some t => ⟨_, t⟩
      | none => ⟨_, Tensor.zeros (shape kind v1.A v1.N k)⟩
    match y.cast? (shape kind v1.A v1.N k) with
    | none => .error .value
    | some u => if Tensor.Close _ (v1.model.get k) u then compareKeys v1 v2 ks else .ok false

open Classical in
/-- vibronic_model_io.py:204-266 `_same_model`, `_same_diagonal_model`.  `A2, N2` are taken from the
first dictionary, so the first test never fails; the dimensions are compared, with `np.allclose`, as the
first two entries of the loop over the keys, before any array. -/
noncomputable def sameModel [AllClose α] (kind : Kind) (d1 d2 : Dict α) : Except Err Bool := do
  let v1 ← verify kind d1
  let v2 ← verify kind d2
  if ¬ Close (v1.N : ℤ) (v2.N : ℤ) then .ok false
  else if ¬ Close (v1.A : ℤ) (v2.A : ℤ) then .ok false
  else compareKeys v1 v2 Key.all

/-! ### generated models -/

/-- `np.tril(x) + np.tril(x, k=-1).T`, vibronic_model_io.py:338-339, 388. -/
def symmetrise {A : Nat} (x : Tensor α [A, A]) : Tensor α [A, A] :=
  let tril : Fin A → Fin A → α := fun a b => if b ≤ a then x a b else 0
  let trilBelow : Fin A → Fin A → α := fun a b => if b < a then x a b else 0
  fun a b => tril a b + trilBelow b a

end Pibronic.ModelIO

namespace Pibronic.ModelIO
open Py
variable {α : Type} [Field α] [DecidableEq α]

/-- `np.linspace(lo, hi, num=N, endpoint=True)` -/
def linspace (lo hi : α) (N : Nat) : Tensor α [N] :=
  fun i => if N = 1 then lo else lo + (i.1 : α) * ((hi - lo) / ((N : α) - 1))

/-- vibronic_model_io.py:134-149 `model_zeros_template_json_dict`, vibronic_model_io.py:152-167
`diagonal_model_zeros_template_json_dict`. -/
def zerosTemplate (kind : Kind) (A N : Nat) : Dict α :=
  (⟨fun _ => some (Tensor.zeros _)⟩ : Model α kind A N).toDict

/-- vibronic_model_io.py:353-408: the coupled model built from the draws `e` (energies) and `g i`
(linear terms of mode `i`); the quadratic and higher terms stay zero.  `lo`, `hi` is
`frequency_range`. -/
def generated (A N : Nat) (lo hi : α) (e : Tensor α [A, A]) (g : Fin N → Tensor α [A, A]) :
    Model α .coupled A N :=
  ⟨fun k => match k with
    | .E => some (symmetrise e)
    | .w => some (linspace lo hi N)
    | .G1 => some (fun i => symmetrise (g i))
    | .G2 => some (Tensor.zeros _)
    | .G3 => some (Tensor.zeros _)
    | .G4 => some (Tensor.zeros _)⟩

open Classical in
/-- vibronic_model_io.py:353-416 `generate_vibronic_model_data` with `diagonal=False`: the two
assertions, then the model; vibronic_model_io.py:269-278 `create_random_model` calls it with random sizes. -/
noncomputable def generateCoupled [AllClose α] (A N : Nat) (lo hi : α) (e : Tensor α [A, A])
    (g : Fin N → Tensor α [A, A]) : Except Err (Dict α) := do
  let m := generated A N lo hi e g
  let _ ← verify .coupled m.toDict
  if SymmetricInSurfaces m ∧ SymmetricInModes m then .ok m.toDict else .error .assertion

/-- vibronic_model_io.py:401-411: the diagonal variant copies energies, frequencies, linear and
quadratic terms; the cubic and quartic terms are zeros; vibronic_model_io.py:281-290 `create_random_diagonal_model` calls it
with random sizes. -/
def generateDiagonal (A N : Nat) (lo hi : α) (e : Tensor α [A, A])
    (g : Fin N → Tensor α [A, A]) : Dict α :=
  let m := generated A N lo hi e g
  (show Model α .diagonal A N from
  ⟨fun k => match k with
    | .E => some (diagonalOf (m.get .E))
    | .w => some (m.get .w)
    | .G1 => some (fun i => diagonalOf (m.get .G1 i))
    | .G2 => some (fun i j => diagonalOf (m.get .G2 i j))
    | .G3 => some (Tensor.zeros _)
    | .G4 => some (Tensor.zeros _)⟩).toDict

/-- One pass of the loop vibronic_model_io.py:345-349: both `[i, j]` and `[j, i]` get the symmetrised
draw of the pair. -/
def setQuadratic {A N : Nat} (draw : Fin N → Fin N → Tensor α [A, A]) (q : Tensor α [N, N, A, A])
    (ij : Fin N × Fin N) : Tensor α [N, N, A, A] :=
  fun i j => if (i, j) = ij ∨ (j, i) = ij then symmetrise (draw ij.1 ij.2) else q i j

/-- vibronic_model_io.py:343-350 `_generate_quadratic_terms` starting from `q`
(`it.product(Modes, repeat=2)`; the call is switched off at line 396). -/
def generateQuadratic {A N : Nat} (draw : Fin N → Fin N → Tensor α [A, A])
    (q : Tensor α [N, N, A, A]) : Tensor α [N, N, A, A] :=
  (((List.finRange N).flatMap fun i => (List.finRange N).map fun j => (i, j))).foldl
    (setQuadratic draw) q

/-! ### re-weighted energies -/

/-- vibronic_model_io.py:665-677: the minimum of oscillator `a` of the diagonal model; the origin
when there are no linear terms. -/
def minimum (iter : Verified α .diagonal) (a : Fin iter.A) (i : Fin iter.N) : α :=
  match iter.model.arr .G1 with
  | none => 0
  | some g =>
    let wi : Tensor α [iter.N] := iter.model.get .w
    let gi : Tensor α [iter.N, iter.A] := g
    let q : α := -(gi i a) / wi i
    q

/-- vibronic_model_io.py:690-703: the potential energy matrix of the coupled model at `q`. -/
def potentialAt (vib : Verified α .coupled) (q : Fin vib.N → α) : Tensor α [vib.A, vib.A] :=
  let w : Tensor α [vib.N] := vib.model.get .w
  let e : Tensor α [vib.A, vib.A] := vib.model.get .E
  let lin : Tensor α [vib.N, vib.A, vib.A] := vib.model.get .G1
  fun b c => e b c + (if b = c then (∑ i, w i * q i ^ 2) / 2 else 0) + ∑ i, lin i b c * q i

open Classical in
/-- vibronic_model_io.py:653-708 `simple_single_point_energy_calculation` with the eigenvalue solver
`minEig` (`min(np.linalg.eigvalsh(V))`) as a parameter.  `iter` is the diagonal model, `vib` the
coupled model; both must have the same number of modes (numpy would broadcast a single mode, this
case is not modelled). -/
noncomputable def singlePoint [AllClose α] (minEig : (A : Nat) → Tensor α [A, A] → α)
    (iter : Verified α .diagonal) (vib : Verified α .coupled) : Except Err (Tensor α [iter.A]) :=
  if ¬ Tensor.Close _ (iter.model.get .G2) (Tensor.zeros _) then .error .exception
  else if (iter.model.arr .G1).isSome ∧ (iter.model.arr .w).isNone then .error .key
  else if (vib.model.arr .w).isNone then .error .key
  else if ¬ Tensor.Close _ (vib.model.get .G2) (Tensor.zeros _) then .error .exception
  else if h : iter.N = vib.N then
    .ok (fun a => minEig vib.A (potentialAt vib (minimum iter a ∘ Fin.cast h.symm)))
  else .error .value

/-- vibronic_model_io.py:726-728: the energies that are stored: `new - Δ` with
`Δ_a = -1/2 Σ_i g_ia² / w_i`. -/
def storedEnergies {A N : Nat} (new : Tensor α [A]) (g : Tensor α [N, A]) (w : Tensor α [N]) :
    Tensor α [A] := fun a => new a - (-(1 / 2) * ∑ i, g i a ^ 2 / w i)

/-- vibronic_model_io.py:729 `model[VMK.E] = ...` -/
def Model.withEnergies {A N : Nat} (m : Model α .diagonal A N) (e : Tensor α [A]) :
    Model α .diagonal A N :=
  ⟨fun k => match k with
    | .E => some e
    | k => m.arr k⟩

/-- vibronic_model_io.py:711-730 `recalculate_energy_values_of_diagonal_model`. -/
noncomputable def recalculate [AllClose α] (minEig : (A : Nat) → Tensor α [A, A] → α) (vibPath path : Str)
    (disk : Disk α) : Except Err Unit × Disk α :=
  match (do
    let iter ← load .diagonal path disk
    let vib ← load .coupled vibPath disk
    let new ← singlePoint minEig iter vib
    match iter.model.arr .w with
    | none => .error .key
    | some w =>
      .ok (iter.model.withEnergies (storedEnergies new (iter.model.get .G1) w)).toDict : Except Err (Dict α)) with
  | .error e => (.error e, disk)
  | .ok d => save .diagonal path d disk

end Pibronic.ModelIO
