import Verif.Model.Basic

/-!
# numpy arrays

An array is a shape and an index function.  The index function is total; only values
at in-bounds indices (`InB`) are meaningful.  The operations model numpy's documented
behaviour of the functions used by fv3gfs-util.
-/

namespace FV3

/-- `InB shape idx`: `idx` is a valid (non-negative, in range) full index. (numpy semantics; quantity.py:65-77) -/
def InB : List Nat → List Nat → Prop
  | [], [] => True
  | n :: s, i :: is => i < n ∧ InB s is
  | _, _ => False

/-- The monad structure of the model (numpy semantics; quantity.py:65-77) -/
instance decInB : (s i : List Nat) → Decidable (InB s i)
  | [], [] => isTrue trivial
  | n :: s, i :: is =>
    match Nat.decLt i n, decInB s is with
    | isTrue h₁, isTrue h₂ => isTrue ⟨h₁, h₂⟩
    | isFalse h₁, _ => isFalse fun h => h₁ h.1
    | _, isFalse h₂ => isFalse fun h => h₂ h.2
  | [], _ :: _ => isFalse id
  | _ :: _, [] => isFalse id

/-- numpy `ndarray` (values of an arbitrary type).
(numpy semantics; used e.g. at quantity.py:65-93, 164-198, rotate.py:4-50) -/
structure NDArray (α : Type) where
  shape : List Nat
  get : List Nat → α

/-- All valid indices of a shape in row-major order.
(numpy semantics; used e.g. at quantity.py:65-93, 164-198, rotate.py:4-50) -/
def allIdx : List Nat → List (List Nat)
  | [] => [[]]
  | n :: s => (List.range n).flatMap fun i => (allIdx s).map (i :: ·)

namespace NDArray
variable {α β : Type}

/-- Two arrays are the same: same shape, same value at every valid index.
(comparison of arrays in the statements; no counterpart in the code) -/
def Eqv (a b : NDArray α) : Prop :=
  a.shape = b.shape ∧ ∀ idx, InB a.shape idx → a.get idx = b.get idx

/-- Elementwise function, e.g. `-data`. (numpy; used at rotate.py:45-49, communicator.py:587) -/
def map (f : α → β) (a : NDArray α) : NDArray β := ⟨a.shape, fun i => f (a.get i)⟩

/-- `numpy.flip(a, axis)`. (numpy; used at rotate.py:22, 25) -/
def flip (ax : Nat) (a : NDArray α) : NDArray α :=
  { shape := a.shape
    get := fun i => a.get (i.set ax (a.shape.getD ax 0 - 1 - i.getD ax 0)) }

/-- `numpy.transpose(a, axes)` where `axes` exchanges `p` and `q`. (numpy; part of rot90, rotate.py:17) -/
def swapAxes (p q : Nat) (a : NDArray α) : NDArray α :=
  { shape := (a.shape.set p (a.shape.getD q 0)).set q (a.shape.getD p 0)
    get := fun i => a.get ((i.set p (i.getD q 0)).set q (i.getD p 0)) }

/-- `numpy.rot90(a, k, axes=(p, q))`, following numpy's own definition:
k=0 identity, k=2 flips both axes, k=1 `transpose(flip(m, q))`,
k=3 `flip(transpose(m), q)`. (numpy; used at rotate.py:17, 19, partitioner.py:646, _corners.py:124-155) -/
def rot90 (k : Int) (p q : Nat) (a : NDArray α) : NDArray α :=
  if pymod k 4 = 0 then a
  else if pymod k 4 = 2 then (a.flip p).flip q
  else if pymod k 4 = 1 then (a.flip q).swapAxes p q
  else (a.swapAxes p q).flip q

/-- `numpy.transpose(a, perm)`: axis `j` of the result is axis `perm[j]` of `a`. (numpy; used at quantity.py:509) -/
def transpose (perm : List Nat) (a : NDArray α) : NDArray α :=
  { shape := perm.map fun k => a.shape.getD k 0
    get := fun i => a.get ((List.range perm.length).map fun k => i.getD (perm.idxOf k) 0) }

/-- `numpy.arange(r*c).reshape((r, c))`. (numpy; used at partitioner.py:645, 683) -/
def arange2 (r c : Nat) : NDArray Int :=
  { shape := [r, c], get := fun i => (i.getD 0 0 : Int) * c + (i.getD 1 0 : Int) }

/-- `a[np.where(t == v)][0]`: positions where `t` equals `v` in row-major order; each
must be a valid index of `a` (IndexError otherwise), and there must be one.
(numpy; used at partitioner.py:647, 685) -/
def firstWhere (a : NDArray α) (t : NDArray Int) (v : Int) : Py α :=
  let ps := (allIdx t.shape).filter fun i => t.get i = v
  if ps.all (fun i => decide (InB a.shape i)) then
    match ps with
    | [] => .error .indexError
    | i :: _ => .ok (a.get i)
  else .error .indexError

end NDArray

/-! ### Python slices and numpy basic indexing -/

/-- A Python `slice` object. (CPython; used at _boundary_utils.py:16-40, quantity.py:552-565) -/
structure PySlice where
  start : Option Int := none
  stop : Option Int := none
  step : Option Int := none
  deriving DecidableEq, Repr

/-- `slice(a, b)` (numpy semantics; used e.g. at quantity.py:65-93, 164-198, rotate.py:4-50) -/
def PySlice.of (a b : Int) : PySlice := ⟨some a, some b, none⟩
/-- `slice(None, None)` (numpy semantics; used e.g. at quantity.py:65-93, 164-198, rotate.py:4-50) -/
def PySlice.full : PySlice := ⟨none, none, none⟩

/-- `slice.indices(len)`-style clamping of one given end point (CPython
`PySlice_AdjustIndices`). (CPython; used through numpy indexing, quantity.py:73) -/
def clampIx (neg : Bool) (len : Int) (v : Int) : Int :=
  let v := if v < 0 then v + len else v
  if v < 0 then (if neg then -1 else 0)
  else if v ≥ len then (if neg then len - 1 else len)
  else v

/-- A resolved index entry of one axis. (numpy semantics; used e.g. at quantity.py:65-93, 164-198, rotate.py:4-50) -/
inductive RIx where
  | int (i : Nat)
  | slice (start step : Int) (count : Nat)
  deriving DecidableEq, Repr

/-- Resolve a slice against an axis of length `len` (CPython `PySlice_AdjustIndices`).
(numpy semantics; used e.g. at quantity.py:65-93, 164-198, rotate.py:4-50) -/
def PySlice.resolve (s : PySlice) (len : Nat) : Py RIx :=
  let step := s.step.getD 1
  if step = 0 then .error .valueError
  else if step > 0 then
    let a := (s.start.map (clampIx false len)).getD 0
    let b := (s.stop.map (clampIx false len)).getD len
    .ok (.slice a step (if a < b then ((b - a - 1) / step + 1).toNat else 0))
  else
    let a := (s.start.map (clampIx true len)).getD ((len : Int) - 1)
    let b := (s.stop.map (clampIx true len)).getD (-1)
    .ok (.slice a step (if b < a then ((a - b - 1) / (-step) + 1).toNat else 0))

/-- One entry of an index tuple: an integer or a slice (`None`/newaxis, ellipsis and
fancy indices: Model/FancyView). (numpy semantics; used e.g. at quantity.py:65-93, 164-198, rotate.py:4-50) -/
inductive Ix where
  | int (i : Int)
  | slice (s : PySlice)
  deriving DecidableEq, Repr

/-- Resolve one entry against an axis length (IndexError for an out-of-range int).
(numpy semantics; used e.g. at quantity.py:65-93, 164-198, rotate.py:4-50) -/
def Ix.resolve : Ix → Nat → Py RIx
  | .int i, len =>
    let j := if i < 0 then i + len else i
    if 0 ≤ j ∧ j < len then .ok (.int j.toNat) else .error .indexError
  | .slice s, len => s.resolve len

/-- Resolve an index tuple against a shape; missing entries are full slices, too many
raise IndexError. (numpy semantics; used e.g. at quantity.py:65-93, 164-198, rotate.py:4-50) -/
def resolveAll : List Ix → List Nat → Py (List RIx)
  | [], [] => .ok []
  | [], n :: s => do
    let rest ← resolveAll [] s
    .ok (.slice 0 1 n :: rest)
  | _ :: _, [] => .error .indexError
  | e :: es, n :: s => do
    let r ← e.resolve n
    let rest ← resolveAll es s
    .ok (r :: rest)

/-- Shape of the selected view: integers drop their axis.
(numpy semantics; used e.g. at quantity.py:65-93, 164-198, rotate.py:4-50) -/
def viewShape : List RIx → List Nat
  | [] => []
  | .int _ :: rs => viewShape rs
  | .slice _ _ c :: rs => c :: viewShape rs

/-- Index in the base array of element `rel` of the view.
(numpy semantics; used e.g. at quantity.py:65-93, 164-198, rotate.py:4-50) -/
def viewIdx : List RIx → List Nat → List Nat
  | [], _ => []
  | .int i :: rs, rel => i :: viewIdx rs rel
  | .slice a st _ :: rs, j :: rel => (a + st * j).toNat :: viewIdx rs rel
  | .slice a _ _ :: rs, [] => a.toNat :: viewIdx rs []

/-- Position in the view of base index `idx`, if it is selected.
(numpy semantics; used e.g. at quantity.py:65-93, 164-198, rotate.py:4-50) -/
def unview : List RIx → List Nat → Option (List Nat)
  | [], [] => some []
  | .int i :: rs, k :: idx => if k = i then unview rs idx else none
  | .slice a st c :: rs, k :: idx =>
    let j := ((k : Int) - a) / st
    if 0 ≤ j ∧ j < c ∧ a + st * j = k then
      (unview rs idx).map (j.toNat :: ·)
    else none
  | _, _ => none

/-- The shapes, last axis first, of which numpy assigns the first to the second: lengths agree or are 1, and surplus
axes of the value have length 1. (numpy; used at quantity.py:77, 176, communicator.py:119, 198, utils.py:60-72) -/
def fitsRev : List Nat → List Nat → Bool
  | [], _ => true
  | m :: s, [] => m == 1 && fitsRev s []
  | m :: s, n :: d => (m == n || m == 1) && fitsRev s d

/-- An array of shape `src` can be assigned to one of shape `dst`.
(numpy; used at quantity.py:77, 176, communicator.py:119, 198, utils.py:60-72) -/
def fits (src dst : List Nat) : Bool := fitsRev src.reverse dst.reverse

/-- The shape, last axis first, of the sum of arrays of two shapes. (numpy; used at nudging.py:43, 69) -/
def broadcastRev : List Nat → List Nat → Option (List Nat)
  | [], d => some d
  | m :: s, [] => some (m :: s)
  | m :: s, n :: d =>
    if m = n then (broadcastRev s d).map (m :: ·)
    else if m = 1 then (broadcastRev s d).map (n :: ·)
    else if n = 1 then (broadcastRev s d).map (m :: ·)
    else none

/-- The shape of the sum of arrays of two shapes; `none` if they cannot be broadcast together (ValueError).
(numpy; used at nudging.py:43, 69) -/
def broadcastShape (s t : List Nat) : Option (List Nat) := (broadcastRev s.reverse t.reverse).map List.reverse

/-- The place, last axis first, of an element of a broadcast array in the array itself.
(numpy; used at quantity.py:77, 176, nudging.py:43, 69, communicator.py:119, 198, utils.py:60-72) -/
def broadcastIdxRev : List Nat → List Nat → List Nat
  | [], _ => []
  | _ :: s, [] => 0 :: broadcastIdxRev s []
  | m :: s, i :: is => (if m = 1 then 0 else i) :: broadcastIdxRev s is

/-- The place of element `idx` of a broadcast array in the array of shape `shape` itself.
(numpy; used at quantity.py:77, 176, nudging.py:43, 69, communicator.py:119, 198, utils.py:60-72) -/
def broadcastIdx (shape idx : List Nat) : List Nat := (broadcastIdxRev shape.reverse idx.reverse).reverse

namespace NDArray
variable {α : Type}

/-- The view selected by resolved entries.
(numpy semantics; used e.g. at quantity.py:65-93, 164-198, rotate.py:4-50) -/
def view (a : NDArray α) (rs : List RIx) : NDArray α :=
  ⟨viewShape rs, fun rel => a.get (viewIdx rs rel)⟩

/-- `a[ix]` (numpy semantics; used e.g. at quantity.py:65-93, 164-198, rotate.py:4-50) -/
def getItem (a : NDArray α) (ix : List Ix) : Py (NDArray α) := do
  let rs ← resolveAll ix a.shape
  .ok (a.view rs)

/-- In-place assignment to a resolved view (functional update).
(numpy semantics; used e.g. at quantity.py:65-93, 164-198, rotate.py:4-50) -/
def assign (a : NDArray α) (rs : List RIx) (v : NDArray α) : NDArray α :=
  { shape := a.shape
    get := fun idx => match unview rs idx with
      | some rel => v.get rel
      | none => a.get idx }

/-- An array broadcast to another shape: axes are aligned at the last one, axes of length 1 are repeated, missing
ones too. (numpy; used at quantity.py:77, 176, nudging.py:43, 69, communicator.py:119, 198, utils.py:60-72) -/
def stretch (v : NDArray α) (shape : List Nat) : NDArray α :=
  if v.shape = shape then v else ⟨shape, fun idx => v.get (broadcastIdx v.shape idx)⟩

/-- `a[ix] = v`, where `v` is broadcast; ValueError if this is not possible. (numpy semantics; used e.g. at
quantity.py:77, 176, communicator.py:119, 198, utils.py:60-72) -/
def setItem (a : NDArray α) (ix : List Ix) (v : NDArray α) : Py (NDArray α) := do
  let rs ← resolveAll ix a.shape
  if fits v.shape (viewShape rs) then .ok (a.assign rs (v.stretch (viewShape rs))) else .error .valueError

/-- `a[ix]` is filled with the array `v` which has been received.  MPI does not broadcast; a message for an array of
another shape is a ValueError here. (communicator.py:74-79, 128-129, 657-666) -/
def fillItem (a : NDArray α) (ix : List Ix) (v : NDArray α) : Py (NDArray α) := do
  let rs ← resolveAll ix a.shape
  if viewShape rs = v.shape then .ok (a.assign rs v) else .error .valueError

end NDArray
end FV3
