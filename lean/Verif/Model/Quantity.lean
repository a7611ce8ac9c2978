import Verif.Model.NDArray

/-!
# Quantity and its views (quantity.py, _boundary_utils.py)

Not modelled: gt4py storages and cupy arrays (the numpy path is), `attrs` beyond the units,
`None`/ellipsis/array entries in index expressions (these are in Model/FancyView).
-/

namespace FV3

/-- quantity.py:22-37,247 `Quantity`: the underlying array and the metadata that matters
(origin, extent, dims, units). -/
structure Quantity (α : Type) where
  data : NDArray α
  dims : List Dim
  units : String
  origin : List Int
  extent : List Int

/-- quantity.py:234-244 `_validate_quantity_property_lengths`. -/
def validateLengths (shape : List Nat) (dims : List Dim) (origin extent : List Int) : Py Unit :=
  if dims.length ≠ shape.length then .error .valueError
  else if origin.length ≠ shape.length then .error .valueError
  else if extent.length ≠ shape.length then .error .valueError
  else .ok ()

/-- quantity.py:252-327 `Quantity.__init__` for a numpy array.  (`zip` in the default of
`extent` stops at the shorter sequence.) -/
def Quantity.mk? {α : Type} (data : NDArray α) (dims : List Dim) (units : String)
    (origin : Option (List Int)) (extent : Option (List Int)) : Py (Quantity α) := do
  let o := origin.getD (List.replicate dims.length 0)
  let e := extent.getD (List.zipWith (fun (length : Nat) (start : Int) => (length : Int) - start) data.shape o)
  validateLengths data.shape dims o e
  return { data := data, dims := dims, units := units, origin := o, extent := e }

/-! ### view -/

/-- An index expression: `view[i, j, k]` (a tuple or list) or `view[i]`. (quantity.py:164-198) -/
inductive VIdx where
  | tuple (l : List Ix)
  | one (i : Ix)

/-- quantity.py:558-565 `shift_index`. -/
def shiftIndex (cur : Option Int) (shift extent : Int) : Option Int :=
  match cur with
  | none => none
  | some v => some (if v + shift < 0 then extent + (v + shift) else v + shift)

/-- quantity.py:552-555 `shift_slice`. -/
def shiftSlice (s : PySlice) (shift extent : Int) : PySlice :=
  ⟨shiftIndex s.start shift extent, shiftIndex s.stop shift extent, s.step⟩

/-- _boundary_utils.py:16-21 `bound_default_slice`. -/
def boundDefaultSlice (s : PySlice) (start stop : Int) : PySlice :=
  ⟨some (s.start.getD start), some (s.stop.getD stop), s.step⟩

/-- quantity.py:187-198: one entry of `_get_compute_index`. -/
def shiftEntry (e : Ix) (origin extent : Int) : Ix :=
  match e with
  | .slice s => .slice (boundDefaultSlice (shiftSlice s origin extent) origin (origin + extent))
  | .int i => .int (i + origin)

/-- The `zip(index, origin, extent)` loop of quantity.py:188-197. -/
def shiftEntries : List Ix → List Int → List Int → List Ix
  | e :: es, o :: os, x :: xs => shiftEntry e o x :: shiftEntries es os xs
  | _, _, _ => []

/-- quantity.py:548-549 `fill_index`. -/
def fillIndex (ix : List Ix) (length : Nat) : List Ix :=
  ix ++ List.replicate (length - ix.length) (.slice .full)

namespace Quantity
variable {α : Type}

/-- quantity.py:178-198 `BoundedArrayView._get_compute_index`.  Too many indices raise
AttributeError instead of the intended IndexError, since the message refers to
`self.dims`, which does not exist. -/
def computeIndex (q : Quantity α) (v : VIdx) : Py (List Ix) :=
  let ix := match v with
    | .tuple l => l
    | .one i => [i]
  if ix.length > q.dims.length then .error .attributeError
  else .ok (shiftEntries (fillIndex ix q.data.shape.length) q.origin q.extent)

/-- The zero-dimensional special case of `__getitem__` (quantity.py:66-72, 165-171). -/
def zeroDimGet (data : NDArray α) : VIdx → Py (NDArray α)
  | .tuple (_ :: _) => .error .indexError
  | .tuple [] => .ok data
  | .one (.slice s) => if s = .full then .ok data else .error .indexError
  | .one (.int _) => .ok data

/-- quantity.py:164-173 `view[index]`. -/
def viewGet (q : Quantity α) (v : VIdx) : Py (NDArray α) :=
  if q.origin.length = 0 then zeroDimGet q.data v
  else do
    let ix ← q.computeIndex v
    q.data.getItem ix

/-- quantity.py:175-176 `view[index] = value`: the quantity after the assignment. -/
def viewSet (q : Quantity α) (v : VIdx) (value : NDArray α) : Py (Quantity α) := do
  let ix ← q.computeIndex v
  let d ← q.data.setItem ix value
  return { q with data := d }

/-- quantity.py:366-377 `Quantity.sel` / 95-106 `BoundaryArrayView.sel`: the index tuple
built from keyword arguments. -/
def selIndex (dims : List Dim) (kw : Dim → Option Ix) : VIdx :=
  .tuple (dims.map fun d => (kw d).getD (.slice .full))

end Quantity

/-! ### corner and interior views -/

/-- The view attributes `northwest`, ..., `interior` (quantity.py:138-152). -/
inductive Corner where
  | nw | ne | sw | se | interior
  deriving DecidableEq, Repr

/-- _boundary_utils.py:97-126 `boundary_at_start_of_dim` and its table. -/
def boundaryAtStartOfDim (b : BType) (d : Dim) : Option Bool :=
  let west := if d ∈ X_DIMS then some true else none
  let east := if d ∈ X_DIMS then some false else none
  let south := if d ∈ Y_DIMS then some true else none
  let north := if d ∈ Y_DIMS then some false else none
  match b with
  | .west => west
  | .east => east
  | .south => south
  | .north => north
  | .nw => west.or north
  | .ne => east.or north
  | .sw => west.or south
  | .se => east.or south

/-- _boundary_utils.py:43-53 `_get_offset`: offsets of slice start and stop. -/
def getOffset (c : Corner) (d : Dim) (origin extent : Int) : Int × Int :=
  let corner (b : BType) : Int × Int :=
    match boundaryAtStartOfDim b d with
    | none => (origin, origin)
    | some true => (origin, origin)
    | some false => (origin + extent, origin + extent)
  match c with
  | .interior => (origin, origin + extent)
  | .nw => corner .nw
  | .ne => corner .ne
  | .sw => corner .sw
  | .se => corner .se

/-- _boundary_utils.py:24-40 `_shift_boundary_slice`. -/
def shiftBoundaryEntry (c : Corner) (d : Dim) (origin extent : Int) (e : Ix) : Ix :=
  let off := getOffset c d origin extent
  match e with
  | .slice s =>
    .slice (boundDefaultSlice ⟨s.start.map (· + off.1), s.stop.map (· + off.2), s.step⟩
      origin (origin + extent))
  | .int i => .int (i + off.1)

/-- _boundary_utils.py:7-13 `shift_boundary_slice_tuple`. -/
def shiftBoundaryEntries (c : Corner) : List Dim → List Ix → List Int → List Int → List Ix
  | d :: ds, e :: es, o :: os, x :: xs =>
    shiftBoundaryEntry c d o x e :: shiftBoundaryEntries c ds es os xs
  | _, _, _, _ => []

namespace Quantity
variable {α : Type}

/-- quantity.py:79-93 `BoundaryArrayView._get_array_index`. -/
def cornerIndex (q : Quantity α) (c : Corner) (v : VIdx) : Py (List Ix) :=
  let ix := match v with
    | .tuple l => l
    | .one i => [i]
  if ix.length > q.dims.length then .error .indexError
  else .ok (shiftBoundaryEntries c q.dims (fillIndex ix q.dims.length) q.origin q.extent)

/-- quantity.py:65-74 `view.northwest[index]` etc. -/
def cornerGet (q : Quantity α) (c : Corner) (v : VIdx) : Py (NDArray α) :=
  if q.origin.length = 0 then zeroDimGet q.data v
  else do
    let ix ← q.cornerIndex c v
    q.data.getItem ix

/-- quantity.py:76-77 `view.northwest[index] = value`. -/
def cornerSet (q : Quantity α) (c : Corner) (v : VIdx) (value : NDArray α) : Py (Quantity α) := do
  let ix ← q.cornerIndex c v
  let d ← q.data.setItem ix value
  return { q with data := d }

/-! ### transpose -/

/-- An entry of `target_dims`: a name or an iterable of names. (quantity.py:477, 522-545) -/
inductive TDim where
  | name (d : Dim)
  | anyOf (ds : List Dim)

/-- quantity.py:522-545 `_collapse_dims`. -/
def collapseDims (dims : List Dim) : List TDim → Py (List Dim)
  | [] => .ok []
  | .name d :: ts => do
    if d ∈ dims then
      let rest ← collapseDims dims ts
      return d :: rest
    else .error .valueError
  | .anyOf ds :: ts => do
    match ds.filter (· ∈ dims) with
    | [] => .error .valueError
    | [d] =>
      let rest ← collapseDims dims ts
      return d :: rest
    | _ :: _ :: _ => .error .valueError

/-- `numpy.transpose` with its argument check: the axes must be a permutation. (quantity.py:509) -/
def npTranspose (a : NDArray α) (perm : List Nat) : Py (NDArray α) :=
  if perm.length = a.shape.length ∧ perm.Nodup ∧ ∀ k ∈ perm, k < a.shape.length then
    .ok (a.transpose perm)
  else .error .valueError

/-- quantity.py:518-519 `transpose_sequence`. -/
def transposeSeq {β : Type} (d : β) (s : List β) (order : List Nat) : List β :=
  order.map fun i => s.getD i d

/-- quantity.py:477-515 `Quantity.transpose`. -/
def transpose (q : Quantity α) (target : List TDim) : Py (Quantity α) := do
  let t ← collapseDims q.dims target
  let order := t.map fun d => q.dims.idxOf d
  let d ← npTranspose q.data order
  Quantity.mk? d (transposeSeq .x q.dims order) q.units
    (some (transposeSeq 0 q.origin order)) (some (transposeSeq 0 q.extent order))

end Quantity
end FV3
