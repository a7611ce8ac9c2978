import Verif.Model.Quantity

/-!
# Views with other index entries than integers and slices (quantity.py:65-93, 164-198)

New axes (`None`), ellipsis, one-dimensional arrays of integers, one-dimensional masks and lists.  Not modelled: arrays of
indices with another number of axes than one.
-/

namespace FV3.Fancy

/-- One entry of an index expression as the user writes it. (quantity.py:164-198) -/
inductive Entry where
  | int (i : Int)
  | slice (s : PySlice)
  /-- `None`, `numpy.newaxis` -/
  | newaxis
  /-- `...` -/
  | ellipsis
  /-- a one-dimensional numpy array of integers -/
  | ints (a : List Int)
  /-- a one-dimensional numpy array of booleans -/
  | mask (b : List Bool)
  /-- a Python list inside a tuple of indices -/
  | pylist (a : List Int)

/-- An index expression: `view[i, j]`, `view[[i, j]]` or `view[i]`. (quantity.py:164-184) -/
inductive FIdx where
  | tuple (l : List Entry)
  | list (l : List Entry)
  | one (e : Entry)

/-- An entry of an index expression as numpy gets it; masks do not get there, see `shiftEntry`. (quantity.py:173, 74) -/
inductive NIx where
  | int (i : Int)
  | slice (s : PySlice)
  | newaxis
  | ints (a : List Int)
  deriving DecidableEq

/-! ### numpy -/

/-- A resolved entry: a position, evenly spaced positions, a new axis of length one, or listed positions.
(numpy semantics; used at quantity.py:74, 173) -/
inductive RNx where
  | int (i : Nat)
  | slice (a step : Int) (count : Nat)
  | newaxis
  | arr (js : List Nat)
  deriving DecidableEq

/-- Positions on an axis of length `n` of the integers of an array; IndexError if one is out of range (also where
another axis is empty; numpy releases before 1.20 warned there instead). (numpy semantics; used at quantity.py:74, 173) -/
def resolveInts (n : Nat) : List Int → Py (List Nat)
  | [] => .ok []
  | i :: a => do
    let j := if i < 0 then i + n else i
    if 0 ≤ j ∧ j < n then
      let rest ← resolveInts n a
      .ok (j.toNat :: rest)
    else .error .indexError

/-- Resolve an index tuple against a shape: every entry but a new axis uses up an axis; missing entries are full slices.
(numpy semantics; used at quantity.py:74, 173) -/
def resolve : List NIx → List Nat → Py (List RNx)
  | [], s => .ok (s.map fun n => .slice 0 1 n)
  | .newaxis :: es, s => do
    let rest ← resolve es s
    .ok (.newaxis :: rest)
  | .int _ :: _, [] => .error .indexError
  | .slice _ :: _, [] => .error .indexError
  | .ints _ :: _, [] => .error .indexError
  | .int i :: es, n :: s => do
    let j := if i < 0 then i + n else i
    if 0 ≤ j ∧ j < n then
      let rest ← resolve es s
      .ok (.int j.toNat :: rest)
    else .error .indexError
  | .slice sl :: es, n :: s => do
    match ← sl.resolve n with
    | .slice a st c =>
      let rest ← resolve es s
      .ok (.slice a st c :: rest)
    | .int i =>
      let rest ← resolve es s
      .ok (.int i :: rest)
  | .ints a :: es, n :: s => do
    let js ← resolveInts n a
    let rest ← resolve es s
    .ok (.arr js :: rest)

/-- The common length of the arrays of indices, where those of length one are repeated; `none` without such arrays,
IndexError if there is no common length. (numpy semantics; used at quantity.py:74, 173) -/
def arrLen : List RNx → Py (Option Nat)
  | [] => .ok none
  | .arr js :: rs => do
    match ← arrLen rs with
    | none => .ok (some js.length)
    | some n =>
      if js.length = n then .ok (some n)
      else if n = 1 then .ok (some js.length)
      else if js.length = 1 then .ok (some n)
      else .error .indexError
  | .int _ :: rs => arrLen rs
  | .slice _ _ _ :: rs => arrLen rs
  | .newaxis :: rs => arrLen rs

/-- Lengths of the axes of the result which come from slices and new axes. (numpy semantics; used at quantity.py:74, 173) -/
def axes : List RNx → List Nat
  | [] => []
  | .slice _ _ c :: rs => c :: axes rs
  | .newaxis :: rs => 1 :: axes rs
  | .int _ :: rs => axes rs
  | .arr _ :: rs => axes rs

/-- Integers and arrays are the "advanced" entries when there is an array. (numpy semantics; used at quantity.py:74, 173) -/
def RNx.advanced : RNx → Bool
  | .int _ => true
  | .arr _ => true
  | .slice _ _ _ => false
  | .newaxis => false

/-- Where the axis of the arrays goes: in their place if all advanced entries are next to each other, first otherwise.
(numpy semantics; used at quantity.py:74, 173) -/
def arrAxis (rs : List RNx) : Nat :=
  let lead := rs.takeWhile fun r => !r.advanced
  let rest := (rs.dropWhile fun r => !r.advanced).dropWhile RNx.advanced
  if rest.all fun r => !r.advanced then lead.length else 0

/-- The element of the array which goes to position `j` of the axis of the arrays and to `out` of the other axes.
(numpy semantics; used at quantity.py:74, 173) -/
def place : List RNx → Nat → List Nat → List Nat
  | [], _, _ => []
  | .int i :: rs, j, out => i :: place rs j out
  | .arr js :: rs, j, out => js.getD (if js.length = 1 then 0 else j) 0 :: place rs j out
  | .slice a st _ :: rs, j, out => (a + st * (out.headD 0 : Nat)).toNat :: place rs j out.tail
  | .newaxis :: rs, j, out => place rs j out.tail

/-- `a[ix]`. (numpy semantics; used at quantity.py:74, 173) -/
def getItem {α : Type} (a : NDArray α) (ix : List NIx) : Py (NDArray α) := do
  let rs ← resolve ix a.shape
  match ← arrLen rs with
  | none => .ok ⟨axes rs, fun out => a.get (place rs 0 out)⟩
  | some n =>
    let p := arrAxis rs
    .ok ⟨(axes rs).insertIdx p n, fun out => a.get (place rs (out.getD p 0) (out.eraseIdx p))⟩

/-! ### the compute domain view -/

/-- One entry of `_get_compute_index` (quantity.py:187-198).  `Ellipsis + int` and `list + int` are TypeErrors; a boolean
array plus an integer is an integer array. -/
def shiftEntry (e : Entry) (origin extent : Int) : Py NIx :=
  match e with
  | .slice s => .ok (.slice (boundDefaultSlice (shiftSlice s origin extent) origin (origin + extent)))
  | .newaxis => .ok .newaxis
  | .int i => .ok (.int (i + origin))
  | .ints a => .ok (.ints (a.map (· + origin)))
  | .mask b => .ok (.ints (b.map fun t => (if t then 1 else 0) + origin))
  | .ellipsis => .error .typeError
  | .pylist _ => .error .typeError

/-- The loop over `zip(index, origin, extent)`: a new axis uses up an origin and an extent as well
(quantity.py:187-197). -/
def shiftEntries : List Entry → List Int → List Int → Py (List NIx)
  | e :: es, o :: os, x :: xs => do
    let r ← shiftEntry e o x
    let rest ← shiftEntries es os xs
    .ok (r :: rest)
  | _, _, _ => .ok []

/-- quantity.py:548-549 `fill_index`. -/
def fill (ix : List Entry) (length : Nat) : List Entry :=
  ix ++ List.replicate (length - ix.length) (.slice .full)

/-- The entries of an index expression: a list counts as a tuple (quantity.py:80-83, 179-180). -/
def FIdx.entries : FIdx → List Entry
  | .tuple l => l
  | .list l => l
  | .one e => [e]

/-- `__getitem__` of a scalar (quantity.py:66-72, 165-171). -/
def scalarGet {α : Type} (data : NDArray α) : FIdx → Py (NDArray α)
  | .tuple (_ :: _) => .error .indexError
  | .one (.slice s) => if s = .full then .ok data else .error .indexError
  | _ => .ok data

/-- quantity.py:164-198 `view[index]`. -/
def viewGet {α : Type} (q : Quantity α) (v : FIdx) : Py (NDArray α) :=
  if q.origin.length = 0 then scalarGet q.data v
  else if v.entries.length > q.dims.length then .error .attributeError
  else do
    let ix ← shiftEntries (fill v.entries q.data.shape.length) q.origin q.extent
    getItem q.data ix

/-! ### corner views -/

/-- _boundary_utils.py:24-40 `_shift_boundary_slice`: whatever is not a slice is added to the offset. -/
def shiftBoundaryEntry (c : Corner) (d : Dim) (origin extent : Int) (e : Entry) : Py NIx :=
  let off := getOffset c d origin extent
  match e with
  | .slice s =>
    .ok (.slice (boundDefaultSlice ⟨s.start.map (· + off.1), s.stop.map (· + off.2), s.step⟩ origin (origin + extent)))
  | .int i => .ok (.int (i + off.1))
  | .ints a => .ok (.ints (a.map (· + off.1)))
  | .mask b => .ok (.ints (b.map fun t => (if t then 1 else 0) + off.1))
  | .newaxis => .error .typeError
  | .ellipsis => .error .typeError
  | .pylist _ => .error .typeError

/-- _boundary_utils.py:7-13 `shift_boundary_slice_tuple`. -/
def shiftBoundaryEntries (c : Corner) : List Dim → List Entry → List Int → List Int → Py (List NIx)
  | d :: ds, e :: es, o :: os, x :: xs => do
    let r ← shiftBoundaryEntry c d o x e
    let rest ← shiftBoundaryEntries c ds es os xs
    .ok (r :: rest)
  | _, _, _, _ => .ok []

/-- quantity.py:65-93 `view.northwest[index]` etc. -/
def cornerGet {α : Type} (q : Quantity α) (c : Corner) (v : FIdx) : Py (NDArray α) :=
  if q.origin.length = 0 then scalarGet q.data v
  else if v.entries.length > q.dims.length then .error .indexError
  else do
    let ix ← shiftBoundaryEntries c q.dims (fill v.entries q.dims.length) q.origin q.extent
    getItem q.data ix

end FV3.Fancy
