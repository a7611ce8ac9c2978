import Verif.Model.Quantity
import Verif.Model.Partitioner

/-!
# Boundary slices and rotation of data (_boundary_utils.py, boundary.py, rotate.py)
-/

namespace FV3

/-- _boundary_utils.py:59-83: the range `start, stop` chosen for one axis. -/
def boundaryRange (d : Dim) (origin extent : Int) (b : BType) (nHalo : Int) (interior : Bool) :
    Int × Int :=
  let nOverlap : Int := if d ∈ INTERFACE_DIMS then 1 else 0
  if d ∉ HORIZONTAL_DIMS then (origin, origin + extent)
  else
    match boundaryAtStartOfDim b d with
    | none => (origin, origin + extent)
    | some true =>
      if interior then (origin + nOverlap, origin + nOverlap + nHalo)
      else (origin - nHalo, origin)
    | some false =>
      if interior then (origin + extent - nOverlap - nHalo, origin + extent - nOverlap)
      else (origin + extent, origin + extent + nHalo)

/-- _boundary_utils.py:56-94 `get_boundary_slice` (the `zip` loop, with its bounds checks).
The `lru_cache` is transparent: arguments and result are immutable tuples. -/
def getBoundarySlice (b : BType) (nHalo : Int) (interior : Bool) :
    List Dim → List Int → List Int → List Nat → Py (List PySlice)
  | d :: ds, o :: os, e :: es, n :: ns => do
    let (start, stop) := boundaryRange d o e b nHalo interior
    if start < 0 then .error .outOfBounds
    else if stop > n then .error .outOfBounds
    else
      let rest ← getBoundarySlice b nHalo interior ds os es ns
      return PySlice.of start stop :: rest
  | _, _, _, _ => .ok []

/-- boundary.py:66-76 `SimpleBoundary._view`: the index tuple. -/
def boundaryViewIndex {α : Type} (q : Quantity α) (b : BType) (nPoints : Int) (interior : Bool) :
    Py (List Ix) := do
  let sl ← getBoundarySlice b nPoints interior q.dims q.origin q.extent q.data.shape
  return sl.map .slice

/-- boundary.py:30-37 `send_view`. -/
def sendView {α : Type} (q : Quantity α) (b : BType) (nPoints : Int) : Py (NDArray α) := do
  let ix ← boundaryViewIndex q b nPoints true
  q.data.getItem ix

/-- boundary.py:39-46 `recv_view`: since the view is only assigned to, its index. -/
def recvIndex {α : Type} (q : Quantity α) (b : BType) (nPoints : Int) : Py (List Ix) :=
  boundaryViewIndex q b nPoints false

/-! ### rotate.py -/

/-- rotate.py:8-13: last axis with an x (y) dimension name. -/
def findAxes : List Dim → Nat → Option Nat → Option Nat → Option Nat × Option Nat
  | [], _, x, y => (x, y)
  | d :: ds, i, x, y =>
    if d ∈ X_DIMS then findAxes ds (i + 1) (some i) y
    else if d ∈ Y_DIMS then findAxes ds (i + 1) x (some i)
    else findAxes ds (i + 1) x y

/-- rotate.py:24-33: `data[slices]` with reversed horizontal axes; more names than axes
raise IndexError. -/
def reverseHorizontal {α : Type} (data : NDArray α) (dims : List Dim) : Py (NDArray α) :=
  data.getItem (dims.map fun d =>
    if d ∈ HORIZONTAL_DIMS then .slice ⟨none, none, some (-1)⟩ else .slice .full)

/-- rotate.py:4-34 `rotate_scalar_data`.  `numpy.rot90`/`flip` raise for axes the array does
not have (ValueError / AxisError, modelled as ValueError). -/
def rotateScalar {α : Type} (data : NDArray α) (dims : List Dim) (nClockwise : Int) :
    Py (NDArray α) :=
  let k := pymod nClockwise 4
  if k = 0 then .ok data
  else if k = 1 ∨ k = 3 then
    match findAxes dims 0 none none with
    | (some x, some y) =>
      if x < data.shape.length ∧ y < data.shape.length then
        if k = 1 then .ok (data.rot90 1 y x) else .ok (data.rot90 1 x y)
      else .error .valueError
    | (some x, none) =>
      if x < data.shape.length then (if k = 1 then .ok (data.flip x) else .ok data)
      else if k = 1 then .error .valueError else .ok data
    | (none, some y) =>
      if y < data.shape.length then (if k = 3 then .ok (data.flip y) else .ok data)
      else if k = 3 then .error .valueError else .ok data
    | (none, none) => .ok data
  else reverseHorizontal data dims

/-- rotate.py:37-50 `rotate_vector_data`. -/
def rotateVector {α : Type} [Neg α] (xData yData : NDArray α) (nClockwise : Int) (dims : List Dim) :
    Py (NDArray α × NDArray α) := do
  let x ← rotateScalar xData dims nClockwise
  let y ← rotateScalar yData dims nClockwise
  let k := pymod nClockwise 4
  if k = 0 then return (x, y)
  else if k = 1 then return (y, x.map Neg.neg)
  else if k = 2 then return (x.map Neg.neg, y.map Neg.neg)
  else return (y.map Neg.neg, x)

/-- boundary.py:19-28 `Boundary.rotate(y_data, x_data)`: contents of the two arrays
afterwards.  The slices `x_data[:]`, `y_data[:]` are views: in the case of one rotation the
right-hand sides are `-x` (a new array) and a view of `y`; the first assignment overwrites
`y` before the second one reads it through the view.  In the case of three rotations only
the local names are rebound. -/
def Boundary.rotateInPlace {α : Type} [Neg α] (nClockwise : Int) (y x : NDArray α) :
    NDArray α × NDArray α :=
  let k := pymod nClockwise 4
  if k = 0 then (y, x)
  else if k = 1 then
    let negX := x.map Neg.neg
    let y' := negX
    let x' := y'
    (y', x')
  else if k = 2 then (y.map Neg.neg, x.map Neg.neg)
  else (y, x)

end FV3
