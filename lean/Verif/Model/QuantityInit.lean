import Verif.Model.Quantity
import Mathlib.Data.Rat.Floor

/-!
# `Quantity.__init__` for other arguments than arrays and integers (quantity.py)

Model/Quantity.lean has the constructor for a numpy array and integer origins and extents.  Here the
arguments are what a caller may pass.  gt4py storages are not modelled.
-/

namespace FV3

/-- The first argument of `Quantity` (quantity.py:252-266). -/
inductive QData (α : Type) where
  /-- a numpy array -/
  | array (a : NDArray α)
  /-- an int, float or list; `a` is what `np.asarray` makes of it -/
  | plain (a : NDArray α)

/-- An item of `origin` or `extent` (quantity.py:222-231).  Strings are represented by what `int(...)`
makes of them: a number, or ValueError. -/
inductive PyItem where
  | int (i : Int)
  | float (x : ℚ)
  | str (parsed : Option Int)
  | none

/-- `int(x)` for a float: truncation towards zero. (quantity.py:226) -/
def truncQ (x : ℚ) : Int := if 0 ≤ x then ⌊x⌋ else ⌈x⌉

/-- One turn of the loop of `ensure_int_tuple`: ValueError becomes TypeError; `int(None)` raises
TypeError itself. (quantity.py:224-230) -/
def PyItem.toInt : PyItem → Py Int
  | .int i => .ok i
  | .float x => .ok (truncQ x)
  | .str (some i) => .ok i
  | .str Option.none => .error .typeError
  | .none => .error .typeError

/-- quantity.py:222-231 `ensure_int_tuple`. -/
def ensureIntTuple : List PyItem → Py (List Int)
  | [] => .ok []
  | x :: xs => do
    let i ← x.toInt
    let is ← ensureIntTuple xs
    return i :: is

/-- `length - start` (quantity.py:284). -/
def PyItem.subFrom (length : Nat) : PyItem → Py PyItem
  | .int i => .ok (.int (length - i))
  | .float x => .ok (.float (length - x))
  | .str _ => .error .typeError
  | .none => .error .typeError

/-- The default extent (quantity.py:284). -/
def defaultExtent : List Nat → List PyItem → Py (List PyItem)
  | n :: shape, x :: origin => do
    let e ← x.subFrom n
    let es ← defaultExtent shape origin
    return e :: es
  | _, _ => .ok []

/-- quantity.py:252-327 `Quantity.__init__`.  `data.shape` of a list or number raises AttributeError; for
such data `self._data` is never set, so that `type(self._data)` raises AttributeError, after the checks of
the lengths and of origin and extent. -/
def Quantity.init {α : Type} (data : QData α) (dims : List Dim) (units : String)
    (origin extent : Option (List PyItem)) : Py (Quantity α) := do
  let o := origin.getD (List.replicate dims.length (.int 0))
  let e ← match extent, data with
    | some e, _ => .ok e
    | none, .plain _ => .error .attributeError
    | none, .array a => defaultExtent a.shape o
  let shape := match data with
    | .array a => a.shape
    | .plain a => a.shape
  if dims.length ≠ shape.length then .error .valueError
  else if o.length ≠ shape.length then .error .valueError
  else if e.length ≠ shape.length then .error .valueError
  else do
    let o' ← ensureIntTuple o
    let e' ← ensureIntTuple e
    match data with
    | .plain _ => .error .attributeError
    | .array a => return { data := a, dims := dims, units := units, origin := o', extent := e' }

end FV3
