import Verif.Model.FancyView

/-!
# Assignment through views with arrays of indices, masks, lists and new axes (quantity.py:76-77, 175-176)
-/

namespace FV3.Fancy

/-! ### numpy -/

/-- The place, on the axes which come from slices and new axes, at which element `idx` of the array is shown at position
`j` of the axis of the arrays; `none` if it is not. (numpy semantics; used at quantity.py:77, 176) -/
def unplace : List RNx → Nat → List Nat → Option (List Nat)
  | [], _, [] => some []
  | [], _, _ :: _ => none
  | .newaxis :: rs, j, idx => (unplace rs j idx).map (0 :: ·)
  | .int _ :: _, _, [] => none
  | .arr _ :: _, _, [] => none
  | .slice _ _ _ :: _, _, [] => none
  | .int i :: rs, j, x :: idx => if x = i then unplace rs j idx else none
  | .arr js :: rs, j, x :: idx => if x = js.getD (if js.length = 1 then 0 else j) 0 then unplace rs j idx else none
  | .slice a st c :: rs, j, x :: idx =>
    let i := ((x : Int) - a) / st
    if 0 ≤ i ∧ i < c ∧ a + st * i = x then (unplace rs j idx).map (i.toNat :: ·) else none

/-- The last of the positions `0 .. n-1` at which `f` has a value, and that value. (numpy: of the values assigned to one
element through repeated indices the last one stays; used at quantity.py:77, 176) -/
def latest {β : Type} (f : Nat → Option β) : Nat → Option (Nat × β)
  | 0 => none
  | n + 1 => match f n with
    | some b => some (n, b)
    | none => latest f n

/-- `a[ix] = v`, where `v` is broadcast to the shape of `a[ix]`; ValueError if this is not possible.  Where both an index
and the shape of the value are wrong, the error of the index is raised here. (numpy semantics; used at quantity.py:77,
176) -/
def setItem {α : Type} (a : NDArray α) (ix : List NIx) (v : NDArray α) : Py (NDArray α) := do
  let rs ← resolve ix a.shape
  match ← arrLen rs with
  | none =>
    if fits v.shape (axes rs) then
      .ok ⟨a.shape, fun idx => match unplace rs 0 idx with
        | some out => (v.stretch (axes rs)).get out
        | none => a.get idx⟩
    else .error .valueError
  | some n =>
    let p := arrAxis rs
    let s := (axes rs).insertIdx p n
    if fits v.shape s then
      .ok ⟨a.shape, fun idx => match latest (fun j => unplace rs j idx) n with
        | some (j, out) => (v.stretch s).get (out.insertIdx p j)
        | none => a.get idx⟩
    else .error .valueError

/-! ### views -/

/-- quantity.py:175-198 `view[index] = value`: the quantity after the assignment.  There is no special case for
zero-dimensional quantities. -/
def viewSet {α : Type} (q : Quantity α) (v : FIdx) (value : NDArray α) : Py (Quantity α) :=
  if v.entries.length > q.dims.length then .error .attributeError
  else do
    let ix ← shiftEntries (fill v.entries q.data.shape.length) q.origin q.extent
    let d ← setItem q.data ix value
    return { q with data := d }

/-- quantity.py:76-93 `view.northwest[index] = value` etc. -/
def cornerSet {α : Type} (q : Quantity α) (c : Corner) (v : FIdx) (value : NDArray α) : Py (Quantity α) :=
  if v.entries.length > q.dims.length then .error .indexError
  else do
    let ix ← shiftBoundaryEntries c q.dims (fill v.entries q.dims.length) q.origin q.extent
    let d ← setItem q.data ix value
    return { q with data := d }

end FV3.Fancy
