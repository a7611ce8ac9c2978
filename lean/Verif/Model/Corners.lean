import Verif.Model.Quantity
import Verif.Model.Partitioner

/-!
# Filling tile corners (_corners.py)
-/

namespace FV3
variable {α : Type}

/-- _corners.py:159-176 `_shared_edge_points` (`fill_direction == "y"` or not). -/
def sharedEdgePoints (direction : String) (d0 d1 : Dim) : Int :=
  if direction = "y" then (if d0 ∈ INTERFACE_DIMS then 1 else 0)
  else (if d1 ∈ INTERFACE_DIMS then 1 else 0)

/-- An assignment `view.c[dst] = rot90(view.c[src], k)` of _corners.py:121-156 (`rot90` turns the
first two axes). -/
def copyTurned (c : Corner) (dst src : Int × Int × Int × Int) (k : Int) (q : Quantity α) :
    Py (Quantity α) := do
  let s ← q.cornerGet c (.tuple [.slice (.of src.1 src.2.1), .slice (.of src.2.2.1 src.2.2.2)])
  q.cornerSet c (.tuple [.slice (.of dst.1 dst.2.1), .slice (.of dst.2.2.1 dst.2.2.2)]) (s.rot90 k 0 1)

/-- `if c: f` on a quantity modified in place. (_corners.py:121-156) -/
def onlyIf (c : Bool) (f : Quantity α → Py (Quantity α)) (q : Quantity α) : Py (Quantity α) :=
  if c then f q else .ok q

/-- _corners.py:82-156 `fill_scalar_corners` (a quantity with fewer than two dims raises
IndexError). -/
def fillScalarCorners (q : Quantity α) (direction : String) (l : Layout) (rank nHalo : Int) :
    Py (Quantity α) :=
  match q.dims with
  | [] => .error .indexError
  | d0 :: rest =>
    if d0 ∉ X_DIMS then .error .valueError
    else
      match rest with
      | [] => .error .indexError
      | d1 :: _ =>
        if d1 ∉ Y_DIMS then .error .valueError
        else if direction ≠ "x" ∧ direction ≠ "y" then .error .typeError
        else do
          let onNorth := onTileTop l rank
          let onSouth := onTileBottom l rank
          let onEast := onTileRight l rank
          let onWest := onTileLeft l rank
          let shift := sharedEdgePoints direction d0 d1
          let n := nHalo
          let q ← onlyIf (onSouth && onWest) (fun q =>
            if direction = "y" then copyTurned .sw (-n, 0, -n, 0) (shift, n + shift, -n, 0) (-1) q
            else copyTurned .sw (-n, 0, -n, 0) (-n, 0, shift, n + shift) 1 q) q
          let q ← onlyIf (onNorth && onWest) (fun q =>
            if direction = "y" then copyTurned .nw (-n, 0, 0, n) (shift, n + shift, 0, n) 1 q
            else copyTurned .nw (-n, 0, 0, n) (-n, 0, -n - shift, -shift) (-1) q) q
          let q ← onlyIf (onSouth && onEast) (fun q =>
            if direction = "y" then copyTurned .se (0, n, -n, 0) (-n - shift, -shift, -n, 0) 1 q
            else copyTurned .se (0, n, -n, 0) (0, n, shift, n + shift) (-1) q) q
          onlyIf (onNorth && onEast) (fun q =>
            if direction = "y" then copyTurned .ne (0, n, 0, n) (-n - shift, -shift, 0, n) (-1) q
            else copyTurned .ne (0, n, 0, n) (0, n, -n - shift, -shift) 1 q) q

end FV3
