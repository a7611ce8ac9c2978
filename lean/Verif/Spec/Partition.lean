import Verif.Model.Partitioner
import Verif.Proofs.Float

/-!
# Specification vocabulary for domain decomposition
-/

namespace FV3

/-- x-type dimension name ("x" or "x_interface"). -/
def IsX (d : Dim) : Prop := d = .x ∨ d = .xI
/-- y-type dimension name ("y" or "y_interface"). -/
def IsY (d : Dim) : Prop := d = .y ∨ d = .yI

instance (d) : Decidable (IsX d) := by unfold IsX; infer_instance
instance (d) : Decidable (IsY d) := by unfold IsY; infer_instance

/-- `dims` has exactly one y-type axis, number `ky`, and exactly one x-type axis,
number `kx`; the other axes are arbitrary. -/
structure HAxes (dims : List Dim) (ky kx : Nat) : Prop where
  y : ∀ k d, dims[k]? = some d → (IsY d ↔ k = ky)
  x : ∀ k d, dims[k]? = some d → (IsX d ↔ k = kx)
  ylt : ky < dims.length
  xlt : kx < dims.length

/-- Number of ranks a dimension is divided over. -/
def ranksAlong (l : Layout) (d : Dim) : Int :=
  if IsY d then l.y else if IsX d then l.x else 1

/-- Rank coordinate along a dimension of the rank at subtile position `(j, i)`. -/
def coordAlong (p : Int × Int) (d : Dim) : Int :=
  if IsY d then p.1 else if IsX d then p.2 else 0

/-- Extents of a rank: `c` cells along an axis make `c` centre points and `c + 1`
interface points. -/
def pointsOf (d : Dim) (cells : Int) : Int := if d = .xI ∨ d = .yI ∨ d = .zI then cells + 1 else cells

/-- `tile` is the extent of a tile made of ranks with `cells` grid cells on each axis. -/
def TileOf (l : Layout) (dims : List Dim) (cells tile : List Int) : Prop :=
  cells.length = dims.length ∧ tile.length = dims.length ∧
  ∀ (k : Nat) d c t, dims[k]? = some d → cells[k]? = some c → tile[k]? = some t →
    0 ≤ c ∧ c * ranksAlong l d < 2 ^ 51 ∧ t = pointsOf d (c * ranksAlong l d)

/-- `rank` is the extent of a rank with `cells` grid cells on each axis. -/
def RankOf (dims : List Dim) (cells rank : List Int) : Prop :=
  cells.length = dims.length ∧ rank.length = dims.length ∧
  ∀ (k : Nat) d c r, dims[k]? = some d → cells[k]? = some c → rank[k]? = some r →
    0 ≤ c ∧ r = pointsOf d c

/-- `idx` lies in the box given by half-open ranges. -/
def InBox (box : List (Int × Int)) (idx : List Int) : Prop :=
  box.length = idx.length ∧
  ∀ (k : Nat) s i, box[k]? = some s → idx[k]? = some i → s.1 ≤ i ∧ i < s.2

/-- `idx` is a valid index of an array of the given extent. -/
def InExtent (ext idx : List Int) : Prop :=
  ext.length = idx.length ∧
  ∀ (k : Nat) e i, ext[k]? = some e → idx[k]? = some i → 0 ≤ i ∧ i < e

/-- Layouts for which the double-precision reciprocal is accurate enough:
`n · fl(1/n) ≥ 1 - 2^-54` for both entries. (Theorem `C05_safe_iff` restates this as an
observable fact; all layouts up to 48 are safe, 49 is the first that is not.) -/
structure FloatSafe (l : Layout) : Prop where
  ypos : 0 < l.y
  xpos : 0 < l.x
  ysafe : RecipSafe l.y.toNat
  xsafe : RecipSafe l.x.toNat

end FV3
