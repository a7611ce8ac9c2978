import Verif.Spec.Halo
import Verif.Model.Sizer

/-!
# Sizes of allocated quantities
-/

namespace FV3

/-- Number of grid cells (or entries, for a dimension that is not of the grid) of a rank along a
dimension; `none` for an unknown name. -/
def GridSizer.cellsAlong (s : GridSizer) (d : Dim) : Option Int :=
  if IsX d then some s.nx else if IsY d then some s.ny else if d = .z ∨ d = .zI then some s.nz
  else s.extra.get? d

/-- The sizes make sense: nothing is negative. -/
structure GridSizer.Valid (s : GridSizer) : Prop where
  nx : 0 ≤ s.nx
  ny : 0 ≤ s.ny
  nz : 0 ≤ s.nz
  nHalo : 0 ≤ s.nHalo
  extra : ∀ d v, s.extra.get? d = some v → 0 ≤ v

/-- What an allocated quantity should look like along one axis with `c` cells: origin `o`, extent `e`
and array length `n`.  There are halo points on both sides exactly for horizontal axes, and room for
one more point on the axes of the grid, so that cell centre and interface arrays have one shape. -/
def GridSizer.AxisOk (s : GridSizer) (d : Dim) (c o e n : Int) : Prop :=
  (o = if IsX d ∨ IsY d then s.nHalo else 0) ∧
  e = pointsOf d c ∧
  n = if IsX d ∨ IsY d then s.nHalo + (c + 1) + s.nHalo
      else if d = .z ∨ d = .zI then c + 1 else c

end FV3
