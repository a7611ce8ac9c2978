import Verif.Spec.HaloResult

/-!
# What the corners of a tile should hold

Beyond a corner of the cube a tile's grid has no continuation.  But a line of grid points in the
halo beyond one edge can be continued over the corner: the halo is a part of the neighbouring face,
and the line is continued straight on that face and folded over its edge.
-/

namespace FV3

/-- Continue in the plane of face `t'` from a point `Q` of that plane: folded over the edge of the
face, if `Q` is beyond it. -/
def foldOn (N t' : Int) (Q : Vec3) : Vec3 :=
  foldPos N t' (N + Q.dot (face t').ex) (N + Q.dot (face t').ey)

/-- `P` is where the x grid line at `b`, beyond the south or north edge of tile `t`, gets to at `a`,
when continued straight on the neighbouring face `t'` and over its edge. -/
def ContinuedX (N t a b : Int) (P : Vec3) : Prop :=
  ∃ t', 0 ≤ t' ∧ t' < 6 ∧
    ((b < 0 ∧ (face t').n = (face t).ey.neg ∧ P = foldOn N t' ((pos N t a 0).add ((face t).n.smul b))) ∨
     (b > 2 * N ∧ (face t').n = (face t).ey ∧
        P = foldOn N t' ((pos N t a (2 * N)).add ((face t).n.smul (2 * N - b)))))

/-- The same for the y grid line at `a`, beyond the west or east edge. -/
def ContinuedY (N t a b : Int) (P : Vec3) : Prop :=
  ∃ t', 0 ≤ t' ∧ t' < 6 ∧
    ((a < 0 ∧ (face t').n = (face t).ex.neg ∧ P = foldOn N t' ((pos N t 0 b).add ((face t).n.smul a))) ∨
     (a > 2 * N ∧ (face t').n = (face t).ex ∧
        P = foldOn N t' ((pos N t (2 * N) b).add ((face t).n.smul (2 * N - a)))))

/-- The continuation in the direction in which stencils are going to be applied. -/
def Continued (direction : String) (N t a b : Int) (P : Vec3) : Prop :=
  if direction = "x" then ContinuedX N t a b P else ContinuedY N t a b P

/-! ### In terms of one rank's array -/

/-- On an axis with compute domain `o .. o+e-1`: the `p`-th point outside, before the start (`lo`) or
after the end. -/
def outAt (lo : Bool) (o e p : Int) : Int := if lo then o - p else o + e - 1 + p

/-- The `p`-th point inside, from the start (`lo`) or from the end. -/
def inAt (lo : Bool) (o e p : Int) : Int := if lo then o + p - 1 else o + e - p

/-- `idx` is the point of a corner square of width `n`, `p` points outside along x (axis 0; `w`: west)
and `r` points outside along y (axis 1; `s`: south). -/
structure CornerPt {α : Type} (q : Quantity α) (w s : Bool) (n : Int) (idx : List Nat) (p r : Int) : Prop where
  len : idx.length = q.ndim
  p1 : 1 ≤ p ∧ p ≤ n
  r1 : 1 ≤ r ∧ r ≤ n
  x : at' idx 0 = outAt w (q.o 0) (q.e 0) p
  y : at' idx 1 = outAt s (q.o 1) (q.e 1) r
  other : ∀ k, k < q.ndim → k ≠ 0 → k ≠ 1 → q.InDom idx k

/-- `src` is the halo point from which the corner point `idx` is filled: for stencils along x the
`r`-th point outside along x and the `p`-th point inside along y, not counting a point shared between
tiles; for stencils along y the other way round. -/
structure CornerSrc {α : Type} (q : Quantity α) (direction : String) (w s : Bool) (idx : List Nat) (p r : Int)
    (src : List Nat) : Prop where
  len : src.length = q.ndim
  other : ∀ k, k ≠ 0 → k ≠ 1 → at' src k = at' idx k
  x : at' src 0 = if direction = "x" then outAt w (q.o 0) (q.e 0) r
    else inAt w (q.o 0) (q.e 0) (r + overlapOf (q.d 0))
  y : at' src 1 = if direction = "x" then inAt s (q.o 1) (q.e 1) (p + overlapOf (q.d 1))
    else outAt s (q.o 1) (q.e 1) p

/-- The rank is at the corner of its tile on the given sides. -/
def AtTileCorner (l : Layout) (rank : Int) (w s : Bool) : Prop :=
  (subtileIndex l rank).2 = (if w then 0 else l.x - 1) ∧ (subtileIndex l rank).1 = (if s then 0 else l.y - 1)

end FV3
