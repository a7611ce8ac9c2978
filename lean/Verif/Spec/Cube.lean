/-!
# Geometry of the cubed sphere, independent of the code

The six tiles are the faces of a cube in 3-space.  A tile with `N` grid cells per side is
described in doubled coordinates `a, b ∈ [0, 2N]` (`a` along the tile's x axis, `b` along
its y axis): cell `i` has centre `2i+1`, interface `i` is at `2i`.  The cube is
`[-N, N]³`.  Only integer arithmetic is needed.
-/

namespace FV3

/-- Vectors of 3-space with integer coordinates. -/
@[ext] structure Vec3 where
  x : Int
  y : Int
  z : Int
  deriving DecidableEq, Repr

namespace Vec3
/-- Sum of vectors. -/
def add (u v : Vec3) : Vec3 := ⟨u.x + v.x, u.y + v.y, u.z + v.z⟩
/-- The opposite vector. -/
def neg (u : Vec3) : Vec3 := ⟨-u.x, -u.y, -u.z⟩
/-- Multiple of a vector. -/
def smul (k : Int) (u : Vec3) : Vec3 := ⟨k * u.x, k * u.y, k * u.z⟩
/-- Scalar product. -/
def dot (u v : Vec3) : Int := u.x * v.x + u.y * v.y + u.z * v.z
/-- Vector product. -/
def cross (u v : Vec3) : Vec3 :=
  ⟨u.y * v.z - u.z * v.y, u.z * v.x - u.x * v.z, u.x * v.y - u.y * v.x⟩
end Vec3

/-- Frame of a face: outward normal and the directions of increasing x and y. -/
structure Face where
  n : Vec3
  ex : Vec3
  ey : Vec3
  deriving DecidableEq, Repr

/-- The six faces (tile numbers modulo 6). -/
def face (t : Int) : Face :=
  let o := t % 6
  if o = 0 then ⟨⟨1, 0, 0⟩, ⟨0, 1, 0⟩, ⟨0, 0, 1⟩⟩
  else if o = 1 then ⟨⟨0, 1, 0⟩, ⟨-1, 0, 0⟩, ⟨0, 0, 1⟩⟩
  else if o = 2 then ⟨⟨0, 0, 1⟩, ⟨-1, 0, 0⟩, ⟨0, -1, 0⟩⟩
  else if o = 3 then ⟨⟨-1, 0, 0⟩, ⟨0, 0, -1⟩, ⟨0, -1, 0⟩⟩
  else if o = 4 then ⟨⟨0, -1, 0⟩, ⟨0, 0, -1⟩, ⟨1, 0, 0⟩⟩
  else ⟨⟨0, 0, -1⟩, ⟨0, 1, 0⟩, ⟨1, 0, 0⟩⟩

/-- The faces really are the six faces of a cube with right-handed outward frames. -/
theorem face_frames :
    (∀ t, 0 ≤ t → t < 6 →
      (face t).ex.dot (face t).ex = 1 ∧ (face t).ey.dot (face t).ey = 1 ∧
      (face t).ex.dot (face t).ey = 0 ∧ (face t).ex.cross (face t).ey = (face t).n) ∧
    (∀ t t', 0 ≤ t → t < 6 → 0 ≤ t' → t' < 6 → (face t).n = (face t').n → t = t') := by
  constructor
  · intro t h0 h1
    have : t = 0 ∨ t = 1 ∨ t = 2 ∨ t = 3 ∨ t = 4 ∨ t = 5 := by omega
    rcases this with rfl | rfl | rfl | rfl | rfl | rfl <;> decide
  · intro t t' h0 h1 h2 h3
    have : t = 0 ∨ t = 1 ∨ t = 2 ∨ t = 3 ∨ t = 4 ∨ t = 5 := by omega
    have : t' = 0 ∨ t' = 1 ∨ t' = 2 ∨ t' = 3 ∨ t' = 4 ∨ t' = 5 := by omega
    rcases ‹t = 0 ∨ _› with rfl | rfl | rfl | rfl | rfl | rfl <;>
    rcases ‹t' = 0 ∨ _› with rfl | rfl | rfl | rfl | rfl | rfl <;> decide

/-- Position in space of the point `(a, b)` of tile `t` (also used, by extension of the
plane, outside `[0, 2N]`). -/
def pos (N t a b : Int) : Vec3 :=
  ((face t).n.smul N).add (((face t).ex.smul (a - N)).add ((face t).ey.smul (b - N)))

/-- Position on the surface of the cube of the point `(a, b)` of tile `t`'s grid continued
past one of its edges: the part of the grid beyond the edge is folded down by a right
angle, onto the neighbouring face.  (Beyond two edges at once, i.e. across a cube corner,
there is no such continuation.) -/
def foldPos (N t a b : Int) : Vec3 :=
  if a < 0 then (pos N t 0 b).add ((face t).n.smul a)
  else if a > 2 * N then (pos N t (2 * N) b).add ((face t).n.smul (2 * N - a))
  else if b < 0 then (pos N t a 0).add ((face t).n.smul b)
  else if b > 2 * N then (pos N t a (2 * N)).add ((face t).n.smul (2 * N - b))
  else pos N t a b

/-- At most one edge of the tile is crossed at `(a, b)`: not across a corner of the cube. -/
def SingleCross (N a b : Int) : Prop := (0 ≤ a ∧ a ≤ 2 * N) ∨ (0 ≤ b ∧ b ≤ 2 * N)

/-- The directions in space of tile `t`'s x and y axes after the same fold. -/
def foldEx (N t a : Int) : Vec3 :=
  if a < 0 then (face t).n
  else if a > 2 * N then (face t).n.neg
  else (face t).ex

/-- The direction in which `b` grows at a position which may be beyond an edge of the face (see `foldEx`). -/
def foldEy (N t b : Int) : Vec3 :=
  if b < 0 then (face t).n
  else if b > 2 * N then (face t).n.neg
  else (face t).ey

/-- `(ex', ey')` is `(ex, ey)` turned clockwise `k` times by a right angle. -/
def TurnedCW (k : Int) (ex ey ex' ey' : Vec3) : Prop :=
  (k % 4 = 0 → ex' = ex ∧ ey' = ey) ∧
  (k % 4 = 1 → ex' = ey.neg ∧ ey' = ex) ∧
  (k % 4 = 2 → ex' = ex.neg ∧ ey' = ey.neg) ∧
  (k % 4 = 3 → ex' = ey ∧ ey' = ex.neg)

end FV3
