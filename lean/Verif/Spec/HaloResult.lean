import Verif.Spec.Halo
import Verif.Spec.Cube

/-!
# Where the points of a quantity are, and what its halo should hold
-/

namespace FV3
variable {α : Type}

/-- Index of a point on the axes other than the horizontal ones, from the start of the compute
domain. -/
def Quantity.otherPos (q : Quantity α) (ky kx : Nat) (idx : List Nat) : Nat → Int := fun k =>
  if k < q.ndim ∧ k ≠ ky ∧ k ≠ kx then q.rel idx k else 0

/-- Index `idx` of quantity `q` on rank `r` is at the doubled coordinates `(a, b)` of tile `t`
(outside `[0, 2N]` for the halo beyond an edge of the tile). -/
structure AtTile (l : Layout) (m : Int → Mem α) (q ky kx : Nat) (n : Int) (r : Int)
    (idx : List Nat) (t a b : Int) : Prop where
  rank : r ∈ allRanks l
  tile : tileIndex l r = .ok t
  x : a = (m r q).tilePos n (subtileIndex l r).2 idx kx
  y : b = (m r q).tilePos n (subtileIndex l r).1 idx ky

/-- Rank `r` owns the point `P` of the surface of the cube: `idx` is an index of the compute
domain of its quantity `q`, at `P`, with `others` on the other axes. -/
structure Owns (l : Layout) (m : Int → Mem α) (q ky kx : Nat) (n : Int) (r : Int) (idx : List Nat)
    (P : Vec3) (others : Nat → Int) : Prop where
  compute : (m r q).InCompute idx
  other : (m r q).otherPos ky kx idx = others
  point : ∃ t a b, AtTile l m q ky kx n r idx t a b ∧ pos (l.x * n) t a b = P

/-- A point of the compute domain or of the halo. -/
def HasValue (q : Quantity α) (ky kx : Nat) (h : Int) (idx : List Nat) : Prop :=
  q.InCompute idx ∨ InHalo q ky kx h idx

/-- In `m'`, the halos of `q` hold the values which the owners of the points had in `m`. -/
def HaloFilled (l : Layout) (q ky kx : Nat) (n h : Int) (m m' : Int → Mem α) : Prop :=
  ∀ r idx t a b, AtTile l m q ky kx n r idx t a b → InHalo (m r q) ky kx h idx →
    SingleCross (l.x * n) a b →
    ∃ r' src, Owns l m q ky kx n r' src (foldPos (l.x * n) t a b) ((m r q).otherPos ky kx idx) ∧
      (m' r q).data.get idx = (m r' q).data.get src

/-- Nothing is different in `m'` except the halo of `q`, not counting the halo across the
corners of the cube. -/
def OnlyHaloChanged (l : Layout) (q ky kx : Nat) (n h : Int) (m m' : Int → Mem α) : Prop :=
  ∀ r ∈ allRanks l, (∀ q', SameMeta (m r q') (m' r q')) ∧ (∀ q', q' ≠ q → m' r q' = m r q') ∧
    ∀ idx t a b, AtTile l m q ky kx n r idx t a b → idx.length = (m r q).ndim →
      ¬ (InHalo (m r q) ky kx h idx ∧ SingleCross (l.x * n) a b) →
      (m' r q).data.get idx = (m r q).data.get idx

/-- The quantity is a sample of the field `F` on the surface of the cube. -/
def SampleOf (l : Layout) (m : Int → Mem α) (q ky kx : Nat) (n : Int)
    (F : Vec3 → (Nat → Int) → α) : Prop :=
  ∀ r idx P others, Owns l m q ky kx n r idx P others → (m r q).data.get idx = F P others

/-- `v` is the component along the direction `E` of a vector whose component along `e` is `w`,
where `E` is `e` or its opposite. -/
def AlongDir [Neg α] (E : Vec3) (v : α) (e : Vec3) (w : α) : Prop :=
  (E = e ∧ v = w) ∨ (E = e.neg ∧ v = -w)

/-- `v` is the component along `E`, at the point `P`, of the vector field with components `x` and
`y` (along the x and y axes of the tile of the rank owning the point). -/
def IsComponentAt [Neg α] (l : Layout) (m : Int → Mem α) (x y ky kx : Nat) (n : Int) (P : Vec3)
    (others : Nat → Int) (E : Vec3) (v : α) : Prop :=
  ∃ r src t, tileIndex l r = .ok t ∧
    ((Owns l m x ky kx n r src P others ∧ AlongDir E v (face t).ex ((m r x).data.get src)) ∨
     (Owns l m y ky kx n r src P others ∧ AlongDir E v (face t).ey ((m r y).data.get src)))

/-- In `m'`, the halos of the vector field hold the components, along the receiving tile's axes
continued (folded) over the edge of the cube, of the vectors which the owners had in `m`. -/
def VectorHaloFilled [Neg α] (l : Layout) (x y ky kx : Nat) (n h : Int) (m m' : Int → Mem α) : Prop :=
  (∀ r idx t a b, AtTile l m x ky kx n r idx t a b → InHalo (m r x) ky kx h idx →
    SingleCross (l.x * n) a b →
    IsComponentAt l m x y ky kx n (foldPos (l.x * n) t a b) ((m r x).otherPos ky kx idx)
      (foldEx (l.x * n) t a) ((m' r x).data.get idx)) ∧
  (∀ r idx t a b, AtTile l m y ky kx n r idx t a b → InHalo (m r y) ky kx h idx →
    SingleCross (l.x * n) a b →
    IsComponentAt l m x y ky kx n (foldPos (l.x * n) t a b) ((m r y).otherPos ky kx idx)
      (foldEy (l.x * n) t b) ((m' r y).data.get idx))

/-- Nothing is different in `m'` except the halos of `x` and `y`. -/
def OnlyVectorHaloChanged (l : Layout) (x y ky kx : Nat) (n h : Int) (m m' : Int → Mem α) : Prop :=
  ∀ r ∈ allRanks l, (∀ q', SameMeta (m r q') (m' r q')) ∧
    (∀ q', q' ≠ x → q' ≠ y → m' r q' = m r q') ∧
    ∀ q, q = x ∨ q = y → ∀ idx t a b, AtTile l m q ky kx n r idx t a b →
      idx.length = (m r q).ndim → ¬ (InHalo (m r q) ky kx h idx ∧ SingleCross (l.x * n) a b) →
      (m' r q).data.get idx = (m r q).data.get idx

/-- The quantities `x`, `y` are samples of the tangent vector field whose component at `P` along
`e` is `V P others e`. -/
def VectorSampleOf (l : Layout) (m : Int → Mem α) (x y ky kx : Nat) (n : Int)
    (V : Vec3 → (Nat → Int) → Vec3 → α) : Prop :=
  ∀ r idx P others t, tileIndex l r = .ok t →
    (Owns l m x ky kx n r idx P others → (m r x).data.get idx = V P others (face t).ex) ∧
    (Owns l m y ky kx n r idx P others → (m r y).data.get idx = V P others (face t).ey)

end FV3
