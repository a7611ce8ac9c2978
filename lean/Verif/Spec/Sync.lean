import Verif.Spec.HaloResult

/-!
# Shared edges of vector fields
-/

namespace FV3
variable {α : Type}

/-- The quantities `x` and `y` on all ranks are the components of one vector field which can be
synchronised: `n × n` cells per rank, `x` on the y-interfaces and `y` on the x-interfaces, the two
horizontal axes first (in either order), same number and extents of the other axes. -/
structure SyncField (l : Layout) (m : Int → Mem α) (x y : Nat) (ky kx : Nat) (n : Int) : Prop where
  cells : 0 < n
  lead : ky + kx = 1
  wfX : ∀ r ∈ allRanks l, (m r x).WF
  wfY : ∀ r ∈ allRanks l, (m r y).WF
  axesX : ∀ r ∈ allRanks l, HAxes (m r x).dims ky kx
  axesY : ∀ r ∈ allRanks l, HAxes (m r y).dims ky kx
  dimsX : ∀ r ∈ allRanks l, (m r x).d ky = .yI ∧ (m r x).d kx = .x
  dimsY : ∀ r ∈ allRanks l, (m r y).d ky = .y ∧ (m r y).d kx = .xI
  extX : ∀ r ∈ allRanks l, (m r x).e ky = n + 1 ∧ (m r x).e kx = n
  extY : ∀ r ∈ allRanks l, (m r y).e ky = n ∧ (m r y).e kx = n + 1
  ndim : ∀ r ∈ allRanks l, ∀ r' ∈ allRanks l, (m r' y).ndim = (m r x).ndim
  other : ∀ r ∈ allRanks l, ∀ r' ∈ allRanks l, ∀ k, k < (m r x).ndim → k ≠ ky → k ≠ kx →
    (m r' y).e k = (m r x).e k

/-- In `m`, `v` is the component along `E`, at the point `P`, of the vector field on the south or
west edge of a rank owning the point. -/
def IsEdgeComponentAt [Neg α] (l : Layout) (m : Int → Mem α) (x y ky kx : Nat) (n : Int) (P : Vec3)
    (others : Nat → Int) (E : Vec3) (v : α) : Prop :=
  ∃ r src t, tileIndex l r = .ok t ∧
    ((Owns l m x ky kx n r src P others ∧ (m r x).rel src ky = 0 ∧
        AlongDir E v (face t).ex ((m r x).data.get src)) ∨
     (Owns l m y ky kx n r src P others ∧ (m r y).rel src kx = 0 ∧
        AlongDir E v (face t).ey ((m r y).data.get src)))

/-- The points of the north edge of the compute domain of `x`. -/
def OnNorthEdge (q : Quantity α) (ky : Nat) (idx : List Nat) : Prop :=
  q.InCompute idx ∧ q.rel idx ky = q.e ky - 1

/-- The points of the east edge of the compute domain of `y`. -/
def OnEastEdge (q : Quantity α) (kx : Nat) (idx : List Nat) : Prop :=
  q.InCompute idx ∧ q.rel idx kx = q.e kx - 1

/-- In `m`, every rank's values on the north edge (for `x`) and on the east edge (for `y`) are the
components, along its own tile's axes, of the vectors the neighbouring rank has there. -/
def EdgesAgree [Neg α] (l : Layout) (m : Int → Mem α) (x y ky kx : Nat) (n : Int) : Prop :=
  (∀ r idx t a b, AtTile l m x ky kx n r idx t a b → OnNorthEdge (m r x) ky idx →
    IsEdgeComponentAt l m x y ky kx n (pos (l.x * n) t a b) ((m r x).otherPos ky kx idx)
      (face t).ex ((m r x).data.get idx)) ∧
  (∀ r idx t a b, AtTile l m y ky kx n r idx t a b → OnEastEdge (m r y) kx idx →
    IsEdgeComponentAt l m x y ky kx n (pos (l.x * n) t a b) ((m r y).otherPos ky kx idx)
      (face t).ey ((m r y).data.get idx))

/-- In `m'`, the values on the north edges of `x` and on the east edges of `y` are the components,
along the rank's own tile's axes, of the vectors the neighbouring ranks had there in `m`. -/
def EdgesFilled [Neg α] (l : Layout) (m m' : Int → Mem α) (x y ky kx : Nat) (n : Int) : Prop :=
  (∀ r idx t a b, AtTile l m x ky kx n r idx t a b → OnNorthEdge (m r x) ky idx →
    IsEdgeComponentAt l m x y ky kx n (pos (l.x * n) t a b) ((m r x).otherPos ky kx idx)
      (face t).ex ((m' r x).data.get idx)) ∧
  (∀ r idx t a b, AtTile l m y ky kx n r idx t a b → OnEastEdge (m r y) kx idx →
    IsEdgeComponentAt l m x y ky kx n (pos (l.x * n) t a b) ((m r y).otherPos ky kx idx)
      (face t).ey ((m' r y).data.get idx))

/-- Nothing is different in `m'` except the north edges of `x` and the east edges of `y`. -/
def OnlyEdgesChanged (l : Layout) (x y ky kx : Nat) (m m' : Int → Mem α) : Prop :=
  ∀ r ∈ allRanks l, (∀ q', SameMeta (m r q') (m' r q')) ∧
    (∀ q', q' ≠ x → q' ≠ y → m' r q' = m r q') ∧
    (∀ idx, idx.length = (m r x).ndim → ¬ OnNorthEdge (m r x) ky idx →
      (m' r x).data.get idx = (m r x).data.get idx) ∧
    (∀ idx, idx.length = (m r y).ndim → ¬ OnEastEdge (m r y) kx idx →
      (m' r y).data.get idx = (m r y).data.get idx)

end FV3
