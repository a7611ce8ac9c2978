import Verif.Spec.Updates
import Verif.Spec.Quantity

/-!
# Quantities whose halos can be updated
-/

namespace FV3
variable {α : Type}

/-- A quantity on a rank with `n × n` grid cells, with one y-type axis `ky` and one x-type axis
`kx`, each at cell centres (`n` points) or at interfaces (`n + 1` points), and with at least
`h` halo points on each side. -/
structure HaloReady (q : Quantity α) (ky kx : Nat) (n h : Int) : Prop where
  wf : q.WF
  axes : HAxes q.dims ky kx
  ey : q.e ky = n + overlapOf (q.d ky)
  ex : q.e kx = n + overlapOf (q.d kx)
  haloY : h ≤ q.o ky ∧ q.o ky + q.e ky + h ≤ q.n ky
  haloX : h ≤ q.o kx ∧ q.o kx + q.e kx + h ≤ q.n kx

/-- Two quantities differ only in the values of their arrays. -/
structure SameMeta (q q' : Quantity α) : Prop where
  shape : q'.data.shape = q.data.shape
  dims : q'.dims = q.dims
  units : q'.units = q.units
  origin : q'.origin = q.origin
  extent : q'.extent = q.extent

/-- Position of `idx` on axis `k`, from the start of the compute domain. -/
def Quantity.rel (q : Quantity α) (idx : List Nat) (k : Nat) : Int := at' idx k - q.o k

/-- Doubled coordinate within the tile of the point of array index `idx` on axis `k`, for the
rank at position `c` along that axis (cell centres are odd, interfaces even). -/
def Quantity.tilePos (q : Quantity α) (n c : Int) (idx : List Nat) (k : Nat) : Int :=
  2 * (c * n + q.rel idx k) + 1 - overlapOf (q.d k)

/-- `idx` is a halo point: within `h` points of the compute domain horizontally (but not in
it), and inside the compute domain on the other axes. -/
structure InHalo (q : Quantity α) (ky kx : Nat) (h : Int) (idx : List Nat) : Prop where
  len : idx.length = q.ndim
  y : -h ≤ q.rel idx ky ∧ q.rel idx ky < q.e ky + h
  x : -h ≤ q.rel idx kx ∧ q.rel idx kx < q.e kx + h
  other : ∀ k, k < q.ndim → k ≠ ky → k ≠ kx → q.InDom idx k
  out : ¬ (q.InDom idx ky ∧ q.InDom idx kx)

/-- The quantity with handle `q` on all ranks (`m r q` on rank `r`) is one scalar field on the
cubed sphere, with `n × n` cells per rank: same dimensions, same extents of the other axes, and
both horizontal axes at cell centres or both at interfaces. -/
structure ScalarField (l : Layout) (m : Int → Mem α) (q : Nat) (ky kx : Nat) (n h : Int) : Prop where
  ready : ∀ r ∈ allRanks l, HaloReady (m r q) ky kx n h
  dims : ∀ r ∈ allRanks l, ∀ r' ∈ allRanks l, (m r' q).dims = (m r q).dims
  other : ∀ r ∈ allRanks l, ∀ r' ∈ allRanks l, ∀ k, k < (m r q).ndim → k ≠ ky → k ≠ kx →
    (m r' q).e k = (m r q).e k
  stagger : ∀ r ∈ allRanks l, overlapOf ((m r q).d ky) = overlapOf ((m r q).d kx)

/-- The quantities `x` and `y` on all ranks are the components of one vector field: same axes,
same extents of the other axes, and the staggering of `y` is that of `x` with the horizontal
axes exchanged (A-grid, C-grid or D-grid). -/
structure VectorField (l : Layout) (m : Int → Mem α) (x y : Nat) (ky kx : Nat) (n h : Int) :
    Prop where
  readyX : ∀ r ∈ allRanks l, HaloReady (m r x) ky kx n h
  readyY : ∀ r ∈ allRanks l, HaloReady (m r y) ky kx n h
  dimsX : ∀ r ∈ allRanks l, ∀ r' ∈ allRanks l, (m r' x).dims = (m r x).dims
  dimsY : ∀ r ∈ allRanks l, ∀ r' ∈ allRanks l, (m r' y).dims = (m r y).dims
  ndim : ∀ r ∈ allRanks l, (m r y).ndim = (m r x).ndim
  other : ∀ r ∈ allRanks l, ∀ r' ∈ allRanks l, ∀ k, k < (m r x).ndim → k ≠ ky → k ≠ kx →
    (m r' y).e k = (m r x).e k
  staggerY : ∀ r ∈ allRanks l, overlapOf ((m r y).d ky) = overlapOf ((m r x).d kx)
  staggerX : ∀ r ∈ allRanks l, overlapOf ((m r y).d kx) = overlapOf ((m r x).d ky)

/-- The quantities of rank `r` have the metadata they have in `m`. -/
def MetaIs (m : Int → Mem α) (r : Int) (mem : Mem α) : Prop := ∀ q, SameMeta (m r q) (mem q)

end FV3
