import Verif.Model.BoundarySlice
import Verif.Spec.Partition
import Verif.Spec.BoundaryTypes

/-!
# Specification vocabulary for quantities: axes, compute domain, halo regions
-/

namespace FV3

namespace Quantity
variable {α : Type} (q : Quantity α)

/-- Number of axes. -/
def ndim : Nat := q.dims.length
/-- Name of axis `k`. -/
def d (k : Nat) : Dim := q.dims.getD k .x
/-- Origin of axis `k`. -/
def o (k : Nat) : Int := q.origin.getD k 0
/-- Extent of axis `k`. -/
def e (k : Nat) : Int := q.extent.getD k 0
/-- Length of axis `k` of the array. -/
def n (k : Nat) : Int := (q.data.shape.getD k 0 : Nat)

/-- One entry of dims, origin and extent per axis. -/
structure Lens : Prop where
  shape : q.data.shape.length = q.ndim
  origin : q.origin.length = q.ndim
  extent : q.extent.length = q.ndim

/-- The compute domain is inside the array. -/
structure WF : Prop extends q.Lens where
  inside : ∀ k, k < q.ndim → 0 ≤ q.o k ∧ 0 ≤ q.e k ∧ q.o k + q.e k ≤ q.n k

/-- Value of index `idx` on axis `k`. -/
abbrev _root_.FV3.at' (idx : List Nat) (k : Nat) : Int := (idx.getD k 0 : Nat)

/-- `idx` is in the compute domain along axis `k`. -/
def InDom (idx : List Nat) (k : Nat) : Prop := q.o k ≤ at' idx k ∧ at' idx k < q.o k + q.e k

/-- `idx` is a point of the compute domain. -/
def InCompute (idx : List Nat) : Prop := idx.length = q.ndim ∧ ∀ k, k < q.ndim → q.InDom idx k

end Quantity

/-- Direction of a boundary type along a dimension: -1 towards the start, +1 towards the
end, 0 along the boundary. -/
def dirAlong (b : BType) (d : Dim) : Int := if IsX d then b.dx else if IsY d then b.dy else 0

/-- Interface variables share one point with the neighbour. -/
def overlapOf (d : Dim) : Int := if d = .xI ∨ d = .yI ∨ d = .zI then 1 else 0

/-- Halo points across boundary `b` on one axis: origin `o`, extent `e`, `h` halo points. -/
def recvRange (b : BType) (h : Int) (d : Dim) (o e : Int) : Int × Int :=
  if dirAlong b d = -1 then (o - h, o)
  else if dirAlong b d = 1 then (o + e, o + e + h)
  else (o, o + e)

/-- Points of the compute domain next to boundary `b` which are not shared with the
neighbour. -/
def sendRange (b : BType) (h : Int) (d : Dim) (o e : Int) : Int × Int :=
  if dirAlong b d = -1 then (o + overlapOf d, o + overlapOf d + h)
  else if dirAlong b d = 1 then (o + e - overlapOf d - h, o + e - overlapOf d)
  else (o, o + e)

/-- The halo region / send region of a quantity across boundary `b`. -/
def InRecv {α : Type} (q : Quantity α) (b : BType) (h : Int) (idx : List Nat) : Prop :=
  idx.length = q.ndim ∧ ∀ k, k < q.ndim →
    (recvRange b h (q.d k) (q.o k) (q.e k)).1 ≤ at' idx k ∧
    at' idx k < (recvRange b h (q.d k) (q.o k) (q.e k)).2

/-- Index in the region sent from, for every axis. -/
def InSend {α : Type} (q : Quantity α) (b : BType) (h : Int) (idx : List Nat) : Prop :=
  idx.length = q.ndim ∧ ∀ k, k < q.ndim →
    (sendRange b h (q.d k) (q.o k) (q.e k)).1 ≤ at' idx k ∧
    at' idx k < (sendRange b h (q.d k) (q.o k) (q.e k)).2

/-- The ranges fit in the array. -/
def RecvFits {α : Type} (q : Quantity α) (b : BType) (h : Int) : Prop :=
  ∀ k, k < q.ndim → 0 ≤ (recvRange b h (q.d k) (q.o k) (q.e k)).1 ∧
    (recvRange b h (q.d k) (q.o k) (q.e k)).2 ≤ q.n k

/-- The ranges sent from fit in the array. -/
def SendFits {α : Type} (q : Quantity α) (b : BType) (h : Int) : Prop :=
  ∀ k, k < q.ndim → 0 ≤ (sendRange b h (q.d k) (q.o k) (q.e k)).1 ∧
    (sendRange b h (q.d k) (q.o k) (q.e k)).2 ≤ q.n k

instance {α : Type} (q : Quantity α) (b : BType) (h : Int) : Decidable (RecvFits q b h) := by
  unfold RecvFits; infer_instance

instance {α : Type} (q : Quantity α) (b : BType) (h : Int) : Decidable (SendFits q b h) := by
  unfold SendFits; infer_instance

end FV3
