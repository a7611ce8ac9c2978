import Verif.Model.Collective
import Verif.Spec.Net
import Verif.Spec.Views

/-!
# Specification of scatter and gather

A global quantity covers a tile (tile communicator), or the six tiles (cubed-sphere communicator;
first axis "tile").  Each rank has the part of it given by its place in the layout.
-/

namespace FV3
variable {α A : Type}

namespace Comm

/-- The layout of the tiles. -/
def layout : Comm → Layout
  | .tile l => l
  | .cube l => l

/-- All ranks of the communicator run `prog`; nothing has been sent yet. -/
def net (c : Comm) (prog : Int → CollM α A) : Net (Msg α) (Option (Py A)) :=
  Net.start fun r => if r ∈ c.ranks then (prog r 0).bind fun x => .ret (some x.1) else .ret none

/-- Whatever the schedule, all ranks of the communicator finish; rank `r` with result (or exception)
`out r`. -/
def Returns (buf : Buffering) (c : Comm) (prog : Int → CollM α A) (out : Int → Py A) : Prop :=
  (c.net prog).Completes buf fun r => if r ∈ c.ranks then some (out r) else none

/-- Names of the axes of a global quantity: those of the parts, after "tile" for the cubed sphere. -/
def globalDims : Comm → List Dim → List Dim
  | .tile _, dims => dims
  | .cube _, dims => .tile :: dims

/-- `ext` is the extent of a global quantity whose parts have `cells` grid cells on each axis. -/
def GlobalExtent : Comm → List Dim → List Int → List Int → Prop
  | .tile l, dims, cells, ext => TileOf l dims cells ext
  | .cube l, dims, cells, ext => ∃ t, ext = 6 :: t ∧ TileOf l dims cells t

/-- Place in the global compute domain of the point `rel` of the compute domain of rank `r`: each rank
starts `cells` points after its predecessor. -/
def place (c : Comm) (dims : List Dim) (cells : List Int) (r : Int) (rel : List Nat) : List Nat :=
  let inTile := tab dims.length fun k =>
    (coordAlong (subtileIndex c.layout r) (dims.getD k .x) * cells.getD k 0 + (rel.getD k 0 : Nat)).toNat
  match c with
  | .tile _ => inTile
  | .cube l => (r / (l.y * l.x)).toNat :: inTile

end Comm

/-- A quantity with the compute domain of a rank: any dims names, origin and halo. -/
structure Quantity.RankShaped (q : Quantity α) (dims : List Dim) (cells : List Int) : Prop where
  wf : q.WF
  extent : RankOf dims cells q.extent

/-- A quantity with the compute domain of the whole domain of the communicator. -/
structure Quantity.GlobalShaped (q : Quantity α) (c : Comm) (dims : List Dim) (cells : List Int) : Prop where
  wf : q.WF
  names : q.dims = c.globalDims dims
  extent : c.GlobalExtent dims cells q.extent

/-- `q'` is `q` with other values in its compute domain. -/
structure Quantity.Refilled (q q' : Quantity α) : Prop where
  dims : q'.dims = q.dims
  units : q'.units = q.units
  origin : q'.origin = q.origin
  extent : q'.extent = q.extent
  shape : q'.data.shape = q.data.shape
  outside : ∀ idx, InB q.data.shape idx → ¬ q.InCompute idx → q'.data.get idx = q.data.get idx

/-- `q'` holds the part of rank `r` of the global quantity `g`. -/
def IsPart (c : Comm) (dims : List Dim) (cells : List Int) (g q' : Quantity α) (r : Int) : Prop :=
  ∀ rel, InB q'.computeArr.shape rel →
    q'.computeArr.get rel = g.computeArr.get (c.place dims cells r rel)

/-- `r` is the highest rank whose compute domain has the point `rel` at its global place. -/
def HighestAt (c : Comm) (dims : List Dim) (cells : List Int) (shape : List Nat) (r : Int) (rel : List Nat) : Prop :=
  r ∈ c.ranks ∧ InB shape rel ∧
  ∀ r' ∈ c.ranks, ∀ rel', InB shape rel' → c.place dims cells r' rel' = c.place dims cells r rel → r' ≤ r

/-- Every point of the compute domain of `root` has the value of the highest rank that has the point. -/
def GatheredFrom (c : Comm) (dims : List Dim) (cells : List Int) (send : Int → Quantity α) (root : Quantity α) : Prop :=
  ∀ p, InB root.computeArr.shape p → ∃ r rel, HighestAt c dims cells (send 0).computeArr.shape r rel ∧
    c.place dims cells r rel = p ∧ root.computeArr.get p = (send r).computeArr.get rel

/-- A quantity allocated for receiving: compute domain and array are the same. -/
structure FreshPart (q : Quantity α) (dims : List Dim) (cells : List Int) (units : String) : Prop where
  names : q.dims = dims
  units : q.units = units
  origin : ∀ k, q.o k = 0
  extent : RankOf dims cells q.extent
  shape : q.data.shape = q.extent.map Int.toNat

/-- A global quantity allocated for receiving. -/
structure FreshGlobal (c : Comm) (q : Quantity α) (dims : List Dim) (cells : List Int) (units : String) : Prop where
  shaped : q.GlobalShaped c dims cells
  units : q.units = units
  origin : ∀ k, q.o k = 0
  shape : q.data.shape = q.extent.map Int.toNat

end FV3
