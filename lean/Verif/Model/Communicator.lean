import Verif.Model.Net
import Verif.Model.BoundarySlice

/-!
# CubedSphereCommunicator: halo updates (communicator.py)

A rank's state is the content of its quantities (by handle: the Python object), the halo tag
counter and the requests it has been given.  The functions below are the methods of
`CubedSphereCommunicator`, as programs over `Isend`/`Recv`/`wait`; an exception leaves the
state as it is at that moment.

Simplifications.
* The content of a message is fixed when `Isend` is called.  (In the code a contiguous array
  is passed to MPI without a copy; Model/LateSend.lean drops this simplification, see C54.)
* A received message whose shape differs from the view it is stored in raises an error (MPI
  compares the number of elements only; Model/LooseMpi.lean drops this simplification, see C71).
* Timers are not part of this state (see Model/Timer.lean), nor are buffers
  (Model/Buffer.lean).
* `boundaries` is recomputed instead of being cached in the communicator.
-/

namespace FV3

/-- quantity.py:21-37 `QuantityMetadata`, without the array type fields. -/
structure QMeta where
  origin : List Int
  extent : List Int
  dims : List Dim
  units : String
  deriving DecidableEq, Repr

/-- What is sent between ranks: array data (Isend/Recv/Scatter/Gather) or pickled objects
(bcast): metadata, a list of names, or the value of "time" (an opaque number; `none` for
Python's None), or colours and keys (Split). (communicator.py:22-34, 69-79, 343-345, 637-666) -/
inductive Msg (α : Type) where
  | data (a : NDArray α)
  | metadata (m : QMeta)
  | names (l : List String)
  | time (t : Option Int)
  | keys (l : List (Int × Int))

/-- An `Isend` request: receiver, tag and number on that channel. (communicator.py:646) -/
structure SendReq where
  dst : Int
  tag : Nat
  idx : Nat
  deriving DecidableEq, Repr

/-- A deferred receive (communicator.py:657-666 `_Irecv`): sender, tag, and the view to
store into, as the quantity and the index tuple of the view. -/
structure RecvReq where
  src : Int
  tag : Nat
  q : Nat
  ix : List Ix
  deriving DecidableEq, Repr

/-- communicator.py:45-56 `HaloUpdateRequest`. -/
structure Request where
  sends : List SendReq
  recvs : List RecvReq
  deriving DecidableEq, Repr

/-- The quantities of a rank. (communicator.py:378-535) -/
abbrev Mem (α : Type) := Nat → Quantity α

/-- State of a rank: quantities, `_last_halo_tag` (communicator.py:316), requests obtained
so far. -/
structure RankState (α : Type) where
  mem : Mem α
  lastTag : Nat
  reqs : List Request

/-- Programs of a rank with Python exceptions. (communicator.py:378-535, 637-666) -/
def CommM (α A : Type) := RankState α → Proc (Msg α) (Py A × RankState α)

namespace CommM
variable {α A B : Type}

/-- Plumbing of the model (communicator.py:378-535, 637-666) -/
def pure (a : A) : CommM α A := fun s => .ret (.ok a, s)

/-- Sequencing; an exception propagates. (communicator.py:378-535, 637-666) -/
def bind (c : CommM α A) (f : A → CommM α B) : CommM α B := fun s =>
  (c s).bind fun x =>
    match x.1 with
    | .ok a => f a x.2
    | .error e => .ret (.error e, x.2)

/-- The monad structure of the model (communicator.py:378-535, 637-666) -/
instance : Monad (CommM α) where
  pure := CommM.pure
  bind := CommM.bind

/-- A computation without communication. (communicator.py:378-535, 637-666) -/
def lift (x : Py A) : CommM α A := fun s => .ret (x, s)
/-- Plumbing of the model (communicator.py:378-535, 637-666) -/
def raise (e : PyErr) : CommM α A := fun s => .ret (.error e, s)
/-- Plumbing of the model (communicator.py:378-535, 637-666) -/
def get : CommM α (RankState α) := fun s => .ret (.ok s, s)
/-- Plumbing of the model (communicator.py:378-535, 637-666) -/
def set (s : RankState α) : CommM α Unit := fun _ => .ret (.ok (), s)
/-- The current value of a quantity. (communicator.py:378-535, 637-666) -/
def quantity (q : Nat) : CommM α (Quantity α) := fun s => .ret (.ok (s.mem q), s)

/-- A Python `for` loop collecting results. (communicator.py:407, 424, 541) -/
def forEach (f : A → CommM α B) : List A → CommM α (List B)
  | [] => Pure.pure []
  | a :: as => do
    let b ← f a
    let bs ← forEach f as
    return b :: bs

end CommM

variable {α : Type}

/-- communicator.py:324-333 `boundaries`: the existing boundaries of a rank, in the order
of `BOUNDARY_TYPES`. -/
def boundariesFrom (l : Layout) (r : Int) : List BType → Py (List Boundary)
  | [] => .ok []
  | b :: bs => do
    let x ← Cube.boundary l b r
    let rest ← boundariesFrom l r bs
    match x with
    | none => return rest
    | some bd => return bd :: rest

/-- communicator.py:324-333 `boundaries`. -/
def Cube.boundaries (l : Layout) (r : Int) : Py (List Boundary) := boundariesFrom l r BOUNDARY_TYPES

/-- `self.boundaries[b]`: KeyError when absent. (communicator.py:570-571, 613-614) -/
def Cube.boundaryAt (l : Layout) (r : Int) (b : BType) : Py Boundary := do
  let bs ← Cube.boundaries l r
  match bs.find? (·.boundaryType = b) with
  | none => .error .keyError
  | some bd => .ok bd

/-- communicator.py:637-646 `_Isend`. -/
def isend (dst : Int) (tag : Nat) (a : NDArray α) : CommM α SendReq := fun s =>
  .isend dst (.halo tag) (.data a) fun i => .ret (.ok ⟨dst, tag, i⟩, s)

/-- Assignment to a view of a quantity. (communicator.py:662-664, buffer.py:94-95) -/
def storeInto (mem : Mem α) (q : Nat) (ix : List Ix) (a : NDArray α) : Py (Mem α) := do
  let d ← (mem q).data.fillItem ix a
  return fun q' => if q' = q then { mem q with data := d } else mem q'

/-- communicator.py:657-666: the deferred `Recv` into the view. -/
def recvInto (rq : RecvReq) : CommM α Unit := fun s =>
  .recv rq.src (.halo rq.tag) fun m =>
    match m with
    | .data a =>
      match storeInto s.mem rq.q rq.ix a with
      | .ok mem => .ret (.ok (), { s with mem := mem })
      | .error e => .ret (.error e, s)
    | _ => .ret (.error .typeError, s)

/-- Waiting for an `Isend` request. (communicator.py:55-56) -/
def awaitSend (sr : SendReq) : CommM α Unit := fun s =>
  .await sr.dst (.halo sr.tag) sr.idx fun _ => .ret (.ok (), s)

/-- communicator.py:52-56 `HaloUpdateRequest.wait`. -/
def waitRequest (req : Request) : CommM α Unit := do
  let _ ← CommM.forEach recvInto req.recvs
  let _ ← CommM.forEach awaitSend req.sends
  return ()

/-- communicator.py:320-322 `_get_halo_tag`. -/
def getHaloTag : CommM α Nat := fun s => .ret (.ok (s.lastTag + 1), { s with lastTag := s.lastTag + 1 })

/-- communicator.py:405-420 `_Isend_halos`. -/
def isendHalos (l : Layout) (r : Int) (q : Nat) (n : Int) (tag : Nat) : CommM α (List SendReq) := do
  let bs ← CommM.lift (Cube.boundaries l r)
  CommM.forEach (fun (b : Boundary) => do
    let quantity ← CommM.quantity q
    let data ← CommM.lift (sendView quantity b.boundaryType n)
    let data ← CommM.lift (rotateScalar data quantity.dims (-b.rotations))
    isend b.toRank tag data) bs

/-- communicator.py:422-437 `_Irecv_halos`. -/
def irecvHalos (l : Layout) (r : Int) (q : Nat) (n : Int) (tag : Nat) : CommM α (List RecvReq) := do
  let bs ← CommM.lift (Cube.boundaries l r)
  CommM.forEach (fun (b : Boundary) => do
    let quantity ← CommM.quantity q
    let ix ← CommM.lift (recvIndex quantity b.boundaryType n)
    return ⟨b.toRank, tag, q, ix⟩) bs

/-- communicator.py:388-403 `start_halo_update`. -/
def startHaloUpdate (l : Layout) (r : Int) (q : Nat) (n : Int) : CommM α Request :=
  if n = 0 then CommM.raise .valueError
  else do
    let tag ← getHaloTag
    let sends ← isendHalos l r q n tag
    let recvs ← irecvHalos l r q n tag
    return ⟨sends, recvs⟩

/-- communicator.py:378-386 `halo_update`. -/
def haloUpdate (l : Layout) (r : Int) (q : Nat) (n : Int) : CommM α Unit := do
  let req ← startHaloUpdate l r q n
  waitRequest req

/-- communicator.py:537-567 `_Isend_vector_halos`. -/
def isendVectorHalos [Neg α] (l : Layout) (r : Int) (x y : Nat) (n : Int) (tag1 tag2 : Nat) :
    CommM α (List SendReq) := do
  let bs ← CommM.lift (Cube.boundaries l r)
  let rs ← CommM.forEach (fun (b : Boundary) => do
    let xq ← CommM.quantity x
    let yq ← CommM.quantity y
    let xData ← CommM.lift (sendView xq b.boundaryType n)
    let yData ← CommM.lift (sendView yq b.boundaryType n)
    let xy ← CommM.lift (rotateVector xData yData (-b.rotations) xq.dims)
    let s1 ← isend b.toRank tag1 xy.1
    let s2 ← isend b.toRank tag2 xy.2
    return [s1, s2]) bs
  return rs.flatten

/-- communicator.py:512-535 `start_vector_halo_update`. -/
def startVectorHaloUpdate [Neg α] (l : Layout) (r : Int) (x y : Nat) (n : Int) : CommM α Request :=
  if n = 0 then CommM.raise .valueError
  else do
    let tag1 ← getHaloTag
    let tag2 ← getHaloTag
    let sends ← isendVectorHalos l r x y n tag1 tag2
    let r1 ← irecvHalos l r x n tag1
    let r2 ← irecvHalos l r y n tag2
    return ⟨sends, r1 ++ r2⟩

/-- communicator.py:446-459 `vector_halo_update`. -/
def vectorHaloUpdate [Neg α] (l : Layout) (r : Int) (x y : Nat) (n : Int) : CommM α Unit := do
  let req ← startVectorHaloUpdate l r x y n
  waitRequest req

/-- communicator.py:678-690 `on_c_grid`. -/
def onCGrid (xDims yDims : List Dim) : Bool :=
  !(Dim.x ∉ xDims || Dim.yI ∉ xDims) && !(Dim.y ∉ yDims || Dim.xI ∉ yDims)

/-- Keyword arguments of `sel` in communicator.py: an integer on one dimension, the slice
`slice(0, extent)` on another. -/
def edgeKw (dInt : Dim) (i : Int) (dSlice : Dim) (e : Int) : Dim → Option Ix := fun d =>
  if d = dInt then some (.int i) else if d = dSlice then some (.slice (PySlice.of 0 e)) else none

/-- `quantity.extent[quantity.dims.index(dim)]` (communicator.py:576, 592, 619, 627) -/
def Quantity.extentOf (q : Quantity α) (d : Dim) : Py Int :=
  if d ∈ q.dims then
    match q.extent[q.dims.idxOf d]? with
    | some e => .ok e
    | none => .error .indexError
  else .error .valueError

/-- The view `quantity.view.<corner>.sel(<dInt>=i, <dSlice>=slice(0, extent))`. (communicator.py:572-579, 588-595) -/
def edgeView (q : Quantity α) (c : Corner) (dInt : Dim) (i : Int) (dSlice : Dim) : Py (NDArray α) := do
  let e ← q.extentOf dSlice
  q.cornerGet c (Quantity.selIndex q.dims (edgeKw dInt i dSlice e))

/-- The same view as the target of an assignment: its index tuple (the view is taken when
the update is started, so indexing errors are raised then). (communicator.py:615-630) -/
def edgeIndex (q : Quantity α) (c : Corner) (dInt : Dim) (i : Int) (dSlice : Dim) : Py (List Ix) := do
  let e ← q.extentOf dSlice
  let _ ← q.cornerGet c (Quantity.selIndex q.dims (edgeKw dInt i dSlice e))
  q.cornerIndex c (Quantity.selIndex q.dims (edgeKw dInt i dSlice e))

/-- communicator.py:570-588: the array sent over the south boundary. -/
def southEdgeData [Neg α] (xq : Quantity α) (south : Boundary) : Py (NDArray α) := do
  let d ← edgeView xq .sw .yI 0 .x
  let d ← rotateScalar d [.x] (-south.rotations)
  if south.rotations = 3 ∨ south.rotations = 2 then return d.map Neg.neg else return d

/-- communicator.py:571,589-603: the array sent over the west boundary. -/
def westEdgeData [Neg α] (yq : Quantity α) (west : Boundary) : Py (NDArray α) := do
  let d ← edgeView yq .sw .xI 0 .y
  let d ← rotateScalar d [.y] (-west.rotations)
  if west.rotations = 1 ∨ west.rotations = 2 then return d.map Neg.neg else return d

/-- communicator.py:569-610 `_Isend_vector_shared_boundary`. -/
def isendSharedBoundary [Neg α] (l : Layout) (r : Int) (x y : Nat) (tag : Nat) :
    CommM α (List SendReq) := do
  let south ← CommM.lift (Cube.boundaryAt l r .south)
  let west ← CommM.lift (Cube.boundaryAt l r .west)
  let xq ← CommM.quantity x
  let yq ← CommM.quantity y
  let southData ← CommM.lift (southEdgeData xq south)
  let westData ← CommM.lift (westEdgeData yq west)
  let s1 ← isend south.toRank tag southData
  let s2 ← isend west.toRank tag westData
  return [s1, s2]

/-- communicator.py:612-635 `_Irecv_vector_shared_boundary`. -/
def irecvSharedBoundary (l : Layout) (r : Int) (x y : Nat) (tag : Nat) : CommM α (List RecvReq) := do
  let north ← CommM.lift (Cube.boundaryAt l r .north)
  let east ← CommM.lift (Cube.boundaryAt l r .east)
  let xq ← CommM.quantity x
  let yq ← CommM.quantity y
  let ixN ← CommM.lift (edgeIndex xq .nw .yI (-1) .x)
  let ixE ← CommM.lift (edgeIndex yq .se .xI (-1) .y)
  return [⟨north.toRank, tag, x, ixN⟩, ⟨east.toRank, tag, y, ixE⟩]

/-- communicator.py:461-491 `start_synchronize_vector_interfaces`. -/
def startSynchronize [Neg α] (l : Layout) (r : Int) (x y : Nat) : CommM α Request := do
  let xq ← CommM.quantity x
  let yq ← CommM.quantity y
  if onCGrid xq.dims yq.dims = false then CommM.raise .valueError
  else do
    let tag ← getHaloTag
    let sends ← isendSharedBoundary l r x y tag
    let recvs ← irecvSharedBoundary l r x y tag
    return ⟨sends, recvs⟩

/-- communicator.py:493-510 `synchronize_vector_interfaces`. -/
def synchronize [Neg α] (l : Layout) (r : Int) (x y : Nat) : CommM α Unit := do
  let req ← startSynchronize l r x y
  waitRequest req

/-- What a model code does with a communicator: start updates, wait for the `i`-th request
it got, and compute on its own quantities. (communicator.py:388, 461, 512, 52) -/
inductive Op (α : Type) where
  | halo (q : Nat) (n : Int)
  | vector (x y : Nat) (n : Int)
  | sync (x y : Nat)
  | wait (i : Nat)
  | compute (f : Int → Mem α → Mem α)

/-- Plumbing of the model (communicator.py:403, 491, 535) -/
def pushReq (req : Request) : CommM α Unit := fun s =>
  .ret (.ok (), { s with reqs := s.reqs ++ [req] })

/-- One operation of rank `r`. (communicator.py:388, 461, 512, 52) -/
def Op.exec [Neg α] (l : Layout) (r : Int) : Op α → CommM α Unit
  | .halo q n => do
    let req ← startHaloUpdate l r q n
    pushReq req
  | .vector x y n => do
    let req ← startVectorHaloUpdate l r x y n
    pushReq req
  | .sync x y => do
    let req ← startSynchronize l r x y
    pushReq req
  | .wait i => do
    let s ← CommM.get
    match s.reqs[i]? with
    | none => CommM.raise .indexError
    | some req => waitRequest req
  | .compute f => fun s => .ret (.ok (), { s with mem := f r s.mem })

/-- A sequence of operations. (communicator.py:388, 461, 512, 52) -/
def execOps [Neg α] (l : Layout) (r : Int) : List (Op α) → CommM α Unit
  | [] => return ()
  | op :: ops => do
    op.exec l r
    execOps l r ops

end FV3
