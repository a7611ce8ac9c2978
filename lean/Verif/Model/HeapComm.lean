import Verif.Model.Communicator
import Verif.Model.Memory
import Verif.Spec.Updates
import Verif.Spec.Net

/-!
# Halo updates of quantities in memory (communicator.py with quantity.py)

Model/Communicator.lean gives every rank its quantities as values, so that no two of them share anything.  Here the state
of a rank is the world of Model/Memory.lean: quantities are objects, their data are arrays in memory which other arrays,
storages and transposed quantities may share.  The methods of `CubedSphereCommunicator` read the elements of the data of
their arguments when they pack messages, and assign to parts of this data when they receive.

Simplifications: those of Model/Communicator.lean and of Model/Memory.lean.  The elements of an array are those at the
indices within its shape; a fixed value stands for the others (`clip`).
-/

namespace FV3
namespace Heap
open Mem (World Obj)
variable {α : Type}

/-- There are no elements outside of an array. (numpy; communicator.py:405-437) -/
def clip [Inhabited α] (a : NDArray α) : NDArray α := ⟨a.shape, fun idx => if InB a.shape idx then a.get idx else default⟩

/-- The array object which is the data of a variable.  The views of a quantity refer to the same one (quantity.py:327).
(communicator.py:405-437, 537-635, boundary.py:17-72) -/
def dataOf (W : World α) (h : Nat) : Py (Nat × Mem.Arr × Mem.Info) :=
  match W.objs[h]? with
  | none => .error .keyError
  | some (.quantity q) =>
    match W.arrs[q.data]? with
    | none => .error .keyError
    | some a => .ok (q.data, a, q.info)
  | some _ => .error .attributeError

/-- What a method of the communicator sees of a quantity now. (communicator.py:405-437, 537-635) -/
def value [Inhabited α] (W : World α) (h : Nat) : Py (Quantity α) := do
  let x ← dataOf W h
  return ⟨clip (x.2.1.view.read W.mem), x.2.2.dims, x.2.2.units, x.2.2.origin, x.2.2.extent⟩

/-- A received message is assigned to a part of the data of a quantity; its shape has to be that of the part.
(communicator.py:662-664, buffer.py:94-95) -/
def fill (W : World α) (h : Nat) (ix : List Ix) (x : NDArray α) : Py Unit × World α :=
  match dataOf W h with
  | .error e => (.error e, W)
  | .ok (i, a, _) =>
    match resolveAll ix a.view.shape with
    | .error e => (.error e, W)
    | .ok rs => if viewShape rs = x.shape then W.assign i ix x else (.error .valueError, W)

/-- State of a rank: its memory and variables, `_last_halo_tag` (communicator.py:316), requests obtained so far. -/
structure HState (α : Type) where
  world : World α
  lastTag : Nat
  reqs : List Request

/-- Programs of a rank with Python exceptions. (communicator.py:378-535, 637-666) -/
def HM (α A : Type) := HState α → Proc (Msg α) (Py A × HState α)

namespace HM
variable {A B : Type}

/-- Plumbing of the model (communicator.py:378-535, 637-666) -/
def pure (a : A) : HM α A := fun s => .ret (.ok a, s)

/-- Sequencing; an exception propagates. (communicator.py:378-535, 637-666) -/
def bind (c : HM α A) (f : A → HM α B) : HM α B := fun s =>
  (c s).bind fun x =>
    match x.1 with
    | .ok a => f a x.2
    | .error e => .ret (.error e, x.2)

/-- The monad structure of the model (communicator.py:378-535, 637-666) -/
instance : Monad (HM α) where
  pure := HM.pure
  bind := HM.bind

/-- A computation without communication. (communicator.py:378-535, 637-666) -/
def lift (x : Py A) : HM α A := fun s => .ret (x, s)
/-- Plumbing of the model (communicator.py:378-535, 637-666) -/
def raise (e : PyErr) : HM α A := fun s => .ret (.error e, s)
/-- The current value of a quantity. (communicator.py:378-535, 637-666) -/
def quantity [Inhabited α] (h : Nat) : HM α (Quantity α) := fun s => .ret (value s.world h, s)

/-- A Python `for` loop collecting results. (communicator.py:407, 424, 541) -/
def forEach (f : A → HM α B) : List A → HM α (List B)
  | [] => Pure.pure []
  | a :: as => do
    let b ← f a
    let bs ← forEach f as
    return b :: bs

end HM

/-- communicator.py:637-646 `_Isend`. -/
def isend (dst : Int) (tag : Nat) (a : NDArray α) : HM α SendReq := fun s =>
  .isend dst (.halo tag) (.data a) fun i => .ret (.ok ⟨dst, tag, i⟩, s)

/-- communicator.py:657-666: the deferred `Recv` into the view. -/
def recvInto (rq : RecvReq) : HM α Unit := fun s =>
  .recv rq.src (.halo rq.tag) fun m =>
    match m with
    | .data a => .ret ((fill s.world rq.q rq.ix a).1, { s with world := (fill s.world rq.q rq.ix a).2 })
    | _ => .ret (.error .typeError, s)

/-- Waiting for an `Isend` request. (communicator.py:55-56) -/
def awaitSend (sr : SendReq) : HM α Unit := fun s =>
  .await sr.dst (.halo sr.tag) sr.idx fun _ => .ret (.ok (), s)

/-- communicator.py:52-56 `HaloUpdateRequest.wait`. -/
def waitRequest (req : Request) : HM α Unit := do
  let _ ← HM.forEach recvInto req.recvs
  let _ ← HM.forEach awaitSend req.sends
  return ()

/-- communicator.py:320-322 `_get_halo_tag`. -/
def getHaloTag : HM α Nat := fun s => .ret (.ok (s.lastTag + 1), { s with lastTag := s.lastTag + 1 })

section
variable [Inhabited α]

/-- communicator.py:405-420 `_Isend_halos`. -/
def isendHalos (l : Layout) (r : Int) (q : Nat) (n : Int) (tag : Nat) : HM α (List SendReq) := do
  let bs ← HM.lift (Cube.boundaries l r)
  HM.forEach (fun (b : Boundary) => do
    let quantity ← HM.quantity q
    let data ← HM.lift (sendView quantity b.boundaryType n)
    let data ← HM.lift (rotateScalar data quantity.dims (-b.rotations))
    isend b.toRank tag data) bs

/-- communicator.py:422-437 `_Irecv_halos`. -/
def irecvHalos (l : Layout) (r : Int) (q : Nat) (n : Int) (tag : Nat) : HM α (List RecvReq) := do
  let bs ← HM.lift (Cube.boundaries l r)
  HM.forEach (fun (b : Boundary) => do
    let quantity ← HM.quantity q
    let ix ← HM.lift (recvIndex quantity b.boundaryType n)
    return ⟨b.toRank, tag, q, ix⟩) bs

/-- communicator.py:388-403 `start_halo_update`. -/
def startHaloUpdate (l : Layout) (r : Int) (q : Nat) (n : Int) : HM α Request :=
  if n = 0 then HM.raise .valueError
  else do
    let tag ← getHaloTag
    let sends ← isendHalos l r q n tag
    let recvs ← irecvHalos l r q n tag
    return ⟨sends, recvs⟩

/-- communicator.py:378-386 `halo_update`. -/
def haloUpdate (l : Layout) (r : Int) (q : Nat) (n : Int) : HM α Unit := do
  let req ← startHaloUpdate l r q n
  waitRequest req

variable [Neg α]

/-- communicator.py:537-567 `_Isend_vector_halos`. -/
def isendVectorHalos (l : Layout) (r : Int) (x y : Nat) (n : Int) (tag1 tag2 : Nat) : HM α (List SendReq) := do
  let bs ← HM.lift (Cube.boundaries l r)
  let rs ← HM.forEach (fun (b : Boundary) => do
    let xq ← HM.quantity x
    let yq ← HM.quantity y
    let xData ← HM.lift (sendView xq b.boundaryType n)
    let yData ← HM.lift (sendView yq b.boundaryType n)
    let xy ← HM.lift (rotateVector xData yData (-b.rotations) xq.dims)
    let s1 ← isend b.toRank tag1 xy.1
    let s2 ← isend b.toRank tag2 xy.2
    return [s1, s2]) bs
  return rs.flatten

/-- communicator.py:512-535 `start_vector_halo_update`. -/
def startVectorHaloUpdate (l : Layout) (r : Int) (x y : Nat) (n : Int) : HM α Request :=
  if n = 0 then HM.raise .valueError
  else do
    let tag1 ← getHaloTag
    let tag2 ← getHaloTag
    let sends ← isendVectorHalos l r x y n tag1 tag2
    let r1 ← irecvHalos l r x n tag1
    let r2 ← irecvHalos l r y n tag2
    return ⟨sends, r1 ++ r2⟩

/-- communicator.py:446-459 `vector_halo_update`. -/
def vectorHaloUpdate (l : Layout) (r : Int) (x y : Nat) (n : Int) : HM α Unit := do
  let req ← startVectorHaloUpdate l r x y n
  waitRequest req

/-- communicator.py:569-610 `_Isend_vector_shared_boundary`. -/
def isendSharedBoundary (l : Layout) (r : Int) (x y : Nat) (tag : Nat) : HM α (List SendReq) := do
  let south ← HM.lift (Cube.boundaryAt l r .south)
  let west ← HM.lift (Cube.boundaryAt l r .west)
  let xq ← HM.quantity x
  let yq ← HM.quantity y
  let southData ← HM.lift (southEdgeData xq south)
  let westData ← HM.lift (westEdgeData yq west)
  let s1 ← isend south.toRank tag southData
  let s2 ← isend west.toRank tag westData
  return [s1, s2]

omit [Neg α] in
/-- communicator.py:612-635 `_Irecv_vector_shared_boundary`. -/
def irecvSharedBoundary (l : Layout) (r : Int) (x y : Nat) (tag : Nat) : HM α (List RecvReq) := do
  let north ← HM.lift (Cube.boundaryAt l r .north)
  let east ← HM.lift (Cube.boundaryAt l r .east)
  let xq ← HM.quantity x
  let yq ← HM.quantity y
  let ixN ← HM.lift (edgeIndex xq .nw .yI (-1) .x)
  let ixE ← HM.lift (edgeIndex yq .se .xI (-1) .y)
  return [⟨north.toRank, tag, x, ixN⟩, ⟨east.toRank, tag, y, ixE⟩]

/-- communicator.py:461-491 `start_synchronize_vector_interfaces`. -/
def startSynchronize (l : Layout) (r : Int) (x y : Nat) : HM α Request := do
  let xq ← HM.quantity x
  let yq ← HM.quantity y
  if onCGrid xq.dims yq.dims = false then HM.raise .valueError
  else do
    let tag ← getHaloTag
    let sends ← isendSharedBoundary l r x y tag
    let recvs ← irecvSharedBoundary l r x y tag
    return ⟨sends, recvs⟩

/-- communicator.py:493-510 `synchronize_vector_interfaces`. -/
def synchronize (l : Layout) (r : Int) (x y : Nat) : HM α Unit := do
  let req ← startSynchronize l r x y
  waitRequest req

/-- A blocking call of the communicator, or a program on the memory of the rank (which catches its exceptions).
(communicator.py:378-386, 446-459, 493-510; quantity.py:247-515) -/
inductive HCall (α : Type) where
  /-- communicator.py:378-386 -/
  | haloUpdate (q : Nat) (n : Int)
  /-- communicator.py:446-459 -/
  | vectorHaloUpdate (x y : Nat) (n : Int)
  /-- communicator.py:493-510 -/
  | synchronize (x y : Nat)
  /-- quantity.py:247-515 -/
  | compute (ops : Int → List (Mem.Op α))

/-- Plumbing of the model (communicator.py:378-386, 446-459, 493-510) -/
def HCall.exec (g : Mem.Gt4py) (l : Layout) (r : Int) : HCall α → HM α Unit
  | .haloUpdate q n => Heap.haloUpdate l r q n
  | .vectorHaloUpdate x y n => Heap.vectorHaloUpdate l r x y n
  | .synchronize x y => Heap.synchronize l r x y
  | .compute ops => fun s => .ret (.ok (), { s with world := (s.world.run g (ops r)).2 })

/-- A sequence of calls. (communicator.py:378-386, 446-459, 493-510) -/
def execCalls (g : Mem.Gt4py) (l : Layout) (r : Int) : List (HCall α) → HM α Unit
  | [] => return ()
  | c :: cs => do
    c.exec g l r
    execCalls g l r cs

/-- All ranks make the same sequence of calls, starting with fresh communicators.
(communicator.py:378-386, 446-459, 493-510) -/
def callNet (g : Mem.Gt4py) (l : Layout) (calls : List (HCall α)) (W : Int → World α) : Net (Msg α) (Py Unit × HState α) :=
  Net.start fun r =>
    if r ∈ allRanks l then execCalls g l r calls ⟨W r, 0, []⟩
    else .ret (.ok (), ⟨W r, 0, []⟩)

end
end Heap
end FV3
