import Verif.Model.HeapComm
import Verif.Model.LateSend

/-!
# Sends of quantities in memory that MPI reads later

As Model/HeapComm.lean: quantities are objects, and share memory with arrays, storages, views and other quantities.  As
Model/LateSend.lean: MPI is given the memory of the quantity itself, and reads each element that is sent at some time
between the `Isend` and the completion of the send, so that a message has whatever is in memory at that time, by whichever
variable it was put there.

Simplifications: those of Model/HeapComm.lean, except that messages are not fixed when they are sent, and those of
Model/LateSend.lean.
-/

namespace FV3
namespace Heap
open Mem (World)
open FV3.Late (LM LNet Own LProc Memory)
variable {α : Type}

/-- A received array is stored in memory (`fill`). (communicator.py:652-666, buffer.py:94-95) -/
instance : Memory (World α) α where
  store W q ix a :=
    match fill W q ix a with
    | (.ok (), W') => .ok W'
    | (.error e, _) => .error e

namespace Lazy

section
variable [Inhabited α]

/-- The current value of a quantity. (communicator.py:378-535, 637-666) -/
def quantity (q : Nat) : LM (World α) α (Quantity α) := fun s => .get fun W => .ret (value W q, s)

/-- communicator.py:405-420 `_Isend_halos`. -/
def isendHalos (l : Layout) (r : Int) (q : Nat) (n : Int) (tag : Nat) : LM (World α) α (List SendReq) := do
  let bs ← LM.lift (Cube.boundaries l r)
  LM.forEach (fun (b : Boundary) => do
    let data ← LM.pack fun W => do
      let quantity ← value W q
      let data ← sendView quantity b.boundaryType n
      rotateScalar data quantity.dims (-b.rotations)
    Late.isend b.toRank tag data) bs

/-- communicator.py:422-437 `_Irecv_halos`. -/
def irecvHalos (l : Layout) (r : Int) (q : Nat) (n : Int) (tag : Nat) : LM (World α) α (List RecvReq) := do
  let bs ← LM.lift (Cube.boundaries l r)
  LM.forEach (fun (b : Boundary) => do
    let quantity ← Lazy.quantity q
    let ix ← LM.lift (recvIndex quantity b.boundaryType n)
    return ⟨b.toRank, tag, q, ix⟩) bs

/-- communicator.py:388-403 `start_halo_update`. -/
def startHaloUpdate (l : Layout) (r : Int) (q : Nat) (n : Int) : LM (World α) α Request :=
  if n = 0 then LM.raise .valueError
  else do
    let tag ← Late.getHaloTag
    let sends ← isendHalos l r q n tag
    let recvs ← irecvHalos l r q n tag
    return ⟨sends, recvs⟩

variable [Neg α]

/-- communicator.py:537-567 `_Isend_vector_halos`. -/
def isendVectorHalos (l : Layout) (r : Int) (x y : Nat) (n : Int) (tag1 tag2 : Nat) : LM (World α) α (List SendReq) := do
  let bs ← LM.lift (Cube.boundaries l r)
  let rs ← LM.forEach (fun (b : Boundary) => do
    let xy ← LM.pack fun W => do
      let xq ← value W x
      let yq ← value W y
      let xData ← sendView xq b.boundaryType n
      let yData ← sendView yq b.boundaryType n
      rotateVector xData yData (-b.rotations) xq.dims
    let s1 ← Late.isend b.toRank tag1 fun W => (xy W).1
    let s2 ← Late.isend b.toRank tag2 fun W => (xy W).2
    return [s1, s2]) bs
  return rs.flatten

/-- communicator.py:512-535 `start_vector_halo_update`. -/
def startVectorHaloUpdate (l : Layout) (r : Int) (x y : Nat) (n : Int) : LM (World α) α Request :=
  if n = 0 then LM.raise .valueError
  else do
    let tag1 ← Late.getHaloTag
    let tag2 ← Late.getHaloTag
    let sends ← isendVectorHalos l r x y n tag1 tag2
    let r1 ← irecvHalos l r x n tag1
    let r2 ← irecvHalos l r y n tag2
    return ⟨sends, r1 ++ r2⟩

/-- communicator.py:569-610 `_Isend_vector_shared_boundary`.  (Both arguments have to be quantities before anything is
packed, as in Model/HeapComm.lean.) -/
def isendSharedBoundary (l : Layout) (r : Int) (x y : Nat) (tag : Nat) : LM (World α) α (List SendReq) := do
  let south ← LM.lift (Cube.boundaryAt l r .south)
  let west ← LM.lift (Cube.boundaryAt l r .west)
  let southData ← LM.pack fun W => do
    let xq ← value W x
    let _ ← value W y
    southEdgeData xq south
  let westData ← LM.pack fun W => do westEdgeData (← value W y) west
  let s1 ← Late.isend south.toRank tag southData
  let s2 ← Late.isend west.toRank tag westData
  return [s1, s2]

omit [Neg α] in
/-- communicator.py:612-635 `_Irecv_vector_shared_boundary`. -/
def irecvSharedBoundary (l : Layout) (r : Int) (x y : Nat) (tag : Nat) : LM (World α) α (List RecvReq) := do
  let north ← LM.lift (Cube.boundaryAt l r .north)
  let east ← LM.lift (Cube.boundaryAt l r .east)
  let xq ← Lazy.quantity x
  let yq ← Lazy.quantity y
  let ixN ← LM.lift (edgeIndex xq .nw .yI (-1) .x)
  let ixE ← LM.lift (edgeIndex yq .se .xI (-1) .y)
  return [⟨north.toRank, tag, x, ixN⟩, ⟨east.toRank, tag, y, ixE⟩]

/-- communicator.py:461-491 `start_synchronize_vector_interfaces`. -/
def startSynchronize (l : Layout) (r : Int) (x y : Nat) : LM (World α) α Request := do
  let xq ← Lazy.quantity x
  let yq ← Lazy.quantity y
  if onCGrid xq.dims yq.dims = false then LM.raise .valueError
  else do
    let tag ← Late.getHaloTag
    let sends ← isendSharedBoundary l r x y tag
    let recvs ← irecvSharedBoundary l r x y tag
    return ⟨sends, recvs⟩

/-- A program on the memory of the rank. (quantity.py:247-515) -/
def compute (g : Mem.Gt4py) (ops : List (Mem.Op α)) : LM (World α) α Unit := fun s =>
  .put (fun W => (W.run g ops).2) fun _ => .ret (.ok (), s)

/-- A blocking call of the communicator, or a program on the memory of the rank.
(communicator.py:378-386, 446-459, 493-510; quantity.py:247-515) -/
def execCall (g : Mem.Gt4py) (l : Layout) (r : Int) : HCall α → LM (World α) α Unit
  | .haloUpdate q n => do
    let req ← startHaloUpdate l r q n
    Late.waitRequest req
  | .vectorHaloUpdate x y n => do
    let req ← startVectorHaloUpdate l r x y n
    Late.waitRequest req
  | .synchronize x y => do
    let req ← startSynchronize l r x y
    Late.waitRequest req
  | .compute ops => compute g (ops r)

/-- A sequence of calls. (communicator.py:378-386, 446-459, 493-510) -/
def execCalls (g : Mem.Gt4py) (l : Layout) (r : Int) : List (HCall α) → LM (World α) α Unit
  | [] => return ()
  | c :: cs => do
    execCall g l r c
    execCalls g l r cs

/-- All ranks make the same sequence of calls, starting with fresh communicators.
(communicator.py:378-386, 446-459, 493-510) -/
def callNet (g : Mem.Gt4py) (l : Layout) (calls : List (HCall α)) (W : Int → World α) : LNet (World α) α (Py Unit × Own) :=
  LNet.start (fun r => if r ∈ allRanks l then execCalls g l r calls ⟨0, []⟩ else .ret (.ok (), ⟨0, []⟩)) W

end
end Lazy
end Heap
end FV3
