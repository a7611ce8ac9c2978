import Verif.Model.Timer
import Verif.Model.Communicator

/-!
# The timer of a CubedSphereCommunicator (communicator.py:305-316, 405-437, 537-666, buffer.py)

Every `CubedSphereCommunicator` owns a `Timer` (communicator.py:313) and brackets the work of
its methods in `with self.timer.clock(...)` blocks.  The functions below are the same methods as
in Model/Communicator.lean, as programs over that timer: the code in a block is reduced to
whether it raises.

Simplifications.
* All readings of the clock are the parameter `t`: hits, running clocks and exceptions do not
  depend on them (durations are the subject of C37).
* `contig` says for every receive whether the view is C-contiguous.
* MPI calls do not raise, and messages have the shape of the views they are stored in.
-/

namespace FV3
variable {α T : Type}

namespace TProg

/-- Code which does not use the timer, but may raise. (communicator.py:409-416, 426, 545-554) -/
def ofPy {A : Type} : Py A → TProg T
  | .ok _ => .skip
  | .error e => .raise e

/-- A Python `for` loop. (communicator.py:407, 424, 541) -/
def forEach {A : Type} (f : A → TProg T) : List A → TProg T
  | [] => .skip
  | a :: as => .seq (f a) (forEach f as)

end TProg

/-- communicator.py:637-646 `_Isend`. -/
def isendClocks (t : T) : TProg T :=
  .seq (.clock "pack" t .skip t) (.clock "Isend" t .skip t)

/-- communicator.py:661-664, buffer.py:73-98 (`recv_buffer`): the deferred receive. -/
def recvClocks (t : T) (contig : Bool) : TProg T :=
  if contig then .clock "Recv" t .skip t
  else .seq (.call (.start "unpack" t)) (.seq (.call (.stop "unpack" t))
    (.seq (.clock "Recv" t .skip t) (.clock "unpack" t .skip t)))

/-- communicator.py:405-420 `_Isend_halos`. -/
def isendHalosT (t : T) (bs : List Boundary) (quantity : Quantity α) (n : Int) : TProg T :=
  .forEach (fun (b : Boundary) =>
    .seq (.clock "pack" t (.ofPy (do
        let data ← sendView quantity b.boundaryType n
        rotateScalar data quantity.dims (-b.rotations))) t)
      (isendClocks t)) bs

/-- communicator.py:422-437 `_Irecv_halos`. -/
def irecvHalosT (t : T) (bs : List Boundary) (quantity : Quantity α) (n : Int) : TProg T :=
  .forEach (fun (b : Boundary) => .clock "unpack" t (.ofPy (recvIndex quantity b.boundaryType n)) t) bs

/-- communicator.py:378-403, 52-56: `halo_update` (`start_halo_update` and `wait`) of a quantity on
rank `r`. -/
def haloUpdateT (t : T) (l : Layout) (r : Int) (quantity : Quantity α) (n : Int)
    (contig : Boundary → Bool) : TProg T :=
  if n = 0 then .raise .valueError
  else match Cube.boundaries l r with
    | .error e => .raise e
    | .ok bs =>
      .seq (isendHalosT t bs quantity n) (.seq (irecvHalosT t bs quantity n)
        (.forEach (fun b => recvClocks t (contig b)) bs))

/-- communicator.py:537-567 `_Isend_vector_halos`. -/
def isendVectorHalosT [Neg α] (t : T) (bs : List Boundary) (xq yq : Quantity α) (n : Int) : TProg T :=
  .forEach (fun (b : Boundary) =>
    .seq (.clock "pack" t (.ofPy (do
        let xData ← sendView xq b.boundaryType n
        let yData ← sendView yq b.boundaryType n
        rotateVector xData yData (-b.rotations) xq.dims)) t)
      (.seq (isendClocks t) (isendClocks t))) bs

/-- communicator.py:446-459, 512-535, 52-56: `vector_halo_update`; `contig` is indexed by the
component. -/
def vectorHaloUpdateT [Neg α] (t : T) (l : Layout) (r : Int) (xq yq : Quantity α) (n : Int)
    (contig : Bool → Boundary → Bool) : TProg T :=
  if n = 0 then .raise .valueError
  else match Cube.boundaries l r with
    | .error e => .raise e
    | .ok bs =>
      .seq (isendVectorHalosT t bs xq yq n) (.seq (irecvHalosT t bs xq n) (.seq (irecvHalosT t bs yq n)
        (.seq (.forEach (fun b => recvClocks t (contig true b)) bs)
          (.forEach (fun b => recvClocks t (contig false b)) bs))))

/-- communicator.py:461-491, 493-510, 569-635, 52-56: `synchronize_vector_interfaces`; `contig` is indexed by the
component. -/
def synchronizeT [Neg α] (t : T) (l : Layout) (r : Int) (xq yq : Quantity α) (contig : Bool → Bool) : TProg T :=
  if onCGrid xq.dims yq.dims = false then .raise .valueError
  else .seq (.ofPy (do
      let south ← Cube.boundaryAt l r .south
      let west ← Cube.boundaryAt l r .west
      let southData ← southEdgeData xq south
      let westData ← westEdgeData yq west
      return (southData, westData)))
    (.seq (isendClocks t) (.seq (isendClocks t)
      (.seq (.ofPy (do
          let _ ← Cube.boundaryAt l r .north
          let _ ← Cube.boundaryAt l r .east
          let ixN ← edgeIndex xq .nw .yI (-1) .x
          let ixE ← edgeIndex yq .se .xI (-1) .y
          return (ixN, ixE)))
        (.seq (recvClocks t (contig true)) (recvClocks t (contig false))))))

/-- A call of the communicator, as far as its timer is concerned. (communicator.py:378, 446) -/
inductive UpdateCall (α : Type) where
  | halo (q : Quantity α) (n : Int) (contig : Boundary → Bool)
  | vector (x y : Quantity α) (n : Int) (contig : Bool → Boundary → Bool)

/-- The program of a call. (communicator.py:378, 446) -/
def UpdateCall.prog [Neg α] (t : T) (l : Layout) (r : Int) : UpdateCall α → TProg T
  | .halo q n c => haloUpdateT t l r q n c
  | .vector x y n c => vectorHaloUpdateT t l r x y n c

/-- The timer after a history of updates, the program catching the exceptions.
(communicator.py:378, 446) -/
def afterCalls [Neg α] [Add T] [Sub T] (t : T) (l : Layout) (r : Int) (calls : List (UpdateCall α)) (st : List (TCall T × Py Unit) × Timer T) : List (TCall T × Py Unit) × Timer T :=
  calls.foldl (fun st c => ((c.prog t l r).exec st).2) st

end FV3
