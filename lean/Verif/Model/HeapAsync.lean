import Verif.Model.HeapComm

/-!
# Updates of quantities in memory which are started and waited for in separate calls

As Model/HeapComm.lean, with `start_halo_update`, `start_vector_halo_update` and `start_synchronize_vector_interfaces`, and
`wait` of the requests they return.

Simplifications: those of Model/HeapComm.lean.  As in Model/Communicator.lean, a message holds what was packed when the
update was started (for messages which MPI reads from the memory of a quantity see Model/LateSend.lean).
-/

namespace FV3
namespace Heap
open Mem (World)
variable {α : Type}

/-- What a rank does: start updates, wait for the `i`-th request it got, and run programs on its memory.
(communicator.py:388-403, 461-491, 512-535, 52-56; quantity.py:247-515) -/
inductive HOp (α : Type) where
  /-- communicator.py:388-403 `start_halo_update` -/
  | halo (q : Nat) (n : Int)
  /-- communicator.py:512-535 `start_vector_halo_update` -/
  | vector (x y : Nat) (n : Int)
  /-- communicator.py:461-491 `start_synchronize_vector_interfaces` -/
  | sync (x y : Nat)
  /-- communicator.py:52-56 `HaloUpdateRequest.wait` -/
  | wait (i : Nat)
  /-- quantity.py:247-515 -/
  | compute (ops : Int → List (Mem.Op α))

/-- Plumbing of the model (communicator.py:403, 491, 535) -/
def pushReq (req : Request) : HM α Unit := fun s => .ret (.ok (), { s with reqs := s.reqs ++ [req] })

/-- The request which the start number `i` returned. (communicator.py:403, 491, 535) -/
def getReq (i : Nat) : HM α Request := fun s =>
  match s.reqs[i]? with
  | none => .ret (.error .indexError, s)
  | some req => .ret (.ok req, s)

section
variable [Inhabited α] [Neg α]

/-- One operation of rank `r`. (communicator.py:388-403, 461-491, 512-535, 52-56) -/
def HOp.exec (g : Mem.Gt4py) (l : Layout) (r : Int) : HOp α → HM α Unit
  | .halo q n => do
    let req ← Heap.startHaloUpdate l r q n
    pushReq req
  | .vector x y n => do
    let req ← Heap.startVectorHaloUpdate l r x y n
    pushReq req
  | .sync x y => do
    let req ← Heap.startSynchronize l r x y
    pushReq req
  | .wait i => do
    let req ← getReq i
    Heap.waitRequest req
  | .compute ops => fun s => .ret (.ok (), { s with world := (s.world.run g (ops r)).2 })

/-- A sequence of operations. (communicator.py:388-403, 461-491, 512-535, 52-56) -/
def execHOps (g : Mem.Gt4py) (l : Layout) (r : Int) : List (HOp α) → HM α Unit
  | [] => return ()
  | op :: ops => do
    op.exec g l r
    execHOps g l r ops

/-- All ranks do the same sequence of operations, starting with fresh communicators.
(communicator.py:388-403, 461-491, 512-535, 52-56) -/
def hopNet (g : Mem.Gt4py) (l : Layout) (ops : List (HOp α)) (W : Int → World α) : Net (Msg α) (Py Unit × HState α) :=
  Net.start fun r =>
    if r ∈ allRanks l then execHOps g l r ops ⟨W r, 0, []⟩
    else .ret (.ok (), ⟨W r, 0, []⟩)

end
end Heap
end FV3
