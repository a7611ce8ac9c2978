import Verif.Model.HeapLate
import Verif.Model.HeapAsync

/-!
# Updates of quantities in memory, started and waited for in separate calls, with sends that MPI reads later

As Model/HeapAsync.lean, on the network of Model/LateSend.lean; see Model/HeapLate.lean.

Simplifications: those of Model/HeapLate.lean.
-/

namespace FV3
namespace Heap
open Mem (World)
open FV3.Late (LM LNet Own LProc)
variable {α : Type} [Inhabited α] [Neg α]

namespace Lazy

/-- One operation of rank `r`. (communicator.py:388-403, 461-491, 512-535, 52-56; quantity.py:247-515) -/
def execOp (g : Mem.Gt4py) (l : Layout) (r : Int) : HOp α → LM (World α) α Unit
  | .halo q n => do
    let req ← startHaloUpdate l r q n
    Late.pushReq req
  | .vector x y n => do
    let req ← startVectorHaloUpdate l r x y n
    Late.pushReq req
  | .sync x y => do
    let req ← startSynchronize l r x y
    Late.pushReq req
  | .wait i => do
    let req ← Late.getReq i
    Late.waitRequest req
  | .compute ops => compute g (ops r)

/-- A sequence of operations. (communicator.py:388-403, 461-491, 512-535, 52-56) -/
def execOps (g : Mem.Gt4py) (l : Layout) (r : Int) : List (HOp α) → LM (World α) α Unit
  | [] => return ()
  | op :: ops => do
    execOp g l r op
    execOps g l r ops

/-- All ranks do the same sequence of operations, starting with fresh communicators.
(communicator.py:388-403, 461-491, 512-535, 52-56) -/
def opNet (g : Mem.Gt4py) (l : Layout) (ops : List (HOp α)) (W : Int → World α) : LNet (World α) α (Py Unit × Own) :=
  LNet.start (fun r => if r ∈ allRanks l then execOps g l r ops ⟨0, []⟩ else .ret (.ok (), ⟨0, []⟩)) W

end Lazy
end Heap
end FV3
