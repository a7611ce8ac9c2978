import Verif.Model.HeapAsync
import Verif.Model.HeapColl

/-!
# Scatters and gathers while updates are outstanding, on memory (communicator.py:52-56, 81-205, 388-403, 461-491, 512-535)

Updates of halos can be started and waited for in separate calls (Model/HeapAsync.lean); between the start and the wait a program
may make any other calls, such as `scatter` and `gather` (Model/HeapColl.lean).

Simplifications: those of Model/HeapAsync.lean and of Model/HeapColl.lean.
-/

namespace FV3
namespace Heap
open Mem (World)
variable {α : Type}

/-- Starting or waiting for an update, a scatter or gather, or a program on the memory of the rank.
(communicator.py:52-56, 81-205, 388-403, 461-491, 512-535) -/
inductive TOp (α : Type) where
  /-- communicator.py:52-56, 388-403, 461-491, 512-535 -/
  | update (o : HOp α)
  /-- communicator.py:81-130, 158-205 -/
  | collective (x : CCall α)

section
variable [Inhabited α] [Neg α]

/-- The state is that of the updates, with the requests, and the number of collective calls made.
(communicator.py:52-56, 81-205, 388-403, 461-491, 512-535) -/
def TOp.exec (g : Mem.Gt4py) (l : Layout) (r : Int) : TOp α → HState α × Nat → Proc (Msg α) (Py Unit × (HState α × Nat))
  | .update o, s => (o.exec g l r s.1).bind fun y => .ret (y.1, (y.2, s.2))
  | .collective x, s => (x.exec g (.cube l) r (s.1.world, s.2)).bind fun y => .ret (y.1, ({ s.1 with world := y.2.1 }, y.2.2))

/-- One operation after the other; an exception propagates. (communicator.py:52-56, 81-205, 388-403, 461-491, 512-535) -/
def execTOps (g : Mem.Gt4py) (l : Layout) (r : Int) : List (TOp α) → HState α × Nat → Proc (Msg α) (Py Unit × (HState α × Nat))
  | [], s => .ret (.ok (), s)
  | x :: xs, s => (x.exec g l r s).bind fun y =>
    match y.1 with
    | .ok _ => execTOps g l r xs y.2
    | .error e => .ret (.error e, y.2)

/-- All ranks perform the same operations with fresh communicators; result: an exception or not, and the memory.
(communicator.py:52-56, 81-205, 388-403, 461-491, 512-535) -/
def togetherNet (g : Mem.Gt4py) (l : Layout) (ops : List (TOp α)) (W : Int → World α) : Net (Msg α) (Py Unit × World α) :=
  Net.start fun r =>
    if r ∈ allRanks l then (execTOps g l r ops (⟨W r, 0, []⟩, 0)).bind fun y => .ret (y.1, y.2.1.world)
    else .ret (.ok (), W r)

end
end Heap
end FV3
