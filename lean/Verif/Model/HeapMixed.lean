import Verif.Model.HeapColl

/-!
# Halo updates, scatters and gathers of one communicator, on memory (communicator.py:81-205, 378-535 with quantity.py)

A `CubedSphereCommunicator` is used for updates of halos and for scatters and gathers.  Model/HeapComm.lean and
Model/HeapColl.lean have these calls; here a rank makes them in any order, on the same memory.

Simplifications: those of Model/HeapComm.lean and of Model/HeapColl.lean.
-/

namespace FV3
namespace Heap
open Mem (World)
variable {α : Type}

/-- A call of a cubed sphere communicator, or a program on the memory of the rank.
(communicator.py:81-205, 378-535) -/
inductive XCall (α : Type) where
  /-- communicator.py:378-386, 446-459, 493-510 -/
  | update (c : HCall α)
  /-- communicator.py:81-130, 158-205 -/
  | collective (x : CCall α)

section
variable [Inhabited α] [Neg α]

/-- The state is that of the updates, and the number of collective calls made. (communicator.py:81-205, 378-535) -/
def XCall.exec (g : Mem.Gt4py) (l : Layout) (r : Int) : XCall α → HState α × Nat → Proc (Msg α) (Py Unit × (HState α × Nat))
  | .update c, s => (c.exec g l r s.1).bind fun y => .ret (y.1, (y.2, s.2))
  | .collective x, s => (x.exec g (.cube l) r (s.1.world, s.2)).bind fun y => .ret (y.1, ({ s.1 with world := y.2.1 }, y.2.2))

/-- A sequence of calls; an exception propagates. (communicator.py:81-205, 378-535) -/
def execMixed (g : Mem.Gt4py) (l : Layout) (r : Int) : List (XCall α) → HState α × Nat → Proc (Msg α) (Py Unit × (HState α × Nat))
  | [], s => .ret (.ok (), s)
  | x :: xs, s => (x.exec g l r s).bind fun y =>
    match y.1 with
    | .ok _ => execMixed g l r xs y.2
    | .error e => .ret (.error e, y.2)

/-- All ranks make the same sequence of calls with fresh communicators; result: an exception or not, and the memory.
(communicator.py:81-205, 378-535) -/
def mixedNet (g : Mem.Gt4py) (l : Layout) (calls : List (XCall α)) (W : Int → World α) : Net (Msg α) (Py Unit × World α) :=
  Net.start fun r =>
    if r ∈ allRanks l then (execMixed g l r calls (⟨W r, 0, []⟩, 0)).bind fun y => .ret (y.1, y.2.1.world)
    else .ret (.ok (), W r)

end
end Heap
end FV3
