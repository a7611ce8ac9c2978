import Verif.Model.TagBound
import Verif.Model.FullSession

/-!
# Complete sessions with an MPI that has a largest tag
-/

namespace FV3
variable {α : Type}

/-- As `fullNet`, with an MPI whose largest tag is `ub`.
(communicator.py:52-58, 81-283, 306-346, 388-403, 461-491, 512-535) -/
def boundedFull [Neg α] (ub : Nat) (l : Layout) (junk tjunk : Nat → List Nat → α) (ops : List (FOp α)) (mem : Int → Mem α)
    (glob : Int → Nat → Option (Quantity α)) (time gtime : Int → Nat → Option Int)
    (tglob : Int → Nat → Option (Quantity α)) (tgtime : Int → Nat → Option Int) :
    Net (Msg α) (Option (Py (FState α))) :=
  Net.start fun r =>
    if r ∈ allRanks l then
      ((execFull l junk tjunk r ops (.new (mem r) (glob r) (time r) (gtime r) (tglob r) (tgtime r))).bounded ub
        (.error .runtimeError)).bind fun x => .ret (some x)
    else .ret none

end FV3
