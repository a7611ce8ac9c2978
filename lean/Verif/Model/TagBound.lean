import Verif.Model.AsyncSession
import Verif.Model.ManyComm

/-!
# MPI with a largest tag

The tags of MPI messages are the integers from 0 to `MPI_TAG_UB`, which an MPI library chooses (at least 32767).  The
communicator takes a new tag for every halo update (communicator.py:320-322) and never takes one again, so that a long
run comes to the end of the tags: from there on `Isend` raises an exception (`mpi4py.MPI.Exception`, a RuntimeError).

The collectives (`bcast`, `Scatter`, `Gather`) have no tags of the user.
-/

namespace FV3
variable {α : Type}

/-- A tag that MPI accepts. (MPI behind communicator.py:320-322, 637-666) -/
def Tag.allowed (ub : Nat) : Tag → Bool
  | .halo n => decide (n ≤ ub)
  | _ => true

/-- A program with an MPI whose largest tag is `ub`: `Isend` and `Recv` with a larger tag raise an exception, which ends
the program with the result `e`. (MPI behind communicator.py:637-666) -/
def Proc.bounded {M R : Type} (ub : Nat) (e : R) : Proc M R → Proc M R
  | .ret x => .ret x
  | .isend d t m k => if t.allowed ub = true then .isend d t m fun i => (k i).bounded ub e else .ret e
  | .recv s t k => if t.allowed ub = true then .recv s t fun m => (k m).bounded ub e else .ret e
  | .await d t i k => .await d t i fun u => (k u).bounded ub e

/-- As `asyncNet`, with an MPI whose largest tag is `ub`. (communicator.py:81-205, 388-403, 461-491, 512-535, 52) -/
def boundedNet [Neg α] (ub : Nat) (l : Layout) (junk : Nat → List Nat → α) (ops : List (AOp α)) (mem : Int → Mem α)
    (glob : Int → Nat → Option (Quantity α)) : Net (Msg α) (Option (Py (AState α))) :=
  Net.start fun r =>
    if r ∈ allRanks l then
      ((execAsync l junk r ops ⟨⟨mem r, 0, []⟩, glob r, 0⟩).bounded ub (.error .runtimeError)).bind fun x => .ret (some x)
    else .ret none

/-- As `manyNet`, with an MPI whose largest tag is `ub`. (communicator.py:81-205, 309-322, 378-510) -/
def boundedMany [Neg α] (ub : Nat) (l : Layout) (junk : Nat → List Nat → α) (ops : List (Nat × SOp α))
    (mem : Int → Mem α) (glob : Int → Nat → Option (Quantity α)) : Net (Msg α) (Option (Py (MState α))) :=
  Net.start fun r =>
    if r ∈ allRanks l then
      ((execMany l junk r ops ⟨mem r, glob r, fun _ => 0, 0⟩).bounded ub (.error .runtimeError)).bind fun x => .ret (some x)
    else .ret none

end FV3
