import Verif.Model.Session

/-!
# Several communicator objects on one MPI communicator

`CubedSphereCommunicator(comm, partitioner)` keeps its own tag counter, starting from 0 (communicator.py:316), and uses
the MPI communicator it is given.  Two objects with the same MPI communicator therefore use the same tags again.
-/

namespace FV3
variable {α : Type}

/-- State of a rank: its quantities, its global quantities, `_last_halo_tag` of each of its communicator objects
(communicator.py:316), and the number of collective calls made on the MPI communicator. -/
structure MState (α : Type) where
  mem : Mem α
  glob : Nat → Option (Quantity α)
  tags : Nat → Nat
  coll : Nat

/-- What communicator object `c` sees. (communicator.py:309-322) -/
def MState.view (s : MState α) (c : Nat) : SState α := ⟨s.mem, s.glob, s.tags c, s.coll⟩

/-- The state after a call of communicator object `c`. (communicator.py:309-322) -/
def MState.back (s : MState α) (c : Nat) (x : SState α) : MState α :=
  ⟨x.mem, x.glob, fun c' => if c' = c then x.tag else s.tags c', x.coll⟩

/-- A sequence of calls, each of one of the communicator objects; an exception ends it.
(communicator.py:81-205, 309-322, 378-510) -/
def execMany [Neg α] (l : Layout) (junk : Nat → List Nat → α) (r : Int) :
    List (Nat × SOp α) → MState α → Proc (Msg α) (Py (MState α))
  | [], s => .ret (.ok s)
  | (c, op) :: ops, s => (op.exec l junk r (s.view c)).bind fun x =>
    match x with
    | .error e => .ret (.error e)
    | .ok s' => execMany l junk r ops (s.back c s')

/-- All ranks make the same calls, with new communicator objects. (communicator.py:81-205, 309-322, 378-510) -/
def manyNet [Neg α] (l : Layout) (junk : Nat → List Nat → α) (ops : List (Nat × SOp α)) (mem : Int → Mem α)
    (glob : Int → Nat → Option (Quantity α)) : Net (Msg α) (Option (Py (MState α))) :=
  Net.start fun r =>
    if r ∈ allRanks l then (execMany l junk r ops ⟨mem r, glob r, fun _ => 0, 0⟩).bind fun x => .ret (some x)
    else .ret none

/-- Two communicator objects of one rank with updates at the same time: the first starts an update of quantity `q`, the
second one of quantity `q'`, and the second update is waited for first.
(communicator.py:52-56, 309-322, 388-403) -/
def twoStarts (l : Layout) (r : Int) (q q' : Nat) (n : Int) : CommM α Unit := do
  let a ← startHaloUpdate l r q n
  let s ← CommM.get
  CommM.set { s with lastTag := 0 }
  let b ← startHaloUpdate l r q' n
  waitRequest b
  waitRequest a

/-- All ranks run `twoStarts`. (communicator.py:52-56, 309-322, 388-403) -/
def twoNet (l : Layout) (q q' : Nat) (n : Int) (mem : Int → Mem α) :
    Net (Msg α) (Py Unit × RankState α) :=
  Net.start fun r => if r ∈ allRanks l then twoStarts l r q q' n ⟨mem r, 0, []⟩
    else .ret (.ok (), ⟨mem r, 0, []⟩)

end FV3
