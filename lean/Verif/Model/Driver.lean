import Verif.Model.Collective
import Verif.Model.Program

/-!
# A model run with one communicator

What a model code does with a `CubedSphereCommunicator` from start to end: it scatters a global quantity, performs
blocking communicator calls and computations, and gathers the quantity.
-/

namespace FV3
variable {α : Type} [Neg α]

/-- Quantity `q` of a rank is replaced. (communicator.py:81-130) -/
def Mem.put (mem : Mem α) (q : Nat) (v : Quantity α) : Mem α := fun q' => if q' = q then v else mem q'

omit [Neg α] in
/-- The result of a computation that may raise, with something added. (communicator.py:158-205) -/
def Py.pair {A B : Type} (a : A) : Py B → Py (A × B)
  | .error e => .error e
  | .ok b => .ok (a, b)

/-- The program of rank `r`: `scatter` (communicator.py:81-130) into quantity `q`, then `calls`
(communicator.py:378-386, 446-459, 493-510), then `gather` of quantity `q` (communicator.py:158-205).  The result has
the quantities of the rank and what `gather` returns. -/
def driver (l : Layout) (junk junk' : List Nat → α) (r : Int) (send recv : Option (Quantity α)) (mem : Mem α) (q : Nat)
    (calls : List (Call α)) (back : Option (Quantity α)) : Proc (Msg α) (Py (Mem α × Option (Quantity α))) :=
  (scatter (.cube l) junk r send recv 0).bind fun x =>
    match x.1 with
    | .error e => .ret (.error e)
    | .ok part =>
      (execCalls l r calls ⟨mem.put q part, 0, []⟩).bind fun y =>
        match y.1 with
        | .error e => .ret (.error e)
        | .ok _ => (gather (.cube l) junk' r (y.2.mem q) back x.2).bind fun z => .ret (z.1.pair y.2.mem)

/-- All ranks run the program, with new communicators. (communicator.py:81-205, 378-510) -/
def driverNet (l : Layout) (junk junk' : List Nat → α) (send recv : Int → Option (Quantity α)) (mem : Int → Mem α)
    (q : Nat) (calls : List (Call α)) (back : Int → Option (Quantity α)) :
    Net (Msg α) (Option (Py (Mem α × Option (Quantity α)))) :=
  Net.start fun r =>
    if r ∈ allRanks l then
      (driver l junk junk' r (send r) (recv r) (mem r) q calls (back r)).bind fun x => .ret (some x)
    else .ret none

end FV3
