import Verif.Model.HeapColl
import Verif.Model.Dict

/-!
# scatter_state and gather_state of quantities in memory (communicator.py:207-283 with quantity.py)

The entries of a state are variables of the rank (quantities, which may share memory) or a time.

Simplifications: those of Model/HeapColl.lean; in particular the states to receive into have all the variables that are
transferred, so that `scatter` and `gather` are not asked for a new quantity (for those see C27).  A state is a dictionary of its
own: two arguments are not the same dictionary.
-/

namespace FV3
namespace Heap
open Mem (World)
variable {α A : Type}

/-- An entry of a state: a variable of the rank, or a time. (communicator.py:222-234, 256-264) -/
inductive HVal where
  | qty (h : Nat)
  | time (t : Int)
  deriving DecidableEq

/-- A state: entries by name. (communicator.py:207-283) -/
abbrev HDict := Dict String HVal

/-- An entry used as a quantity. (communicator.py:222-234, 256-272) -/
def HVal.asQty : HVal → Py Nat
  | .qty h => .ok h
  | .time _ => .error .attributeError

/-- The quantity of a state with a name. (communicator.py:227-229, 255, 257-258, 269-270) -/
def qtyOf (s : HDict) (name : String) : Py Nat :=
  match s.get? name with
  | none => .error .keyError
  | some v => v.asQty

/-- The value of "time" in a state. (communicator.py:262-264) -/
def hTimeOf (s : HDict) : Py (Option Int) :=
  match s.get? "time" with
  | none => .ok none
  | some (.time t) => .ok (some t)
  | some (.qty _) => .error .typeError

/-- The entry "time", removed if it is None. (communicator.py:262-264, 273, 281-282) -/
def hSetTime (st : HDict) : Option Int → HDict
  | none => (st.set "time" (.time 0)).del "time"
  | some t => st.set "time" (.time t)

section
variable [Inhabited α]

/-- The loop of the root. (communicator.py:256-261) -/
def scatterRootLoop (c : Comm) (send recv : HDict) : List String → HC α Unit
  | [] => return ()
  | name :: names => do
    let s ← HC.lift (qtyOf send name)
    let h ← HC.lift (qtyOf recv name)
    scatter c ROOT_RANK (some s) h
    scatterRootLoop c send recv names

/-- The loop of the others. (communicator.py:268-272) -/
def scatterClientLoop (c : Comm) (rank : Int) (recv : HDict) : List String → HC α Unit
  | [] => return ()
  | name :: names => do
    let h ← HC.lift (qtyOf recv name)
    scatter c rank none h
    scatterClientLoop c rank recv names

/-- communicator.py:237-283 `scatter_state`. -/
def scatterState (c : Comm) (rank : Int) (send : Option HDict) (recv : HDict) : HC α HDict :=
  if rank = ROOT_RANK then
    match send with
    | none => HC.raise .typeError
    | some s => do
      let m ← HC.coll (bcast c.size rank (.names (s.keys.filter (· ≠ "time"))))
      let names ← HC.lift m.asNames
      scatterRootLoop c s recv names
      let t ← HC.lift (hTimeOf s)
      let m ← HC.coll (bcast c.size rank (.time t))
      let t ← HC.lift m.asTime
      return hSetTime recv t
  else do
    let m ← HC.coll (bcast c.size rank (.time none))
    let names ← HC.lift m.asNames
    scatterClientLoop c rank recv names
    let m ← HC.coll (bcast c.size rank (.time none))
    let t ← HC.lift m.asTime
    return hSetTime recv t

/-- The loop of communicator.py:222-234 over the entries of the state; `gather` does not use the quantity to receive into on the
other ranks. -/
def gatherLoop (c : Comm) (rank : Int) : List (String × HVal) → Option HDict → HC α (Option HDict)
  | [], st => return st
  | (name, v) :: rest, st =>
    if name = "time" then gatherLoop c rank rest (if rank = ROOT_RANK then st.map fun s => s.set "time" v else st)
    else do
      let h ← HC.lift v.asQty
      let to ← HC.lift (if rank = ROOT_RANK then qtyOf (st.getD []) name else .ok 0)
      gather c rank h to
      gatherLoop c rank rest (if rank = ROOT_RANK then st.map fun s => s.set name (.qty to) else st)

/-- communicator.py:207-235 `gather_state`. -/
def gatherState (c : Comm) (rank : Int) (send : HDict) (recv : Option HDict) : HC α (Option HDict) :=
  gatherLoop c rank send (if rank = ROOT_RANK then some (recv.getD []) else recv)

end

/-- All ranks of the communicator run a program; result: what it returns or raises, and the memory. (communicator.py:207-283) -/
def stateNet (c : Comm) (p : Int → HC α A) (W : Int → World α) : Net (Msg α) (Option (Py A) × World α) :=
  Net.start fun r =>
    if r ∈ c.ranks then (p r (W r, 0)).bind fun x => .ret (some x.1, x.2.1)
    else .ret (none, W r)

end Heap
end FV3
