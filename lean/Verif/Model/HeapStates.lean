import Verif.Model.HeapState
import Verif.Model.HeapMixed

/-!
# Programs with states, updates, scatters and gathers of one communicator, on memory
(communicator.py:81-283, 378-535 with quantity.py)

A rank has dictionaries (states) besides its quantities, arrays and storages.  It makes the calls of Model/HeapMixed.lean and
those of Model/HeapState.lean in any order.  `scatter_state` and `gather_state` change the dictionary they are given.

Simplifications: those of Model/HeapMixed.lean and of Model/HeapState.lean.  The dictionary to receive into is given to
`scatter_state` on all ranks and to `gather_state` on the root; the dictionary to send is given to `scatter_state` on the root.
The same dictionary may be both.
-/

namespace FV3
namespace Heap
open Mem (World)
variable {α : Type}

/-- What a rank has: memory and the state of the communicator, the number of collective calls made, and its dictionaries.
(communicator.py:81-283, 378-535) -/
structure SState (α : Type) where
  heap : HState α
  colls : Nat
  dicts : Nat → HDict

/-- A call, or a program on the memory of the rank. (communicator.py:81-283, 378-535) -/
inductive SCall (α : Type) where
  /-- communicator.py:81-205, 378-535 -/
  | comm (x : XCall α)
  /-- communicator.py:237-283: dictionary `send` of the root into dictionary `recv` of each rank. -/
  | scatterState (send recv : Nat)
  /-- communicator.py:207-235: dictionary `send` of each rank into dictionary `recv` of the root. -/
  | gatherState (send recv : Nat)

section
variable [Inhabited α] [Neg α]

/-- One call. A dictionary to receive into is the same object after the call, with another content. An exception leaves it, as
there are no new names and the time is set last. (communicator.py:207-283) -/
def SCall.exec (g : Mem.Gt4py) (l : Layout) (r : Int) : SCall α → SState α → Proc (Msg α) (Py Unit × SState α)
  | .comm x, s => (x.exec g l r (s.heap, s.colls)).bind fun y => .ret (y.1, ⟨y.2.1, y.2.2, s.dicts⟩)
  | .scatterState a b, s =>
    (Heap.scatterState (.cube l) r (if r = ROOT_RANK then some (s.dicts a) else none) (s.dicts b) (s.heap.world, s.colls)).bind fun y =>
      match y.1 with
      | .ok d => .ret (.ok (), ⟨{ s.heap with world := y.2.1 }, y.2.2, fun k => if k = b then d else s.dicts k⟩)
      | .error e => .ret (.error e, ⟨{ s.heap with world := y.2.1 }, y.2.2, s.dicts⟩)
  | .gatherState a b, s =>
    (Heap.gatherState (.cube l) r (s.dicts a) (if r = ROOT_RANK then some (s.dicts b) else none) (s.heap.world, s.colls)).bind fun y =>
      match y.1 with
      | .ok (some d) => .ret (.ok (), ⟨{ s.heap with world := y.2.1 }, y.2.2, fun k => if k = b then d else s.dicts k⟩)
      | .ok none => .ret (.ok (), ⟨{ s.heap with world := y.2.1 }, y.2.2, s.dicts⟩)
      | .error e => .ret (.error e, ⟨{ s.heap with world := y.2.1 }, y.2.2, s.dicts⟩)

/-- A sequence of calls; an exception propagates. (communicator.py:81-283, 378-535) -/
def execStates (g : Mem.Gt4py) (l : Layout) (r : Int) : List (SCall α) → SState α → Proc (Msg α) (Py Unit × SState α)
  | [], s => .ret (.ok (), s)
  | x :: xs, s => (x.exec g l r s).bind fun y =>
    match y.1 with
    | .ok _ => execStates g l r xs y.2
    | .error e => .ret (.error e, y.2)

/-- All ranks make the same sequence of calls with fresh communicators; result: an exception or not, the memory and the
dictionaries. (communicator.py:81-283, 378-535) -/
def statesNet (g : Mem.Gt4py) (l : Layout) (calls : List (SCall α)) (W : Int → World α) (D : Int → Nat → HDict) :
    Net (Msg α) (Py Unit × World α × (Nat → HDict)) :=
  Net.start fun r =>
    if r ∈ allRanks l then (execStates g l r calls ⟨⟨W r, 0, []⟩, 0, D r⟩).bind fun y => .ret (y.1, y.2.heap.world, y.2.dicts)
    else .ret (.ok (), W r, D r)

end
end Heap
end FV3
