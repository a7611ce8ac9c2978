import Verif.Model.AsyncSession
import Verif.Spec.Session
import Verif.Spec.Protocol

/-!
# What a session with outstanding updates does, without message passing
-/

namespace FV3
variable {α : Type} [Neg α]

/-- The updates started so far, in order, each with the quantities of all ranks when it was started. -/
abbrev Pending (α : Type) := List (Op α × (Int → Mem α))

/-- What all ranks and root hold: quantities, global quantities, updates started. -/
structure Whole (α : Type) where
  mem : Int → Mem α
  glob : Nat → Option (Quantity α)
  started : Pending α

/-- One call, performed on all ranks at once. -/
def AOp.Step (l : Layout) (parts : Nat → Parts) : AOp α → Whole α → Whole α → Prop
  | .op (.wait i), w, w' => w'.glob = w.glob ∧ w'.started = w.started ∧
      ∃ o m0, w.started[i]? = some (o, m0) ∧ WaitStep l o m0 w.mem w'.mem
  | .op (.compute f), w, w' => w'.glob = w.glob ∧ w'.started = w.started ∧ ∀ r ∈ allRanks l, w'.mem r = f r (w.mem r)
  | .op o, w, w' => w'.glob = w.glob ∧ w'.started = w.started ++ [(o, w.mem)] ∧
      ∀ r ∈ allRanks l, (∃ out, o.out l r (w.mem r) = .ok out) ∧ w'.mem r = w.mem r
  | .scatter q g, w, w' => w'.started = w.started ∧
      (SOp.scatter q g).Step l parts w.mem w.glob w'.mem w'.glob
  | .gather q g, w, w' => w'.started = w.started ∧
      (SOp.gather q g).Step l parts w.mem w.glob w'.mem w'.glob

/-- A sequence of calls, one after the other on all ranks. -/
def AsyncRun (l : Layout) (parts : Nat → Parts) : List (AOp α) → Whole α → Whole α → Prop
  | [], w, w' => (∀ r ∈ allRanks l, w'.mem r = w.mem r) ∧ w'.glob = w.glob ∧ w'.started = w.started
  | op :: ops, w, w' => ∃ w1, op.Step l parts w w1 ∧ AsyncRun l parts ops w1 w'

/-- A call is valid: as `SOp.Valid`. -/
def AOp.Valid (l : Layout) (m : Int → Mem α) (parts : Nat → Parts) (filled : List Nat) : AOp α → Prop
  | .op (.compute f) => ∀ r ∈ allRanks l, ∀ mem, MetaIs m r mem → MetaIs m r (f r mem)
  | .op o => UpdateReady l m o
  | .scatter q g => g ∈ filled ∧ HasParts l m q (parts g)
  | .gather q g => HasParts l m q (parts g)

/-- All calls are valid; a global quantity can be scattered after it was gathered. -/
def CallsValid (l : Layout) (m : Int → Mem α) (parts : Nat → Parts) : List Nat → List (AOp α) → Prop
  | _, [] => True
  | filled, op :: ops => op.Valid l m parts filled ∧
      CallsValid l m parts (match op with | .gather _ g => g :: filled | _ => filled) ops

/-- The starts, waits and computations of a session. -/
def AOp.op? : AOp α → Option (Op α)
  | .op o => some o
  | _ => none

/-- The number of updates started by a sequence of calls. -/
def startCount (ops : List (AOp α)) : Nat := (ops.filterMap AOp.op?).countP Op.isStart

/-- A valid session: valid calls; every `wait` is for an update started before, and no update is waited for twice. -/
structure AsyncValid (l : Layout) (m : Int → Mem α) (parts : Nat → Parts) (filled : List Nat) (ops : List (AOp α)) :
    Prop where
  calls : CallsValid l m parts filled ops
  started : WaitsStarted (ops.filterMap AOp.op?)
  once : WaitsOnce (ops.filterMap AOp.op?)

end FV3
