import Mathlib.Logic.Relation
import Verif.Model.LateSend
import Verif.Spec.Outstanding

/-!
# Executions of a network that reads messages late
-/

namespace FV3.Late
open FV3
variable {σ α R : Type}

/-- Every execution from `N` ends, and when it ends, every rank `r` is finished with result
`res r` and its quantities are `mem r`: no schedule deadlocks or runs for ever, and the outcome
does not depend on when messages are read. -/
structure LNet.Ends [Memory σ α] (buf : Buffering) (N : LNet σ α R) (res : Int → R) (mem : Int → σ) : Prop where
  /-- an execution can be continued until all ranks are finished -/
  progress : ∀ N', Relation.ReflTransGen (Step buf) N N' →
    (∃ N'', Step buf N' N'') ∨ ∀ r, N'.procs r = .ret (res r) ∧ N'.mem r = mem r
  /-- there are no infinite executions -/
  finite : ∀ f : Nat → LNet σ α R, f 0 = N → ¬ ∀ i, Step buf (f i) (f (i + 1))

/-! ### Programs that leave alone what they are sending -/

/-- Update `k` of the program is outstanding after its first `d` operations: it has been started
and not been waited for. -/
def OutstandingAt (ops : List (Op α)) (d k : Nat) : Prop :=
  k < (ops.take d).countP Op.isStart ∧ Op.wait k ∉ ops.take d

/-- The arrays received in one update can be stored while the other is outstanding: they are about
different quantities, or both are updates of halos. -/
def Compatible (a b : Op α) : Prop := (∀ q ∈ a.qs, q ∉ b.qs) ∨ a.isHalo = true ∧ b.isHalo = true

/-- The update sends the same arrays from either memory. -/
def SendsSame [Neg α] (l : Layout) (r : Int) (op : Op α) (mem mem' : Mem α) : Prop :=
  ∃ o o', op.out l r mem = .ok o ∧ op.out l r mem' = .ok o' ∧ SameMessages o o'

/-- The program of rank `r` does not change what it is sending: when it waits for an update, the
other outstanding updates are compatible with it, and when it computes, the result leaves alone
what the outstanding updates send (it may change everything else). -/
structure LeavesSends [Neg α] (l : Layout) (m : Int → Mem α) (r : Int) (ops : List (Op α)) : Prop where
  waits : ∀ (d i : Nat), ops[d]? = some (.wait i) → ∀ k, k ≠ i → OutstandingAt ops d k →
    ∀ a b, (startsOf ops)[k]? = some a → (startsOf ops)[i]? = some b → Compatible a b
  computes : ∀ (d : Nat) f, ops[d]? = some (.compute f) → ∀ k, OutstandingAt ops d k →
    ∀ a, (startsOf ops)[k]? = some a → ∀ mem, MetaIs m r mem → SendsSame l r a mem (f r mem)

end FV3.Late
