import Verif.Model.HeapAsync
import Verif.Spec.HeapComm
import Verif.Spec.Protocol

/-!
# What updates started and waited for in separate calls do to memory
-/

namespace FV3
namespace Heap
open Mem (World Gt4py)
variable {α : Type} [Inhabited α] [Neg α]

/-- The memory of all ranks, and the updates started so far, in order, each with the memory of all ranks when it was
started. -/
structure HWhole (α : Type) where
  world : Int → World α
  started : List (Op α × (Int → World α))

/-- Waiting for the update `op`, started when memory was `W0`: from `W` to `W1` the quantities of the update become what the
wait makes of them as values (Spec/Bulk.lean: what was packed at the start is stored), there are no new arrays or variables, and
the rest of memory is as before. -/
def HWait (l : Layout) (op : Op α) (W0 W W1 : Int → World α) : Prop :=
  ∃ m', WaitStep l op (fun r => quantities (W0 r)) (fun r => quantities (W r)) m' ∧ ∀ r ∈ allRanks l,
    (∀ h ∈ op.qs, quantities (W1 r) h = m' r h) ∧ OnlyCells (fun h _ => h ∈ op.qs) (W r) (W1 r)

/-- Starting an update changes nothing in memory. -/
def HStart (l : Layout) (op : Op α) (w w' : HWhole α) : Prop :=
  w'.started = w.started ++ [(op, w.world)] ∧ ∀ r ∈ allRanks l, w'.world r = w.world r

/-- One operation, performed on all ranks at once. -/
def HOp.Step (g : Gt4py) (l : Layout) : HOp α → HWhole α → HWhole α → Prop
  | .halo q n => HStart l (.halo q n)
  | .vector x y n => HStart l (.vector x y n)
  | .sync x y => HStart l (.sync x y)
  | .wait i => fun w w' => w'.started = w.started ∧ ∃ op W0, w.started[i]? = some (op, W0) ∧ HWait l op W0 w.world w'.world
  | .compute ops => fun w w' => w'.started = w.started ∧ ∀ r ∈ allRanks l, w'.world r = (w.world r).after g (ops r)

/-- One operation after the other. -/
def HOpsRun (g : Gt4py) (l : Layout) : List (HOp α) → HWhole α → HWhole α → Prop
  | [], w, w' => w'.started = w.started ∧ ∀ r ∈ allRanks l, w'.world r = w.world r
  | op :: ops, w, w' => ∃ w1, op.Step g l w w1 ∧ HOpsRun g l ops w1 w'

/-- The update which an operation starts. -/
def HOp.start : HOp α → Option (Op α)
  | .halo q n => some (.halo q n)
  | .vector x y n => some (.vector x y n)
  | .sync x y => some (.sync x y)
  | .wait _ => none
  | .compute _ => none

/-- Every `wait` is for an update started before it. -/
def HWaitsStarted (ops : List (HOp α)) : Prop :=
  ∀ pre i post, ops = pre ++ .wait i :: post → i < (pre.filterMap HOp.start).length

/-- No update is waited for twice. -/
def HWaitsOnce (ops : List (HOp α)) : Prop :=
  ∀ pre i mid post, ops ≠ pre ++ .wait i :: mid ++ .wait i :: post

end Heap
end FV3
