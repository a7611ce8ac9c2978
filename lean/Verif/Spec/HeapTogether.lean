import Verif.Model.HeapTogether
import Verif.Spec.HeapAsync
import Verif.Spec.HeapColl

/-!
# What scatters and gathers do to memory while updates are outstanding
-/

namespace FV3
namespace Heap
open Mem (World Gt4py)
variable {α : Type} [Inhabited α] [Neg α]

/-- One operation, performed on all ranks at once: a scatter or gather does what it does without outstanding updates, and these
stay as they are. -/
def TOp.Step (g : Gt4py) (l : Layout) : TOp α → HWhole α → HWhole α → Prop
  | .update o => o.Step g l
  | .collective x => fun w w' => w'.started = w.started ∧ CStep g (.cube l) x w.world w'.world

/-- One operation after the other. -/
def TRun (g : Gt4py) (l : Layout) : List (TOp α) → HWhole α → HWhole α → Prop
  | [], w, w' => w'.started = w.started ∧ ∀ r ∈ allRanks l, w'.world r = w.world r
  | x :: xs, w, w' => ∃ w1, x.Step g l w w1 ∧ TRun g l xs w1 w'

/-- The operation can be performed: the quantities of an update which it starts fit, or the arguments of the scatter or gather. -/
def TReady (l : Layout) (V : Int → World α) : TOp α → Prop
  | .update o => ∀ op, o.start = some op → (∀ r ∈ allRanks l, Usable (V r) op.qs) ∧ UpdateReady l (fun r => quantities (V r)) op
  | .collective x => ∃ dims cells, CFits (.cube l) dims cells V x

/-- The starts, waits and programs. -/
def TOp.updates (ops : List (TOp α)) : List (HOp α) :=
  ops.filterMap fun
    | .update o => some o
    | .collective _ => none

end Heap
end FV3
