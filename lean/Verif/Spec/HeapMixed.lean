import Verif.Model.HeapMixed
import Verif.Spec.HeapColl

/-!
# What calls of a cubed sphere communicator do to memory
-/

namespace FV3
namespace Heap
open Mem (World Gt4py)
variable {α : Type} [Inhabited α] [Neg α]

/-- The arguments of a call fit, when it is made: the quantities of an update have halos and can be written; a global quantity
on the root and parts of its domain on all ranks, for a scatter or gather. -/
def XReady (l : Layout) (W : Int → World α) : XCall α → Prop
  | .update c => ∀ op, c.start = some op → (∀ r ∈ allRanks l, Usable (W r) op.qs) ∧ UpdateReady l (fun r => quantities (W r)) op
  | .collective x => ∃ dims cells, CFits (.cube l) dims cells W x

/-- What one call does on all ranks. -/
def XStep (g : Gt4py) (l : Layout) : XCall α → (Int → World α) → (Int → World α) → Prop
  | .update c => HStep g l c
  | .collective x => CStep g (.cube l) x

/-- One call after the other. -/
def XRun (g : Gt4py) (l : Layout) : List (XCall α) → (Int → World α) → (Int → World α) → Prop
  | [], W, W' => ∀ r ∈ allRanks l, W' r = W r
  | x :: xs, W, W' => ∃ W1, XStep g l x W W1 ∧ XRun g l xs W1 W'

end Heap
end FV3
