import Verif.Model.HeapState
import Verif.Spec.HeapColl

/-!
# States of quantities in memory
-/

namespace FV3
namespace Heap
open Mem (World)
variable {α : Type} [Inhabited α]

/-- No element of variable `h` is in the memory of the compute domain of variable `k`. -/
def Clear (W : World α) (h k : Nat) : Prop :=
  ∀ idx idx' a, Cell W h idx a → (quantities W k).InCompute idx' → ¬ Cell W k idx' a

end Heap
end FV3
