import Verif.Cases.HeapComm
import Verif.Props.HeapLate

/-!
# Sends of quantities in memory which are read late: a case
-/

namespace FV3
namespace Heap
open Mem (World)

/-- The program of `case_session` (an update, a transposition and an assignment to the array, two more updates of the two
quantities with the same memory), with messages which are read late. -/
example (buf : Buffering) : ∃ W' : Int → World Int, HRun Mem.demo ⟨1, 1⟩ caseCalls caseV W' ∧
    (Lazy.callNet Mem.demo ⟨1, 1⟩ caseCalls caseV).Ends buf (fun r => (.ok (), ⟨if r ∈ allRanks ⟨1, 1⟩ then 3 else 0, []⟩)) W' :=
  C82_session (g := Mem.demo) (l := ⟨1, 1⟩) (W := caseV) (calls := caseCalls) (by decide) rfl (fun r _ => caseV_reach r) case_fit buf

/-- One update of a quantity which shares its memory with an array. -/
example (buf : Buffering) : ∃ W' : Int → World Int,
    ((Lazy.callNet Mem.demo ⟨1, 1⟩ [.haloUpdate 1 1] caseV).Ends buf (fun r => (.ok (), ⟨if r ∈ allRanks ⟨1, 1⟩ then 1 else 0, []⟩)) W') ∧
    HaloFilled ⟨1, 1⟩ 1 0 1 2 1 (fun r => quantities (caseV r)) (fun r => quantities (W' r)) ∧
    ∀ r ∈ allRanks ⟨1, 1⟩, OnlyCells (HaloCells ⟨1, 1⟩ caseV 1 0 1 2 1 r) (caseV r) (W' r) :=
  C82_halo (g := Mem.demo) (by decide) rfl (by decide) (by decide) (fun r _ => caseV_reach r) (fun r _ => caseU_usable r (caseV r).mem)
    (caseU_field fun r => (caseV r).mem) buf

end Heap
end FV3
