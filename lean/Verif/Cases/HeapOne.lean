import Verif.Props.HeapMixedOne
import Verif.Cases.HeapAsync
import Verif.Cases.HeapMixed

/-!
# Cases for Props/HeapOne.lean and Props/HeapMixedOne.lean
-/

namespace FV3
namespace Heap
open Mem (World Gt4py)

/-- Two outstanding updates of quantities which share memory, with a program between them (Cases/HeapAsync.lean). -/
example : ∃ V, HOpsRun Mem.demo ⟨1, 1⟩ caseHOps ⟨caseV, []⟩ V ∧ ∀ V', HOpsRun Mem.demo ⟨1, 1⟩ caseHOps ⟨caseV, []⟩ V' →
    ∀ buf, ∃ fin : Int → HState Int, ((hopNet Mem.demo ⟨1, 1⟩ caseHOps caseV).Completes buf fun r => (.ok (), fin r)) ∧
      ∀ r ∈ allRanks ⟨1, 1⟩, (fin r).world = V'.world r :=
  C81_one_outcome (by decide) rfl (fun r _ => caseV_reach r) caseHOps_started caseHOps_once caseHOps_fit

/-- Updates with programs between them (Cases/HeapComm.lean). -/
example : ∃ W', HRun Mem.demo ⟨1, 1⟩ caseCalls caseV W' ∧ ∀ V, HRun Mem.demo ⟨1, 1⟩ caseCalls caseV V → ∀ buf,
    ∃ fin : Int → HState Int, ((callNet Mem.demo ⟨1, 1⟩ caseCalls caseV).Completes buf fun r => (.ok (), fin r)) ∧
      ∀ r ∈ allRanks ⟨1, 1⟩, (fin r).world = V r :=
  C80_one_outcome (by decide) rfl (fun r _ => caseV_reach r) case_fit

/-- A scatter, an update, a gather of what was scattered, and an update (Cases/HeapMixed.lean). -/
example : ∃ W', XRun Mem.demo ⟨1, 1⟩ [.collective (.scatter 1 fun _ => 3), .update (.haloUpdate 3 1),
      .collective (.gather (fun _ => 3) 1), .update (.haloUpdate 3 1)] cubeW W' ∧
    ∀ V, XRun Mem.demo ⟨1, 1⟩ [.collective (.scatter 1 fun _ => 3), .update (.haloUpdate 3 1),
      .collective (.gather (fun _ => 3) 1), .update (.haloUpdate 3 1)] cubeW V → ∀ buf, ∃ fin : Int → World Int,
      ((mixedNet Mem.demo ⟨1, 1⟩ [.collective (.scatter 1 fun _ => 3), .update (.haloUpdate 3 1),
        .collective (.gather (fun _ => 3) 1), .update (.haloUpdate 3 1)] cubeW).Completes buf fun r => (.ok (), fin r)) ∧
      ∀ r ∈ allRanks ⟨1, 1⟩, fin r = V r := by
  have hl : FloatSafe ⟨1, 1⟩ := ⟨by decide, by decide, by decide, by decide⟩
  have hu : XReady ⟨1, 1⟩ cubeW (.update (.haloUpdate 3 1)) := fun op ho => by
    cases ho
    exact ⟨fun r _ => cubeW_usable r, 0, 1, 2, by decide, by decide, cubeW_field⟩
  have ha : HAxes [.y, .x] 0 1 := (case_ready (caseQ ⟨[4, 5], fun _ => 0⟩) rfl rfl rfl rfl).axes
  have all : ∀ x ∈ ([.collective (.scatter 1 fun _ => 3), .update (.haloUpdate 3 1),
      .collective (.gather (fun _ => 3) 1), .update (.haloUpdate 3 1)] : List (XCall Int)), XReady ⟨1, 1⟩ cubeW x := by
    intro x hx
    simp only [List.mem_cons, List.not_mem_nil, or_false] at hx
    rcases hx with rfl | rfl | rfl | rfl
    · exact ⟨_, _, cubeW_fits⟩
    · exact hu
    · exact ⟨[.y, .x], [2, 2], ⟨0, 1, ha⟩, cubeW_fits.2.1, rfl, fun r hr => (cubeW_fits.2.2 r hr).1⟩
    · exact hu
  refine C85_one_outcome hl rfl (fun r _ => cubeW_reach r) fun pre x post e W1 hrun => ?_
  exact (all x (by rw [e]; exact List.mem_append_right _ List.mem_cons_self)).kept hl (fun r _ => (cubeW_reach r).spec)
    fun r h => (hrun.keeps h (cubeW_reach r).spec).1

end Heap
end FV3
