import Verif.Cases.HeapComm
import Verif.Props.HeapAsync

/-!
# Cases of C81
-/

namespace FV3
namespace Heap
open Mem (World Gt4py Reachable)

/-- The program of `caseCalls`: a transpose (variable 4) of the quantity, and an assignment to the array. -/
def caseProg (r : Int) : List (Mem.Op Int) := [.transpose 1 caseXY, .setItem 0 .self [.int 1, .int 1] ⟨[], fun _ => r⟩]

/-- Two updates are outstanding at the same time; their quantities share all of their memory. -/
def caseHOps : List (HOp Int) := [.halo 1 1, .compute caseProg, .halo 4 1, .wait 1, .wait 0]

theorem caseHOps_fit (pre : List (HOp Int)) (o : HOp Int) (post : List (HOp Int)) (e : caseHOps = pre ++ o :: post) (op : Op Int)
    (ho : o.start = some op) (V : HWhole Int) (h : HOpsRun Mem.demo ⟨1, 1⟩ pre ⟨caseV, []⟩ V) :
    (∀ r ∈ allRanks ⟨1, 1⟩, Usable (V.world r) op.qs) ∧ UpdateReady ⟨1, 1⟩ (fun r => quantities (V.world r)) op := by
  rcases pre with _ | ⟨d0, _ | ⟨d1, _ | ⟨d2, _ | ⟨d3, _ | ⟨d4, pre⟩⟩⟩⟩⟩
  · cases e
    cases ho
    exact case_first V.world fun r hr => ⟨_, h.2 r hr⟩
  · cases e
    cases ho
  · cases e
    cases ho
    obtain ⟨V1, a1, V2, a2, a3⟩ := h
    refine (case_later V.world fun r hr => ?_).1
    obtain ⟨mem', e'⟩ := case_after r (caseV r).mem
    refine ⟨mem', ?_⟩
    rw [a3.2 r hr, a2.2 r hr, a1.2 r hr]
    exact e'
  · cases e
    cases ho
  · cases e
    cases ho
  · cases pre <;> cases e

theorem caseHOps_started : HWaitsStarted caseHOps := by
  intro pre i post e
  rcases pre with _ | ⟨d0, _ | ⟨d1, _ | ⟨d2, _ | ⟨d3, _ | ⟨d4, pre⟩⟩⟩⟩⟩
  · cases e
  · cases e
  · cases e
  · cases e
    decide
  · cases e
    decide
  · cases pre <;> cases e

theorem caseHOps_once : HWaitsOnce caseHOps := by
  intro pre i mid post e
  rcases pre with _ | ⟨d0, _ | ⟨d1, _ | ⟨d2, _ | ⟨d3, _ | ⟨d4, pre⟩⟩⟩⟩⟩
  · cases e
  · cases e
  · cases e
  · rcases mid with _ | ⟨_, mid⟩
    · cases e
    · cases mid <;> cases e
  · cases mid <;> cases e
  · cases pre <;> cases e

example (buf : Buffering) : ∃ (fin : Int → HState Int) (started : List (Op Int × (Int → World Int))),
    ((hopNet Mem.demo ⟨1, 1⟩ caseHOps caseV).Completes buf fun r => (.ok (), fin r)) ∧
    HOpsRun Mem.demo ⟨1, 1⟩ caseHOps ⟨caseV, []⟩ ⟨fun r => (fin r).world, started⟩ :=
  C81_session (by decide) rfl (fun r _ => caseV_reach r) caseHOps_started caseHOps_once caseHOps_fit buf

/-- After the last wait the halo of the quantity holds what the owners had at the beginning, although the program has assigned to
the array since, and the other update has filled the same halo. -/
example (buf : Buffering) : ∃ (fin : Int → HState Int) (beforeWait : HWhole Int),
    ((hopNet Mem.demo ⟨1, 1⟩ caseHOps caseV).Completes buf fun r => (.ok (), fin r)) ∧
    HaloFilled ⟨1, 1⟩ 1 0 1 2 1 (fun r => quantities (caseV r)) (fun r => quantities (fin r).world) ∧
    ∀ r ∈ allRanks ⟨1, 1⟩, OnlyCells (HaloCells ⟨1, 1⟩ beforeWait.world 1 0 1 2 1 r) (beforeWait.world r) (fin r).world := by
  obtain ⟨fin, w0, w1, h1, h2, -, h3, h4⟩ := C81_halo (g := Mem.demo) (l := ⟨1, 1⟩) (W := caseV) (by decide) rfl
    (fun r _ => caseV_reach r) [] [.compute caseProg, .halo 4 1, .wait 1] (h := 1) (ky := 0) (kx := 1) (n := 2) (w := 1)
    (by decide) (by decide) (fun V hV => (caseU_field fun r => (caseV r).mem).same fun r hr q => by
      rw [hV.2 r hr]
      exact SameMeta.refl _)
    caseHOps_started caseHOps_once caseHOps_fit buf
  have e : ∀ r ∈ allRanks ⟨1, 1⟩, w0.world r = caseV r := h2.2
  refine ⟨fin, w1, h1, fun r idx t a b hat hin hc => ?_, h4⟩
  have er := e r hat.rank
  obtain ⟨r', src, ⟨o1, o2, T, A, B, at', o3⟩, o4⟩ := h3 r idx t a b (hat.same (by rw [er]; exact SameMeta.refl _))
    (by dsimp only; rw [er]; exact hin) hc
  dsimp only at o2 o4
  have er' := e r' at'.rank
  rw [er'] at o4
  rw [er] at o2
  rw [er'] at o1 o2
  exact ⟨r', src, ⟨o1, o2, T, A, B, at'.same (by rw [er']; exact SameMeta.refl _), o3⟩, o4⟩

end Heap
end FV3
