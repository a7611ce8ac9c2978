import Verif.Props.HeapTogether
import Verif.Props.HeapMeanwhile
import Verif.Cases.HeapMixed

/-!
# Cases for Props/HeapTogether.lean
-/

namespace FV3
namespace Heap
open Mem (World Gt4py)

/-- A halo update of the part of a rank is started; a scatter into the same quantity overwrites what was packed (and, on root, the
part shares memory with the global quantity); then the wait, and a gather. -/
def togetherOps : List (TOp Int) :=
  [.update (.halo 3 1), .collective (.scatter 1 fun _ => 3), .update (.wait 0), .collective (.gather (fun _ => 3) 1)]

theorem together_started : HWaitsStarted ([.halo 3 1, .wait 0] : List (HOp Int)) := by
  intro pre i post e
  rcases pre with _ | ⟨d0, _ | ⟨d1, pre⟩⟩
  · cases e
  · cases e
    decide
  · cases pre <;> cases e

theorem together_once : HWaitsOnce ([.halo 3 1, .wait 0] : List (HOp Int)) := by
  intro pre i mid post e
  rcases pre with _ | ⟨d0, _ | ⟨d1, pre⟩⟩
  · cases e
  · cases mid <;> cases e
  · cases pre <;> cases e

theorem togetherOps_ready : ∀ x ∈ togetherOps, TReady ⟨1, 1⟩ cubeW x := by
  have ha : HAxes [.y, .x] 0 1 := (case_ready (caseQ ⟨[4, 5], fun _ => 0⟩) rfl rfl rfl rfl).axes
  intro x hx
  simp only [togetherOps, List.mem_cons, List.not_mem_nil, or_false] at hx
  rcases hx with rfl | rfl | rfl | rfl
  · intro op ho
    cases ho
    exact ⟨fun r _ => cubeW_usable r, 0, 1, 2, by decide, by decide, cubeW_field⟩
  · exact ⟨_, _, cubeW_fits⟩
  · intro op ho
    cases ho
  · exact ⟨[.y, .x], [2, 2], ⟨0, 1, ha⟩, cubeW_fits.2.1, rfl, fun r hr => (cubeW_fits.2.2 r hr).1⟩

theorem together_safe : FloatSafe ⟨1, 1⟩ := ⟨by decide, by decide, by decide, by decide⟩

example (buf : Buffering) : ∃ (W' : Int → World Int) (started : List (Op Int × (Int → World Int))),
    TRun Mem.demo ⟨1, 1⟩ togetherOps ⟨cubeW, []⟩ ⟨W', started⟩ ∧
      (togetherNet Mem.demo ⟨1, 1⟩ togetherOps cubeW).Completes buf fun r => (.ok (), W' r) :=
  C88_calls (ops := togetherOps) together_safe rfl (fun r _ => cubeW_reach r) together_started together_once togetherOps_ready buf

theorem togetherOps_fit {ops : List (TOp Int)} (h : ∀ x ∈ ops, x ∈ togetherOps) (pre : List (TOp Int)) (x : TOp Int)
    (post : List (TOp Int)) (e : ops = pre ++ x :: post) (V : HWhole Int) (hV : TRun Mem.demo ⟨1, 1⟩ pre ⟨cubeW, []⟩ V) :
    TReady ⟨1, 1⟩ V.world x :=
  (togetherOps_ready x (h x (by rw [e]; exact List.mem_append_right _ List.mem_cons_self))).kept together_safe
    (fun r _ => (cubeW_reach r).spec) fun r hr => (hV.keeps hr (cubeW_reach r).spec).1

example : ∃ V, TRun Mem.demo ⟨1, 1⟩ togetherOps ⟨cubeW, []⟩ V ∧ ∀ V', TRun Mem.demo ⟨1, 1⟩ togetherOps ⟨cubeW, []⟩ V' →
    ∀ buf, ∃ fin : Int → World Int, ((togetherNet Mem.demo ⟨1, 1⟩ togetherOps cubeW).Completes buf fun r => (.ok (), fin r)) ∧
      ∀ r ∈ allRanks ⟨1, 1⟩, fin r = V'.world r :=
  C88_one_outcome together_safe rfl (fun r _ => cubeW_reach r) together_started together_once (togetherOps_fit fun _ h => h)

/-- The first three operations: the halo holds what the owners had before the scatter. -/
example (buf : Buffering) : ∃ (W' : Int → World Int) (atStart beforeWait : HWhole Int),
    ((togetherNet Mem.demo ⟨1, 1⟩ (togetherOps.take 3) cubeW).Completes buf fun r => (.ok (), W' r)) ∧
      TRun Mem.demo ⟨1, 1⟩ [] ⟨cubeW, []⟩ atStart ∧
      TRun Mem.demo ⟨1, 1⟩ [.update (.halo 3 1), .collective (.scatter 1 fun _ => 3)] atStart beforeWait ∧
      HaloFilled ⟨1, 1⟩ 3 0 1 2 1 (fun r => quantities (atStart.world r)) (fun r => quantities (W' r)) ∧
      ∀ r ∈ allRanks ⟨1, 1⟩, OnlyCells (HaloCells ⟨1, 1⟩ beforeWait.world 3 0 1 2 1 r) (beforeWait.world r) (W' r) :=
  C88_halo (ops := togetherOps.take 3) together_safe rfl (fun r _ => cubeW_reach r) [] [.collective (.scatter 1 fun _ => 3)] (by decide) (by decide) rfl
    (fun V hV => cubeW_field.same fun r hr q => by
      rw [hV.2 r hr]
      exact SameMeta.refl _)
    together_started together_once (togetherOps_fit fun x h => List.mem_of_mem_take h) buf

/-- The elements of the part of a rank have different places in memory. -/
theorem cubeW_place {r : Int} {idx : List Nat} {a : Int} (h : Cell (cubeW r) 3 idx a) :
    ∃ i j : Nat, idx = [i, j] ∧ i < 4 ∧ j < 5 ∧ a = 60 + 5 * (i : Int) + j := by
  obtain ⟨x, hx, hin, ha⟩ := h
  rw [cubeW_part] at hx
  cases hx
  match idx, hin, ha with
  | [i, j], hin, ha =>
    refine ⟨i, j, rfl, hin.1, hin.2.1, ?_⟩
    rw [← ha]
    simp [Strided.View.addr, Strided.dot]
    omega

/-- The quantity scattered into is the one whose update is outstanding: it has the new values in its compute domain, and in its
halo the values which its neighbours had before the scatter. -/
example (buf : Buffering) : ∃ W' : Int → World Int,
    ((togetherNet Mem.demo ⟨1, 1⟩ [.update (.halo 3 1), .collective (.scatter 1 fun _ => 3), .update (.wait 0)] cubeW).Completes buf
      fun r => (.ok (), W' r)) ∧
    HaloFilled ⟨1, 1⟩ 3 0 1 2 1 (fun r => quantities (cubeW r)) (fun r => quantities (W' r)) ∧
    ∀ r ∈ allRanks ⟨1, 1⟩, IsPart (.cube ⟨1, 1⟩) [.y, .x] [2, 2] (quantities (cubeW 0) 1) (quantities (W' r) 3) r := by
  refine C88_meanwhile together_safe rfl (fun r _ => cubeW_reach r) (by decide) (by decide) cubeW_field
    (togetherOps_ready _ List.mem_cons_self) cubeW_fits (fun r _ idx idx' a hc h1 hh h2 => ?_) buf
  obtain ⟨i, j, rfl, b1, b2, b3⟩ := cubeW_place h1
  obtain ⟨i', j', rfl, c1, c2, c3⟩ := cubeW_place h2
  obtain rfl : i = i' := by omega
  obtain rfl : j = j' := by omega
  have hn : (quantities (cubeW r) 3).ndim = 2 := by
    rw [quantities_eq (cubeW_part r)]
    rfl
  exact hh.out ⟨hc.2 0 (by omega), hc.2 1 (by omega)⟩

end Heap
end FV3
