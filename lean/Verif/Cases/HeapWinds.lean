import Verif.Props.HeapWinds
import Verif.Cases.HeapStates

/-!
# Cases of C87 with winds
-/

namespace FV3
namespace Heap
open Mem (World Gt4py Reachable)

theorem wind_states : PartStates ⟨1, 1⟩ windW twoD 0 1 ["v", "u"] windSv (windRv 0) (fun _ => ⟨[.y, .x], [2, 2]⟩) (fun _ => 0) (fun _ => 1) 2 1 where
  nodup := by decide
  names := two_states.names
  global := two_states.global
  time := two_states.time
  parts := two_states.parts
  fits := fun v hv => wind_fits (wind_back hv)
  distinct := two_states.distinct
  usable := fun r _ => (windW_usable r).sub (by decide)
  clear := fun v hv w hw hne => (wind_clear (wind_back hv) (wind_back hw) hne 0).1
  ready := fun v hv => by
    rcases wind_back hv with rfl | rfl
    · exact windW_field.readyX
    · exact windW_field.readyY
  dims := fun v hv r _ => by
    rcases wind_back hv with rfl | rfl
    · show (quantities (windW r) 5).dims = _
      rw [quantities_eq (windW_part r)]
    · show (quantities (windW r) 7).dims = _
      rw [quantities_eq (windW_part' r)]
  cells := fun _ _ => ⟨rfl, rfl⟩

/-- The two components of a wind in a state, which is scattered; the parts of the root overwrite parts of the global quantities. -/
example (buf : Buffering) := C87_winds (g := Mem.demo) (l := ⟨1, 1⟩) (F := fun _ => cubeWind) (items := [.wind "u" "v"])
  (comp := fun v => if v = "u" then .x else .y)
  ⟨by decide, by decide, by decide, by decide⟩ rfl (fun r _ => windW_reach r) (by decide) (by decide) wind_states (by decide)
  (fun i hi => by
    cases List.mem_singleton.1 hi
    exact ⟨windW_field, rfl, rfl⟩)
  (fun i hi => by
    cases List.mem_singleton.1 hi
    exact ⟨rfl, rfl, rfl, fun P o e => by simp only [cubeWind, Vec3.neg, Int.neg_mul]; omega⟩)
  (fun v hv => by
    rcases wind_back hv with rfl | rfl
    · exact windW_holds
    · exact windW_holds') buf

/-- Two scalar fields, updated in the other order. -/
example (buf : Buffering) := C87_winds (g := Mem.demo) (l := ⟨1, 1⟩) (F := twoFields) (items := [.scalar "u", .scalar "v"])
  (comp := fun _ => .scalar)
  ⟨by decide, by decide, by decide, by decide⟩ rfl (fun r _ => twoW_reach r) (by decide) (by decide) two_states.partStates (by decide)
  (fun i hi => by
    simp only [List.mem_cons, List.not_mem_nil, or_false] at hi
    rcases hi with rfl | rfl
    · exact two_states.field "u" (by decide)
    · exact two_states.field "v" (by decide))
  (fun i hi => by
    simp only [List.mem_cons, List.not_mem_nil, or_false] at hi
    rcases hi with rfl | rfl <;> rfl)
  (fun _ hv => two_holds hv) buf

/-- The wind is gathered into the same dictionary again. -/
example (buf : Buffering) := C87_winds_back (g := Mem.demo) (l := ⟨1, 1⟩) (F := fun _ => cubeWind) (items := [.wind "u" "v"])
  (comp := fun v => if v = "u" then .x else .y)
  ⟨by decide, by decide, by decide, by decide⟩ rfl (fun r _ => windW_reach r) (by decide) (by decide) wind_states (by decide)
  (fun i hi => by
    cases List.mem_singleton.1 hi
    exact ⟨windW_field, rfl, rfl⟩)
  (fun i hi => by
    cases List.mem_singleton.1 hi
    exact ⟨rfl, rfl, rfl, fun P o e => by simp only [cubeWind, Vec3.neg, Int.neg_mul]; omega⟩)
  (by decide) (fun _ _ => rfl)
  (fun v hv _ => by
    have : (twoD 0 1).keys = ["v", "u"] := rfl
    rwa [this] at hv)
  (fun v hv => by rcases wind_back hv with rfl | rfl <;> rfl)
  (fun v hv w hw hne => (wind_clear (wind_back hv) (wind_back hw) hne 0).2.2)
  (fun v hv => by
    rcases wind_back hv with rfl | rfl
    · exact windW_holds
    · exact windW_holds') buf

end Heap
end FV3
