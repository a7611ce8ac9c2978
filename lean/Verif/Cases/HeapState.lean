import Verif.Props.HeapState
import Verif.Cases.HeapMixed

/-!
# Cases of C86
-/

namespace FV3
namespace Heap
open Mem (World Gt4py Reachable)

/-- The global state: the two components of a wind of `windW`, and a time. -/
def windGlobal : HDict := [("time", .time 7), ("u", .qty 1), ("v", .qty 3)]

/-- The state of a rank, in another order; the quantities are in the memory of the global ones. -/
def windParts : HDict := [("v", .qty 7), ("other", .qty 5), ("u", .qty 5)]

def windSv (v : String) : Nat := if v = "u" then 1 else 3
def windRv (_ : Int) (v : String) : Nat := if v = "u" then 5 else 7

theorem windW_addr_first (r : Int) {idx : List Nat} {a : Int} (h : Cell (windW r) 1 idx a) : a < 120 := by
  obtain ⟨x, hx, hin, rfl⟩ := h
  rw [windW_global] at hx
  cases hx
  match idx, hin with
  | [t, j, i], hin =>
    have : ∀ t < 6, ∀ j < 4, ∀ i < 5, (Strided.View.addr ⟨0, [6, 4, 5], [20, 5, 1]⟩ [t, j, i] : Int) < 120 := by decide
    exact this t hin.1 j hin.2.1 i hin.2.2.1

theorem wind_names {v : String} (h : v ∈ windGlobal.keys) (ht : v ≠ "time") : v = "u" ∨ v = "v" := by
  simp only [windGlobal, Dict.keys, List.map_cons, List.map_nil, List.mem_cons, List.not_mem_nil, or_false] at h
  exact h.resolve_left ht

theorem wind_back {v : String} (h : v ∈ ["v", "u"]) : v = "u" ∨ v = "v" := by
  rcases List.mem_cons.1 h with h | h
  · exact .inr h
  · exact .inl (List.mem_singleton.1 h)

theorem wind_fits {v : String} (h : v = "u" ∨ v = "v") :
    CFits (.cube ⟨1, 1⟩) [.y, .x] [2, 2] windW (.scatter (windSv v) fun r => windRv r v) := by
  rcases h with rfl | rfl
  · exact windW_fits
  · exact windW_fits'

theorem wind_axes : HAxes [.y, .x] 0 1 := (case_ready (caseQ ⟨[4, 5], fun _ => 0⟩) rfl rfl rfl rfl).axes

theorem wind_clear {v w : String} (hv : v = "u" ∨ v = "v") (hw : w = "u" ∨ w = "v") (hne : v ≠ w) (r : Int) :
    Clear (windW r) (windSv v) (windRv r w) ∧ Clear (windW r) (windRv r v) (windRv r w) ∧
    Clear (windW r) (windRv r v) (windSv w) ∧ Clear (windW r) (windSv v) (windSv w) := by
  rcases hv with rfl | rfl <;> rcases hw with rfl | rfl
  · exact absurd rfl hne
  · refine ⟨fun idx idx' a h1 _ h2 => ?_, fun idx idx' a h1 _ h2 => ?_, fun idx idx' a h1 _ h2 => ?_, fun idx idx' a h1 _ h2 => ?_⟩
    · have := windW_addr_first r h1; have := windW_addr' r h2; omega
    · have := windW_addr r h1; have := windW_addr' r h2; omega
    · have := windW_addr r h1; have := windW_addr_global r h2; omega
    · have := windW_addr_first r h1; have := windW_addr_global r h2; omega
  · refine ⟨fun idx idx' a h1 _ h2 => ?_, fun idx idx' a h1 _ h2 => ?_, fun idx idx' a h1 _ h2 => ?_, fun idx idx' a h1 _ h2 => ?_⟩
    · have := windW_addr_global r h1; have := windW_addr r h2; omega
    · have := windW_addr' r h1; have := windW_addr r h2; omega
    · have := windW_addr' r h1; have := windW_addr_first r h2; omega
    · have := windW_addr_global r h1; have := windW_addr_first r h2; omega
  · exact absurd rfl hne

/-- Scatter of the state. -/
example (buf : Buffering) := C86_parts (g := Mem.demo) (c := .cube ⟨1, 1⟩) (W := windW) (s := windGlobal)
  (send := fun r => if r = 0 then some windGlobal else none) (d := fun _ => windParts) (sv := windSv) (rv := windRv) (time := some 7)
  (vdims := fun _ => [.y, .x]) (vcells := fun _ => [2, 2]) ⟨by decide, by decide, by decide, by decide⟩ (fun r _ => windW_reach r)
  (by decide) rfl rfl (fun v hv ht => by rcases wind_names hv ht with rfl | rfl <;> rfl)
  (fun r _ => ⟨by decide, fun v hv ht => by rcases wind_names hv ht with rfl | rfl <;> rfl⟩)
  (fun v hv ht => wind_fits (wind_names hv ht))
  (fun v hv ht w hw ht' hne => ⟨(wind_clear (wind_names hv ht) (wind_names hw ht') hne 0).1,
    fun r _ => (wind_clear (wind_names hv ht) (wind_names hw ht') hne r).2.1⟩) buf

/-- Gather of the state, with a time. -/
example (buf : Buffering) := C86_global (g := Mem.demo) (c := .cube ⟨1, 1⟩) (W := windW) (names := ["time", "u", "v"])
  (val := fun r v => if v = "time" then .time r else .qty (windRv r v))
  (recv := fun r => if r = 0 then some windGlobal else none) (st := windGlobal) (pv := windRv) (gv := windSv)
  (vdims := fun _ => [.y, .x]) (vcells := fun _ => [2, 2]) ⟨by decide, by decide, by decide, by decide⟩ (fun r _ => windW_reach r)
  (by decide) rfl (fun r _ v _ ht => if_neg ht) (fun v hv ht => by rcases wind_names hv ht with rfl | rfl <;> rfl)
  (fun v hv ht => by
    have h := wind_fits (wind_names hv ht)
    refine ⟨⟨0, 1, wind_axes⟩, h.2.1, ?_, fun r hr => (h.2.2 r hr).1⟩
    rcases wind_names hv ht with rfl | rfl <;> rfl)
  (fun v hv ht w hw ht' hne => (wind_clear (wind_names hv ht) (wind_names hw ht') hne 0).2.2) buf

/-- Scatter and gather back; the rank's quantities are in the memory of the global ones. -/
example (buf : Buffering) := C86_round_trip (g := Mem.demo) (c := .cube ⟨1, 1⟩) (W := windW) (s := windGlobal)
  (send := fun r => if r = 0 then some windGlobal else none)
  (recv := fun r => if r = 0 then some windGlobal else none) (st := windGlobal) (ns := ["v", "u"]) (sv := windSv) (rv := windRv)
  (time := some 7) (vdims := fun _ => [.y, .x]) (vcells := fun _ => [2, 2]) (ky := fun _ => 0) (kx := fun _ => 1)
  ⟨by decide, by decide, by decide, by decide⟩ (fun r _ => windW_reach r) (by decide) (by decide)
  (fun v => ⟨fun h => by
      rcases List.mem_cons.1 h with rfl | h
      · decide
      · rw [List.mem_singleton.1 h]; decide,
    fun h => by rcases wind_names h.1 h.2 with rfl | rfl <;> decide⟩)
  rfl rfl rfl
  (fun v hv => by rcases wind_back hv with rfl | rfl <;> rfl) (fun v hv => by rcases wind_back hv with rfl | rfl <;> rfl)
  (fun _ _ => wind_axes) (fun v hv => wind_fits (wind_back hv))
  (fun v hv => by rcases wind_back hv with rfl | rfl <;> rfl)
  (fun v hv w hw hne => ⟨(wind_clear (wind_back hv) (wind_back hw) hne 0).1, (wind_clear (wind_back hv) (wind_back hw) hne 0).2.2.1,
    (wind_clear (wind_back hv) (wind_back hw) hne 0).2.2.2, fun r _ => (wind_clear (wind_back hv) (wind_back hw) hne r).2.1⟩) buf

end Heap
end FV3
