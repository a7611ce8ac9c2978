import Verif.Props.Memory
import Verif.Props.Allocator
import Verif.Props.Datetime64
import Verif.Props.DataArray
import Verif.Props.Broadcast

/-! Concrete cases of the theorems for C58, C60, C63 and C68: each theorem is applied, with all of its hypotheses shown. -/

namespace FV3
namespace Mem

/-- The world after the program `demoOps`. -/
def demoWorld : World Nat := (World.init fun _ => 5).after demo demoOps

theorem case_reach : Reachable demo demoWorld := ⟨_, demoOps, rfl⟩
theorem case_reach_scalar : Reachable demo demoScalar := ⟨_, _, rfl⟩

theorem case_info1 : demoWorld.infoOf 1 = some ⟨[.y, .x], "K", [0, 1], [2, 2], none⟩ := by decide +kernel
theorem case_info2 : demoWorld.infoOf 2 = some ⟨[.y, .x], "K", [0, 0], [2, 3], some "numpy"⟩ := by decide +kernel

example := C58_one_array case_reach case_info1
example := C58_one_array case_reach case_info2
example (x : NDArray Nat) := C58_write case_reach (h := 3) (via := .view) (by decide +kernel) [.int 0, .int 1] x
example (x : NDArray Nat) := C58_read_only case_reach (h := 5) (via := .self) (by decide +kernel) [.int 0, .int 0] x
example := C58_private case_reach (h := 0) (dims := [.y, .x]) (units := "m") (origin := some [0, 1]) (extent := some [1, 1])
  (b := "gtcuda") (by decide +kernel)
example (ops : List (Op Nat)) := C58_shared case_reach (h := 0) (dims := [.y, .x]) (units := "m") (origin := none)
  (extent := none) (by decide +kernel) ops
example (ops : List (Op Nat)) := C58_same_object case_reach (h := 0) (j := 0) (by rfl) (dims := [.y, .x]) (units := "m")
  (origin := none) (extent := none) (by decide +kernel) ops
example (ops : List (Op Nat)) := C58_transpose_shared case_reach case_info1 rfl (target := [.name .x, .name .y])
  (by decide +kernel) ops
example := C58_transpose_private case_reach case_info2 rfl (target := [.name .x, .name .y]) (by decide +kernel)
example := C58_values case_reach case_info1 (by decide) (by decide +kernel)
example (ops : List (Op Nat)) := C58_limit_values case_reach_scalar (h := 1) (i := ⟨[], "K", [], [], none⟩) (by decide +kernel)
  rfl (by decide +kernel) ops

/-- A new array, a quantity of it, its transpose, and a write through the transpose. -/
def frameOps : List (Op Nat) := [.array ⟨[2, 3], fun _ => 1⟩ false, .quantity 6 [.y, .x] "m" none none none,
  .transpose 7 [.name .x, .name .y], .setItem 8 .view [.int 0] ⟨[], fun _ => 4⟩]

theorem case_count : demoWorld.objs.length = 6 := by decide +kernel
theorem case_count' : (demoWorld.after demo frameOps).objs.length = 9 := by decide +kernel

theorem case_frame : ∀ op ∈ frameOps, ∀ k, op.on = some k → demoWorld.objs.length ≤ k := by
  rw [case_count]
  intro op ho k hk
  simp only [frameOps, List.mem_cons, List.not_mem_nil, or_false] at ho
  rcases ho with rfl | rfl | rfl | rfl <;> simp only [Op.on, Option.some.injEq, reduceCtorEq] at hk <;> omega

example (via : Via) (ix : List Ix) := C58_frame case_reach frameOps case_frame (k := 2) (by rw [case_count]; decide) via ix
/-- The old array is written, and a quantity of it is made and written. -/
example (via : Via) (ix : List Ix) := C58_frame_new case_reach frameOps case_frame
  [.setItem 0 .self [.int 0] ⟨[], fun _ => 5⟩, .quantity 0 [.y, .x] "m" none none none, .setItem 9 .view [] ⟨[], fun _ => 6⟩]
  (by rw [case_count, case_count']
      intro op ho k hk
      simp only [List.mem_cons, List.not_mem_nil, or_false] at ho
      rcases ho with rfl | rfl | rfl <;> simp only [Op.on, Option.some.injEq] at hk <;> omega)
  (k := 7) (by rw [case_count]; decide) (by rw [case_count']; decide) via ix

end Mem

/-! ### C60 -/

namespace Time64

/-- In 2016, with a fraction of a microsecond. -/
example : ∃ fl, Nearest Double fl ∧
    ∃ d us, datetime64ToDatetime fl ⟨some 1470054600123456789, 1000000000⟩ = .ok d ∧ d.IsInstant us ∧
      |us * 1000 - 1470054600123456789| < 1000 := by
  obtain ⟨fl, h, -⟩ := exists_nearest_double
  exact ⟨fl, h, C60_close h _ (by decide)⟩

/-- A second later is not earlier. -/
example : ∃ fl, Nearest Double fl ∧ ∃ d d' us us',
    datetime64ToDatetime fl ⟨some 1470054600123456789, 1000000000⟩ = .ok d ∧
    datetime64ToDatetime fl ⟨some 1470054601123456789, 1000000000⟩ = .ok d' ∧
    d.IsInstant us ∧ d'.IsInstant us' ∧ us ≤ us' := by
  obtain ⟨fl, h, -⟩ := exists_nearest_double
  obtain ⟨d, us, h1, h2, -⟩ := C60_close h 1470054600123456789 (by decide)
  obtain ⟨d', us', h1', h2', -⟩ := C60_close h 1470054601123456789 (by decide)
  exact ⟨fl, h, d, d', us, us', h1, h1', h2, h2', C60_monotone h _ _ _ (by decide) d d' us us' h1 h1' h2 h2'⟩

/-- Whole seconds: 2016-08-01 12:30, and the first second of the year 10000. -/
example : ∃ fl, Nearest Double fl ∧ datetime64ToDatetime fl ⟨some 1470054600, 1⟩ = .ok ⟨1470054600, 0⟩ ∧
    datetime64ToDatetime fl ⟨some 253402300800, 1⟩ = .error .valueError := by
  obtain ⟨fl, h, -⟩ := exists_nearest_double
  exact ⟨fl, h, (C60_seconds h _ (by decide)).1 (by decide), (C60_seconds h _ (by decide)).2 (by decide)⟩

example : ∃ fl, Nearest Double fl ∧ ∃ d, datetime64ToDatetime fl ⟨some (2 ^ 33 * 1000000 + 1), 1000000⟩ = .ok d ∧
    d.IsInstant (2 ^ 33 * 1000000 + 2) := by
  obtain ⟨fl, h, -⟩ := exists_nearest_double
  exact ⟨fl, h, (C60_limit h).2⟩

end Time64

/-! ### C63, C68 -/

example (value : NDArray Nat) := C63_view exAssign (by decide) (.one (.slice .full)) value _ rfl
example (value : NDArray Nat) := C63_corner exAssign (by decide) .ne (.tuple [.slice (.of (-1) 0), .slice (.of (-2) 0)]) value _ rfl

example := C68_units_required (⟨exHalo.data, [.y, .x], none⟩ : DataArray Int) (some [1, 2]) none rfl
example := C68_from_data_array (⟨exHalo.data, [.y, .x], some "K"⟩ : DataArray Int) "K" rfl (some [1, 2]) none
example := C68_data_array exHalo exHalo_wf

end FV3
