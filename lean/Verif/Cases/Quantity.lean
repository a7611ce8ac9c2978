import Verif.Props.Views
import Verif.Props.ViewNegative
import Verif.Props.Transpose
import Verif.Props.Sizer
import Verif.Props.Allocator
import Verif.Props.Corners
import Verif.Props.Rotate
import Verif.Props.Buffer
import Verif.Props.Timer

/-!
# Concrete cases of the theorems about quantities, buffers and timers (C29 to C37)

Every `example` applies a theorem to concrete arguments, which shows that its hypotheses can be met.
-/

namespace FV3

/-! ### C29 to C31 -/

example := C29_view_all exQ exQ_wf (by decide)
theorem case_plain : ∀ k, k < (VIdx.one (.slice (.of 1 3))).entries.length →
    ((VIdx.one (.slice (.of 1 3))).entries.getD k (.int 0)).Plain (exV.e k) := by
  intro k hk
  have : k = 0 := by simpa [VIdx.entries] using hk
  subst this
  simp [VIdx.entries, Ix.Plain, PySlice.of, Quantity.e, exV]
/-- `view[1:3] = 9` and `view[1:3] = [9, 8, 7]`, of which the second fails. -/
example := C29_view_writes_compute_domain exV exV_wf (.one (.slice (.of 1 3))) (by decide) case_plain ⟨[], fun _ => 9⟩
example := (C29_view_writes_compute_domain exV exV_wf (.one (.slice (.of 1 3))) (by decide) case_plain ⟨[3], fun i => 9 - i.getD 0 0⟩).2
  .valueError rfl
/-- `view[-3:] = 9`: the third place from the end of the compute domain is still a negative place of the array. -/
example := C29_negative_writes exV exV_wf (.one (.slice ⟨some (-3), none, none⟩)) (by decide)
  (by intro k hk
      have : k = 0 := by simpa [VIdx.entries] using hk
      subst this
      simp [VIdx.entries, Ix.Counted, Quantity.e, Quantity.o, exV])
  ⟨[], fun _ => 9⟩
example := C29_scalar (⟨⟨[], fun _ => 3⟩, [], "K", [], []⟩ : Quantity Nat) ⟨rfl, rfl, rfl⟩ rfl .nw
example := (C30_corner_reads exQ exQ_wf.toLens (by decide) .nw (.tuple [.int 1, .slice (.of (-2) 0)])).1 (by decide)
example := C30_corner_writes exQ exQ_wf.toLens .nw (.tuple [.int 1, .slice (.of (-2) 0)]) (by decide) ⟨[], fun _ => 9⟩
/-- A box of the halo beyond the north-west corner. -/
example := C30_corner_box exQ exQ_wf.toLens (by decide) .nw (by decide) (fun k => [0, -2, 0].getD k 0) (fun k => [1, 0, 2].getD k 0)
  (by unfold Quantity.ndim Quantity.n; decide)
example := (C31_transpose_defined exQ exQ_wf.toLens (by decide) [.anyOf [.z, .zI], .name .x, .anyOf [.y, .yI]]).1
example (r : Quantity _) := C31_transpose_by_name exQ exQ_wf.toLens (by decide) [.anyOf [.z, .zI], .name .x, .anyOf [.y, .yI]] r
example (r : Quantity _) := C31_transpose_back exQ exQ_wf.toLens (by decide) [.anyOf [.z, .zI], .name .x, .anyOf [.y, .yI]] r

/-! ### C32 -/

theorem case_safe22 : FloatSafe ⟨2, 2⟩ := C05_safe_up_to_48 _ (by decide) (by decide) (by decide) (by decide)

example (q q' : Quantity Nat) := C32_one_shape _ exSizer_valid (fun _ => 0) [.zI, .y, .x] [.z, .y, .xI] "m" "K" q q'
example := C32_from_namelist ⟨2, 2⟩ case_safe22 24 24 79 (by decide) (by decide) (by decide) (by decide) 3
example := C32_extents ⟨2, 2⟩ case_safe22 24 24 79 3 [(.other "tracer", 8)] exSizer_valid (by decide) (by decide) 3
  (fun _ => 0) [.zI, .yI, .x] "m" (by decide) (by decide) [80, 49, 48] rfl
  (by intro k d t c hd ht hc
      match k with
      | 0 => simp at hd ht; subst hd ht; revert hc; revert c; decide +revert
      | 1 => simp at hd ht; subst hd ht; revert hc; revert c; decide +revert
      | 2 => simp at hd ht; subst hd ht; revert hc; revert c; decide +revert
      | k + 3 => simp at hd)
example := C32_halo_ready _ exSizer_valid rfl (fun _ => (0 : Int)) [.y, .x, .z] "m" 0 1 exQ_axes (by decide)

namespace Mem

theorem demo_start : Reachable demo (World.init fun _ => (5 : Nat)) := ⟨_, [], rfl⟩

example := C32_backend (g := demo) demo_start (.storage "gtcuda") (by intro b hb; cases hb; decide)
  ⟨24, 24, 79, 3, [(.other "tracer", 8)]⟩ exSizer_valid (fun _ => 0) [.zI, .yI, .x] "m" (by decide)
/-- An allocation with origin (3, 3), which the storage does not keep. -/
example := C32_limit_default_origin "numpy" [31, 31] (fun _ => (0 : Nat)) [3, 3] (by rfl)

end Mem

/-! ### C33, C34 -/

theorem case_corner : CornerReady (exCornerQ ⟨2, 2⟩ (fun P _ => P.x) 0) 2 := by
  have S := (exCorner_scalar ⟨2, 2⟩ (fun P _ => P.x) 0).ready 0 (by decide)
  refine ⟨S.wf, exCorner_axes, by decide, ?_, ?_, ?_, ?_⟩ <;> decide

example := C33_fill (exCornerQ ⟨2, 2⟩ (fun P _ => P.x) 0) "x" (by decide) ⟨2, 2⟩ 0 2 case_corner
example (buf : Buffering) := C33_continues (l := ⟨2, 2⟩) (h := 2) (h' := 2) (by decide) rfl (by decide) (by decide) (by decide)
  (exCorner_scalar ⟨2, 2⟩ (fun P _ => 10000 * P.x + 100 * P.y + P.z) 0) "y" (by decide) buf
example := (C33_errors exQ "x" ⟨2, 2⟩ 0 2 (d0 := .y) (d1 := .x) (ds := [.z]) rfl).1 (by decide)
example := (C33_errors (exCornerQ ⟨2, 2⟩ (fun P _ => P.x) 0) "z" ⟨2, 2⟩ 0 2 (d0 := .xI) (d1 := .yI) (ds := [.z]) rfl).2
  (by decide) (by decide) (by decide) (by decide)
example := C34_rotate_partial (α := Int) 2 (by decide)

/-! ### C35, C36 -/

namespace Buf

def caseUsr : Nat → NDArray Int := fun _ => ⟨[2], fun _ => 5⟩

example := C35_exclusive exEnv caseUsr (fun _ => rfl) exHist
/-- The second context, entered to send user array 0, is still open at the end of `exHist`. -/
example : ctx? (run exEnv (init exEnv caseUsr) exHist) 2 ≠ none := by decide +kernel
example (c : Ctx) := C35_exit_succeeds exEnv caseUsr (fun _ => rfl) exHist 2 c
/-- While user array 0 is being sent, its values change and another context is used. -/
example := C36_send exEnv caseUsr (fun _ => rfl) exHist [.userWrite 0 ⟨[2], fun _ => 1⟩, .exit 2] 0
  (by intro e he
      simp only [List.mem_cons, List.not_mem_nil, or_false] at he
      rcases he with rfl | rfl
      · trivial
      · show (2 : Nat) ≠ 3
        decide)
example := C36_recv exEnv caseUsr (fun _ => rfl) exHist [.exit 2] [.userWrite 0 ⟨[2], fun _ => 1⟩] 0 ⟨[2], fun _ => 8⟩ rfl rfl
  (by intro e he
      simp only [List.mem_cons, List.not_mem_nil, or_false] at he
      subst he
      show (2 : Nat) ≠ 3
      decide)
  (by intro e he
      simp only [List.mem_cons, List.not_mem_nil, or_false] at he
      subst he
      trivial)
example := C36_recv_contiguous exEnv caseUsr (fun _ => rfl) exHist [.exit 2] 1 ⟨[2], fun _ => 8⟩ rfl rfl
  (by intro e he
      simp only [List.mem_cons, List.not_mem_nil, or_false] at he
      subst he
      show (2 : Nat) ≠ 3
      decide)
example := C36_untouched exEnv (run exEnv (init exEnv caseUsr) exHist) 0 (.exit 2)
  (by intro c hc hk
      have : (ctx? (run exEnv (init exEnv caseUsr) exHist) 2).map (·.kind) = some (.send 0) := by decide +kernel
      rw [hc] at this
      cases (Option.some.inj this).symm.trans hk)

end Buf

/-! ### C37 -/

/-- `i` is timed inside `m`, after `i` was timed before. -/
example := C37_clock (T := Int) "m" 10 25 (.clock "i" 12 (.call .enable) 17) (.clock "i" 1 (.call .enable) 4)
  (by decide +kernel) (by decide +kernel) _ rfl (by decide +kernel) (by decide +kernel)

end FV3
