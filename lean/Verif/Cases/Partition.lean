import Verif.Props.Partition
import Verif.Props.Boundary
import Verif.Props.BoundarySlice
import Verif.Props.Rotate

/-!
# Concrete cases of the theorems about partitioner and boundaries (C01 to C14, C49)

Every `example` applies a theorem to concrete arguments, which shows that its hypotheses can be met.
-/

namespace FV3

/-! ### C01 to C05 -/

example := C01_rank_bijection ⟨3, 2⟩ (by decide) (by decide)
example := C01_tile_root_rank ⟨3, 2⟩ (by decide) (by decide) 27 (by decide)

theorem case_safe : FloatSafe ⟨2, 3⟩ := C05_safe_up_to_48 _ (by decide) (by decide) (by decide) (by decide)

theorem case_axes : HAxes [Dim.z, .yI, .x] 1 2 := by
  refine ⟨?_, ?_, by decide, by decide⟩ <;>
  · intro k d hd
    match k with
    | 0 => simp at hd; subst hd; decide
    | 1 => simp at hd; subst hd; decide
    | 2 => simp at hd; subst hd; decide
    | n + 3 => simp at hd

theorem case_tile : TileOf ⟨2, 3⟩ [.z, .yI, .x] [79, 4, 5] [79, 9, 15] := by
  refine ⟨rfl, rfl, ?_⟩
  intro k d c t hd hc ht
  match k with
  | 0 => simp at hd hc ht; subst hd hc ht; decide
  | 1 => simp at hd hc ht; subst hd hc ht; decide
  | 2 => simp at hd hc ht; subst hd hc ht; decide
  | n + 3 => simp at hd

theorem case_point : InExtent [79, 9, 15] [3, 4, 14] := by
  refine ⟨rfl, ?_⟩
  intro k i n hi hn
  match k with
  | 0 => simp at hi hn; omega
  | 1 => simp at hi hn; omega
  | 2 => simp at hi hn; omega
  | k + 3 => simp at hi

/-- The point (4, 14) of the horizontal plane, on the line between two rows of ranks, belongs to exactly one rank. -/
example := C02_slices_partition ⟨2, 3⟩ case_safe _ 1 2 case_axes _ _ case_tile _ case_point
example := C03_overlap_shape_and_cover ⟨2, 3⟩ case_safe _ 1 2 case_axes _ _ case_tile
/-- Interface row 4 is shared by the ranks (0, 1) and (1, 1). -/
example := C03_overlap_sharing ⟨2, 3⟩ case_safe _ _ _ case_tile 1 .yI 4 9 rfl rfl rfl (by decide) (0, 1) 4
  (by decide) (by decide) (by decide) (0, 5) (by decide +kernel)
example := C04_cube_slices_partition ⟨2, 3⟩ case_safe _ 1 2 case_axes _ _ case_tile 5 (by decide) (by decide) _ case_point
example := C04_cube_slice_error ⟨2, 3⟩ (by decide) (by decide) 7 .x [.y] [4, 3] false

theorem case_rank : RankOf [.z, .yI, .x] [79, 4, 5] [79, 5, 5] := by
  refine ⟨rfl, rfl, ?_⟩
  intro k d c t hd hc ht
  match k with
  | 0 => simp at hd hc ht; subst hd hc ht; decide
  | 1 => simp at hd hc ht; subst hd hc ht; decide
  | 2 => simp at hd hc ht; subst hd hc ht; decide
  | n + 3 => simp at hd

example := C05_subtile_of_global_partial ⟨2, 3⟩ case_safe _ _ _ case_rank (by
  intro k d c hd hc
  match k with
  | 0 => simp at hd hc; subst hd hc; decide
  | 1 => simp at hd hc; subst hd hc; decide
  | 2 => simp at hd hc; subst hd hc; decide
  | n + 3 => simp at hd)
example := C05_global_of_subtile_partial ⟨2, 3⟩ case_safe _ _ _ case_tile
example := C05_safe_iff ⟨2, 3⟩ (by decide) (by decide) (by decide) (by decide)
example := C05_refuted_powers 3 (by decide)

/-! ### C06 to C10, C49 -/

example := C06_tile_boundary_periodic ⟨2, 3⟩ (by decide) (by decide) .nw 3 (by decide) (by decide)
example := C07_nonsquare_raises ⟨2, 3⟩ .north rfl 4 (by decide)
example := (C07_cube_boundary_closed ⟨2, 2⟩ (by decide) rfl .nw 2 1 0 (by decide)).1 (by unfold AtCorner; decide)
example := (C07_cube_boundary_closed ⟨2, 2⟩ (by decide) rfl .west 2 1 0 (by decide)).2 (by unfold AtCorner; decide)
example := C08_boundary_reciprocal ⟨3, 3⟩ (by decide) rfl 8 (by decide) (by decide) .north ⟨.north, 8, 18, 3⟩ (by decide +kernel)
example := C09_distinct_neighbours ⟨3, 3⟩ (by decide) rfl 8 (by decide) (by decide) .north .west ⟨.north, 8, 18, 3⟩
  ⟨.west, 8, 7, 0⟩ (by decide +kernel) (by decide +kernel)
example := C10_cube_geometry ⟨3, 3⟩ (by decide) rfl 8 (by decide) (by decide) .north ⟨.north, 8, 18, 3⟩ (by decide +kernel)
  0 2 2 2 0 0 (by decide +kernel) (by decide) (by decide +kernel) (by decide)
example := C49_transforms_positions ⟨3, 2⟩ 2 1 (by decide) (by decide) (by decide) (by decide)

/-! ### C12 to C14 -/

example := (C12_slice_or_error exQ exQ_wf.toLens .nw 2).1 (by decide)
example := (C12_slice_or_error exQ exQ_wf.toLens .nw 3).2.1 (by decide)
example := (C12_slice_or_error exQ exQ_wf.toLens .se 2).2.2.1 (by decide)
example := C12_recv_outside_disjoint exQ 0 1 exQ_axes exQ_wf .nw 2 [5, 1, 1] (by unfold InRecv Quantity.ndim; decide)
example := C12_send_inside exQ .se 2 (by unfold Quantity.ndim; decide) [2, 4, 1] (by unfold InSend Quantity.ndim; decide)
example := (C12_in_bounds exQ exQ_wf.toLens .nw 2 [5, 1, 1]).1 (by decide) (by unfold InRecv Quantity.ndim; decide)
example := C13_rotate_turns exQ.data exQ.dims 0 1 exQ_axes rfl 3
example := C13_rotation_identity exQ.data exQ.dims (-8) (by decide)
example := C14_vector_turns (⟨[7, 8, 2], fun i => (i.getD 0 0 : Int)⟩ : NDArray Int) ⟨[8, 7, 2], fun i => (i.getD 1 0 : Int)⟩
  exQ.dims 0 1 exQ_axes rfl rfl 1

example := C49_transforms_permute ⟨2, 2⟩ (by decide) 3 (by decide) (by decide)
example := C49_errors ⟨3, 2⟩ 7 (.inr (by decide)) 2 (by decide)

end FV3
