import Verif.Props.TileComm
import Verif.Props.OpenRestart
import Verif.Props.CommTimer
import Verif.Props.Driver
import Verif.Props.DriverSteps
import Verif.Props.Strided
import Verif.Props.Session
import Verif.Props.AsyncSession

/-!
# Concrete cases of the theorems about tiles, restarts, model runs, memory layouts and sessions (C51 to C57)

Every `example` applies a theorem to concrete arguments, which shows that its hypotheses can be met.
-/

namespace FV3

/-! ### C51 to C53 -/

example := C51_tile_communicator ⟨1, 2⟩ (by decide) (by decide) 9 (by decide) (by decide)

theorem case_safe12 : FloatSafe ⟨1, 2⟩ := C05_safe_up_to_48 _ (by decide) (by decide) (by decide) (by decide)

/-- A field on one tile: 2 rows, 7 interface columns. -/
def caseTileQ : Quantity Nat :=
  { data := ⟨[4, 9], fun i => i.foldl (fun a k => 10 * a + k) 0⟩, dims := [.y, .xI], units := "m", origin := [1, 1], extent := [2, 7] }

theorem caseTileQ_shaped : caseTileQ.GlobalShaped (.tile ⟨1, 2⟩) [.y, .xI] [2, 3] := by
  refine ⟨⟨⟨rfl, rfl, rfl⟩, by unfold Quantity.ndim Quantity.o Quantity.e Quantity.n; decide⟩, rfl, rfl, rfl, ?_⟩
  intro k d c t hd hc ht
  match k with
  | 0 => simp [caseTileQ] at hd hc ht; subst hd hc ht; decide
  | 1 => simp [caseTileQ] at hd hc ht; subst hd hc ht; decide
  | k + 2 => simp at hd

/-- Every tile scatters a field at the same time. -/
example (buf : Buffering) : ∃ out : Int → Py (Quantity Nat), TilesReturn buf ⟨1, 2⟩ (fun _ i => scatter (.tile ⟨1, 2⟩) (fun _ => 0) i
    (if i = 0 then some caseTileQ else none) none) out := by
  have h := fun t : Int => C25_scatter (fun s d tag i => buf (t * 2 + s) (t * 2 + d) tag i) (.tile ⟨1, 2⟩) case_safe12 (fun _ => 0)
    [.y, .xI] [2, 3] (by decide) caseTileQ caseTileQ_shaped (fun i => if i = 0 then some caseTileQ else none) (fun _ => none) rfl
    (fun _ _ _ h => nomatch h)
  choose out h1 _ using h
  refine ⟨fun r => .ok (out (r / 2) (r % 2)), C51_tiles_independent buf ⟨1, 2⟩ (by decide) (by decide) _
    (fun _ i => scatter_within (c := .tile ⟨1, 2⟩) (by decide) _ _ _ _) _ fun t _ _ => ?_⟩
  have e : (fun r => if r ∈ (Comm.tile ⟨1, 2⟩).ranks then some (.ok (out t r)) else none) =
      fun r => if r ∈ (Comm.tile ⟨1, 2⟩).ranks then some (.ok (out ((t * 2 + r) / 2) ((t * 2 + r) % 2)) : Py (Quantity Nat)) else none := by
    funext r
    split
    · next hr =>
      have : r = 0 ∨ r = 1 := by simpa using (show r ∈ ([0, 1] : List Int) from hr)
      rcases this with rfl | rfl
      · rw [show (t * 2 + 0) / 2 = t by omega, show (t * 2 + 0) % 2 = 0 by omega]
      · rw [show (t * 2 + 1) / 2 = t by omega, show (t * 2 + 1) % 2 = 1 by omega]
    · rfl
  have := h1 t
  unfold Comm.Returns at this ⊢
  rw [e] at this
  exact this

namespace Restart

example := C52_loaded exFs (fun _ => 0) exConstruct exTable exArgs 1 (fun f _ => exFs_loadable f) none
  (by rintro ⟨h, -⟩; exact absurd (show false = true from h) (by decide)) (fun _ => rfl)

/-- Without its files tile 2 cannot be loaded: rank 5 waits forever. -/
example (buf : Buffering) (sched : List Int) (N : Net (Msg Nat) (Option (Py (CState Nat)))) := C52_load_failure buf ⟨1, 2⟩
  (by decide) (by decide) { exFs with nc := fun f => if f.getD (f.length - 4) '0' = '3' then none else exFs.nc f }
  (fun _ => 0) exConstruct exTable exArgs (fun _ => 0) (fun _ => none) 2 (by decide) (by decide) _ (by rfl) sched N

end Restart

example (V : Vec3 → (Nat → Int) → Vec3 → Int) (bs : List Boundary) (hb : Cube.boundaries ⟨2, 2⟩ 5 = .ok bs) :=
  C53_vector_halo_update (T := Int) 0 .skip (h := 2) readyClocks_nil hb (exWind_ready ⟨2, 2⟩ V 5 0 (by simp))
    (exWind_ready ⟨2, 2⟩ V 5 1 (by simp)) rfl (by decide) (by decide) fun _ _ => true
example : ∃ bs, Cube.boundaries ⟨2, 2⟩ 5 = .ok bs ∧ bs.length = 7 := ⟨_, rfl, by decide +kernel⟩

/-! ### C55 -/

section
variable (buf : Buffering) (F : Vec3 → (Nat → Int) → Int)

theorem case_back : ∀ q, (fun r : Int => if r = 0 then some (exRunG 6 F) else none) 0 = some q →
    q.GlobalShaped (.cube ⟨2, 2⟩) [.y, .x] [((3 : Nat) : Int), (3 : Nat)] := by
  intro q hq; cases hq; exact (exSession_run 0 F 0).globl

example := C55_model_run buf (fun _ => 0) (fun _ => 0) (exSession_run 0 F 0)
  (fun r => if r = 0 then some (exRunG 6 F) else none) (fun r => if r = 0 then some (exRunG 6 F) else none) rfl (case_back F)
  [.haloUpdate 0 1, .haloUpdate 0 1] (by
    intro c hc
    simp only [List.mem_cons, List.not_mem_nil, or_false, or_self] at hc
    subst hc
    exact ⟨rfl, by decide, by decide⟩)
example := C55_halo_of_global buf (fun _ => 0) (fun _ => 0) (exSession_run 0 F 0)
  (fun r => if r = 0 then some (exRunG 6 F) else none) (fun r => if r = 0 then some (exRunG 6 F) else none) rfl (case_back F)
example := C55_time_steps buf (fun _ => 0) (fun _ => 0) (exSession_run 0 F 0)
  (fun r => if r = 0 then some (exRunG 6 F) else none) (fun _ => none) rfl (fun _ h => nomatch h)
  exNext _ (exRun_stencil (C05_safe_up_to_48 ⟨2, 2⟩ (by decide) (by decide) (by decide) (by decide)) rfl (n := 3) (N := 6)
    (by decide) (by decide) 0 0) F (exRun_sample 6 F) 10

end

/-! ### C56 -/

namespace Strided

example := C56_contiguous_iff ⟨105, [2, 2], [5, 1]⟩ rfl
example := C56_recv_too_long (fun a => a) 0 ⟨105, [2, 2], [5, 1]⟩ [1, 2, 3, 4, 5] (by decide)
example := C56_transfer (fun a => a) (fun _ => 7) 1000 2000 ((fresh 0 [2, 3]).rot90 1 0 1) ⟨105, [3, 2], [5, 1]⟩ rfl rfl
  (C56_views (ViewOf.slice (fresh 100 [4, 5]) [.slice (PySlice.of 1 4), .slice (PySlice.of 0 2)]
    [.slice 1 1 3, .slice 0 1 2] .whole (by decide))).injective rfl
example := C56_view_values (fun a => a) ⟨105, [3, 2], [5, 1]⟩ rfl
example := C56_scatter_pieces (a := (⟨[6, 2, 3], fun i => i.getD 0 0⟩ : NDArray Nat)) rfl

end Strided

/-! ### C57 -/

section
variable (buf : Buffering) (F : Vec3 → (Nat → Int) → Int)

theorem case_filled : ∀ g ∈ [0], ∃ v, (fun (r : Int) g => if r = 0 ∧ g = 0 then some (exRunG 6 F) else none) 0 g = some v :=
  fun g hg => ⟨exRunG 6 F, by show (if _ then _ else _) = _; rw [if_pos ⟨rfl, List.mem_singleton.1 hg⟩]⟩

example := C57_async (C05_safe_up_to_48 ⟨2, 2⟩ (by decide) (by decide) (by decide) (by decide)) rfl buf (fun _ _ => 0)
  (exRunMem 3 0) (fun r g => if r = 0 ∧ g = 0 then some (exRunG 6 F) else none) exParts [0] (exSession_glob F 0)
  (case_filled F) _ (exAsync_valid 0)
example := C57_outstanding (C05_safe_up_to_48 ⟨2, 2⟩ (by decide) (by decide) (by decide) (by decide)) rfl buf (fun _ _ => 0)
  (exRunMem 3 0) (fun r g => if r = 0 ∧ g = 0 then some (exRunG 6 F) else none) exParts [0] (exSession_glob F 0)
  (case_filled F) exBefore exBetween (.halo 0 1) rfl (exAsync_valid 0)

theorem case_vector : VectorField ⟨2, 2⟩ (exRunMem 3 (0 : Int)) 1 2 0 1 3 1 :=
  have R := exSession_run (0 : Int) fun _ _ => 0
  ⟨(R 1).field.ready, (R 2).field.ready, fun _ _ _ _ => rfl, fun _ _ _ _ => rfl,
    fun _ _ => rfl, fun _ _ _ _ _ _ _ _ => rfl, fun _ _ => rfl, fun _ _ => rfl⟩

/-- A vector halo update with a gather between its start and its wait. -/
example := C57_outstanding_vector (C05_safe_up_to_48 ⟨2, 2⟩ (by decide) (by decide) (by decide) (by decide)) rfl buf (fun _ _ => 0)
  (exRunMem 3 0) (fun r g => if r = 0 ∧ g = 0 then some (exRunG 6 F) else none) exParts [0] (exSession_glob F 0)
  (case_filled F) [.scatter 1 0] [.gather 1 1] (x := 1) (y := 2) (by decide) (by decide) (by decide) case_vector (by
    refine ⟨⟨⟨by simp, exSession_parts _ _ _⟩, ⟨0, 1, 3, by decide, by decide, case_vector⟩, exSession_parts _ _ _, trivial, trivial⟩, ?_, ?_⟩
    · show WaitsStarted [.vector 1 2 1, .wait 0]
      intro d i hd
      match d, hd with
      | 1, hd => simp at hd; subst hd; show 0 < 1; decide
      | d + 2, hd => simp at hd
    · show ([0] : List Nat).Nodup
      decide)

/-- A synchronisation with a computation between its start and its wait. -/
example (f : Int → Nat → List Nat → Int) := C57_outstanding_sync
  (C05_safe_up_to_48 ⟨2, 2⟩ (by decide) (by decide) (by decide) (by decide)) rfl buf (fun _ _ => 0)
  (exEdgeMem f) (fun _ _ => none) exParts [] (fun _ _ h => nomatch h) (fun _ h => nomatch h) [] [.op (.compute fun _ m => m)]
  (exEdge_field ⟨2, 2⟩ f) (by
    refine ⟨⟨⟨0, 1, 3, exEdge_field ⟨2, 2⟩ f⟩, fun r _ mem hm => hm, trivial, trivial⟩, ?_, ?_⟩
    · show WaitsStarted [.sync 0 1, .compute _, .wait 0]
      intro d i hd
      match d, hd with
      | 2, hd => simp at hd; subst hd; show 0 < 1; decide
      | d + 3, hd => simp at hd
    · show ([0] : List Nat).Nodup
      decide)

/-- A checkpoint of a quantity on cell centres: no point is shared. -/
example (G : Int → Nat → List Nat → Int) := C57_checkpoint
  (C05_safe_up_to_48 ⟨2, 2⟩ (by decide) (by decide) (by decide) (by decide)) rfl buf
  (fun _ _ => 0) (exAnyMem 0 G) (fun _ _ => none) exParts [] (fun _ _ h => nomatch h) (fun _ h => nomatch h) 0 1
  [.call (.compute exNext), .gather 0 2]
  ⟨exAny_parts 0 G 0 1, fun r _ mem hm q' => ⟨(hm q').shape, (hm q').dims, (hm q').units, (hm q').origin, (hm q').extent⟩,
    exAny_parts 0 G 0 2, ⟨by simp, exAny_parts 0 G 0 1⟩, trivial⟩
  (by intro q' h; simp at h)
  (by
    have hp := exAny_parts 0 G 0 1
    intro r hr r' hr' rel rel' h h' he
    obtain ⟨rfl, rfl⟩ := place_injective (C05_safe_up_to_48 ⟨2, 2⟩ (by decide) (by decide) (by decide) (by decide))
      (ky := 0) (kx := 1) (exSession_run (0 : Int) (fun _ _ => 0) 0).axes (by decide) hr hr'
      (show InB (rankShape (exParts 1).dims (exParts 1).cells) rel by rw [← rankOf_shape (hp.shaped r hr).extent]; exact h)
      (show InB (rankShape (exParts 1).dims (exParts 1).cells) rel' by rw [← rankOf_shape (hp.shaped r' hr').extent]; exact h') he
    rfl)

end

end FV3
