import Verif.Props.Halo
import Verif.Props.Errors
import Verif.Props.VectorHalo
import Verif.Props.Sync
import Verif.Props.Net
import Verif.Props.Protocol
import Verif.Props.Scatter
import Verif.Props.CollState

/-!
# Concrete cases of the theorems about communication (C15 to C27)

Every `example` applies a theorem to concrete arguments, which shows that its hypotheses can be met.
-/

namespace FV3

/-! ### C15 to C20 -/

/-- A different number at every point of the cube. -/
def caseField : Vec3 → (Nat → Int) → Int := fun P o => 10000 * P.x + 100 * P.y + P.z + o 2

example (buf : Buffering) := C15_halo_update (l := ⟨2, 2⟩) (h := 2) (by decide) rfl (by decide) (by decide)
  (exField_scalar ⟨2, 2⟩ caseField 0) buf
example (buf : Buffering) := C16_only_halo_changed (l := ⟨2, 2⟩) (h := 2) (by decide) rfl (by decide) (by decide)
  (exField_scalar ⟨2, 2⟩ caseField 0) buf
example (buf : Buffering) := C17_idempotent (l := ⟨2, 2⟩) (h := 2) (by decide) rfl (by decide) (by decide)
  (exField_scalar ⟨2, 2⟩ caseField 0) buf

/-- The one rank of a tile of 6 x 6 cells, with one halo point, holding the same field as the four ranks of
`exFieldMem ⟨2, 2⟩`. -/
def caseWholeQ (F : Vec3 → (Nat → Int) → Int) (r : Int) : Quantity Int :=
  let q0 : Quantity Int :=
    { data := ⟨[9, 8, 2], fun _ => 0⟩, dims := [.y, .x, .z], units := "m", origin := [1, 1, 0], extent := [6, 6, 2] }
  { q0 with data := ⟨[9, 8, 2], fun idx =>
      F (pos 6 (match tileIndex ⟨1, 1⟩ r with | .ok t => t | .error _ => 0)
        (q0.tilePos 6 (subtileIndex ⟨1, 1⟩ r).2 idx 1) (q0.tilePos 6 (subtileIndex ⟨1, 1⟩ r).1 idx 0))
        (q0.otherPos 0 1 idx)⟩ }

def caseWholeMem (F : Vec3 → (Nat → Int) → Int) : Int → Mem Int := fun r _ => caseWholeQ F r

theorem caseWhole_scalar (F : Vec3 → (Nat → Int) → Int) (q : Nat) : ScalarField ⟨1, 1⟩ (caseWholeMem F) q 0 1 6 1 := by
  refine ⟨fun r _ => ⟨⟨⟨rfl, rfl, rfl⟩, ?_⟩, exField_axes, rfl, rfl, ?_, ?_⟩, fun _ _ _ _ => rfl,
    fun _ _ _ _ _ _ _ _ => rfl, fun _ _ => rfl⟩
  · show ∀ k, k < 3 → 0 ≤ ([1, 1, 0] : List Int).getD k 0 ∧ 0 ≤ ([6, 6, 2] : List Int).getD k 0 ∧
      ([1, 1, 0] : List Int).getD k 0 + ([6, 6, 2] : List Int).getD k 0 ≤ (([9, 8, 2] : List Nat).getD k 0 : Nat)
    decide
  · show (1 : Int) ≤ 1 ∧ (1 : Int) + 6 + 1 ≤ 9
    decide
  · show (1 : Int) ≤ 1 ∧ (1 : Int) + 6 + 1 ≤ 8
    decide

theorem caseWhole_sample (F : Vec3 → (Nat → Int) → Int) (q : Nat) : SampleOf ⟨1, 1⟩ (caseWholeMem F) q 0 1 6 F := by
  rintro r idx P others ⟨h1, h2, t, a, b, h3, h4⟩
  rw [← h2, ← h4, h3.x, h3.y]
  show F (pos 6 (match tileIndex ⟨1, 1⟩ r with | .ok t => t | .error _ => 0) _ _) _ = _
  rw [h3.tile]
  rfl

/-- Four ranks and one rank per tile holding the same field get the same halo values. -/
example (buf buf' : Buffering) := C17_layout_independent (l := ⟨2, 2⟩) (l' := ⟨1, 1⟩) (h := 2) (h' := 1) (by decide) rfl
  (by decide) (by decide) (exField_scalar ⟨2, 2⟩ caseField 0) (by decide) rfl (by decide) (by decide)
  (caseWhole_scalar caseField 0) rfl
  (fun _ _ _ _ _ _ o o' => (exField_sample _ _ _ _ _ _ _ o).trans (caseWhole_sample _ _ _ _ _ _ o').symm) buf buf'

/-- Three halo points do not fit in the example vector, which has two. -/
theorem case_unfit (l : Layout) (V : Vec3 → (Nat → Int) → Vec3 → Int) (r : Int) :
    ¬ (HaloFits (exWindMem l V r 0) 1 2 3 ∧ HaloFits (exWindMem l V r 1) 1 2 3) := by
  rintro ⟨⟨⟨h1, -⟩, -⟩, -⟩
  have : (3 : Int) ≤ 2 := h1
  omega

example (V : Vec3 → (Nat → Int) → Vec3 → Int) := C18_out_of_bounds_vector (l := ⟨2, 2⟩) (r := 5)
  (s := ⟨exWindMem ⟨2, 2⟩ V 5, 7, []⟩) (x := 0) (y := 1) (ky := 1) (kx := 2) (h := 3) (by decide) rfl (by decide)
  (exWind_ready ⟨2, 2⟩ V 5 0 (by simp)).wf (exWind_ready ⟨2, 2⟩ V 5 1 (by simp)).wf (exWind_axes 0) (exWind_axes 1) rfl
  (by decide) (case_unfit _ _ _)

/-- Rank 5 calls with three halo points; here all other ranks have returned already. -/
example (F : Vec3 → (Nat → Int) → Int) (buf : Buffering) (sched : List Int) (T : Net (Msg Int) (Py Unit × RankState Int)) :=
  let s : RankState Int := ⟨exFieldMem ⟨2, 2⟩ F 5, 7, []⟩
  C18_out_of_bounds_net (l := ⟨2, 2⟩) (r := 5) (s := s) (q := 0) (ky := 0) (kx := 1) (h := 3) (by decide) rfl (by decide)
    ((exField_scalar ⟨2, 2⟩ F 0).ready 5 (by decide)).wf exField_axes (by decide)
    (by rintro ⟨⟨h1, -⟩, -⟩
        have : (3 : Int) ≤ 2 := h1
        omega)
    ⟨fun r => if r = 5 then haloUpdate ⟨2, 2⟩ 5 0 3 s else .ret (.ok (), s), fun _ _ _ => [], fun _ _ _ => 0⟩ T rfl buf sched

/-- A vector field on the cube: the component in direction `e` of a field which depends on the place. -/
def caseWind : Vec3 → (Nat → Int) → Vec3 → Int := fun P o e => (P.x + o 0) * e.x + 3 * P.y * e.y + P.z * P.x * e.z

theorem caseWind_neg (P : Vec3) (o : Nat → Int) (e : Vec3) : caseWind P o e.neg = -caseWind P o e := by
  simp only [caseWind, Vec3.neg, Int.mul_neg, Int.neg_add]

example (buf : Buffering) := C19_vector_halo_update (l := ⟨2, 2⟩) (h := 2) (by decide) rfl (by decide) (by decide)
  (by decide) (exWind_vector ⟨2, 2⟩ caseWind) buf
example (buf : Buffering) := C19_vector_halo_update_field (l := ⟨2, 2⟩) (h := 2) (by decide) rfl (by decide) (by decide)
  (by decide) (exWind_vector ⟨2, 2⟩ caseWind) buf caseWind caseWind_neg (exWind_sample ⟨2, 2⟩ caseWind)
example (f : Int → Nat → List Nat → Int) (buf : Buffering) := C20_synchronize (l := ⟨2, 2⟩) (by decide) rfl
  (exEdge_field ⟨2, 2⟩ f) buf
/-- A scalar on cell centres cannot be synchronised. -/
example (F : Vec3 → (Nat → Int) → Int) := C20_not_cgrid ⟨2, 2⟩ 5 0 1 ⟨exFieldMem ⟨2, 2⟩ F 5, 0, []⟩
  (by rintro ⟨-, h, -⟩; exact absurd (show Dim.yI ∈ [Dim.y, .x, .z] from h) (by decide))

/-! ### C21 -/

/-- The state in which the example network of two ranks ends. -/
def caseEnd : Net Nat Nat :=
  ((exNet.run (fun _ _ _ _ => false) [0, 1, 0, 1, 0]).getD exNet)

theorem caseEnd_run : exNet.run (fun _ _ _ _ => false) [0, 1, 0, 1, 0] = some caseEnd := rfl

theorem caseEnd_rets (r : Int) : caseEnd.procs r = .ret (if r = 0 then 20 else if r = 1 then 10 else 0) := by
  by_cases h0 : r = 0
  · subst h0; rfl
  · by_cases h1 : r = 1
    · subst h1; rfl
    · show (if r = _ then _ else _) = _
      simp [exNet, exProcs, updRank, h0, h1]

theorem caseEnd_stuck : caseEnd.Stuck fun _ _ _ _ => false := fun r => by simp [Net.step, caseEnd_rets r]

example (A : Net Nat Nat) (hA : exNet.run (fun _ _ _ _ => false) [1, 0] = some A) :=
  C21_schedule_independent (fun _ _ _ _ => false) exNet caseEnd _ caseEnd_run caseEnd_stuck [1, 0] A hA
example : (exNet.run (fun _ _ _ _ => false) [1, 0]).isSome = true := by decide
example (T' : Net Nat Nat) (s' : List Int) :=
  C21_unique_outcome (fun _ _ _ _ => false) exNet caseEnd T' _ s' caseEnd_run caseEnd_stuck
example (T' : Net Nat Nat) (s' : List Int) :=
  C21_no_deadlock (fun _ _ _ _ => false) exNet caseEnd _ _ caseEnd_run caseEnd_rets s' T'

/-! ### C22, C23 -/

section
variable (F : Vec3 → (Nat → Int) → Int) (f : Int → Nat → List Nat → Int)

theorem caseTwo_ready : ∀ op ∈ [(.halo 2 2 : Op Int), .halo 3 2], UpdateReady ⟨2, 2⟩ (exMixMem ⟨2, 2⟩ F f) op := by
  intro op ho
  simp only [List.mem_cons, List.not_mem_nil, or_false] at ho
  rcases ho with rfl | rfl <;> exact ⟨0, 1, 3, by decide, by decide, exMix_scalar _ _ _ _ (by decide)⟩

theorem caseTwo_disjoint : DisjointUpdates [(.halo 2 2 : Op Int), .halo 3 2] := by
  intro j k a b ha hb hjk q hqa hqb
  match j, k with
  | 0, 0 => simp at hjk
  | 0, 1 => simp at ha hb; subst ha hb; simp [Op.qs] at hqa hqb; omega
  | 1, 0 => simp at ha hb; subst ha hb; simp [Op.qs] at hqa hqb; omega
  | 1, 1 => simp at hjk
  | j + 2, _ => simp at ha
  | _, k + 2 => simp at hb

theorem caseTwo_starts (r : Int) : startsOf (exTwo (α := Int) r) = [.halo 2 2, .halo 3 2] := by
  unfold exTwo; split <;> rfl

theorem caseTwo_waits (r : Int) : WaitsStarted (exTwo (α := Int) r) := by
  intro d i hd
  unfold exTwo at hd ⊢
  split at hd <;> rename_i hr <;> simp only [hr, if_false, if_true]
  all_goals
    match d with
    | 0 => simp at hd
    | 1 => simp at hd
    | 2 => simp at hd; subst hd; decide
    | 3 => simp at hd; subst hd; decide
    | d + 4 => simp at hd

theorem caseTwo_once (r : Int) : WaitsOnce (exTwo (α := Int) r) := by
  unfold exTwo WaitsOnce; split <;> decide

theorem caseTwo_keep (P : Int → Mem Int → Prop) (r : Int) : ComputesKeep ⟨2, 2⟩ P (exTwo (α := Int) r) := by
  intro g hg; unfold exTwo at hg; split at hg <;> simp at hg

/-- All ranks run the program of the even ones, with any buffering. -/
example (buf : Buffering) := C22_same_order (l := ⟨2, 2⟩) (m := exMixMem ⟨2, 2⟩ F f) (ops := exTwo 0) (by decide) rfl
  (fun op ho => by
    have ho' : op ∈ [(.halo 2 2 : Op Int), .halo 3 2, .wait 0, .wait 1] := ho
    simp only [List.mem_cons, List.not_mem_nil, or_false] at ho'
    rcases ho' with rfl | rfl | rfl | rfl
    · exact caseTwo_ready F f _ (by simp)
    · exact caseTwo_ready F f _ (by simp)
    · trivial
    · trivial)
  (caseTwo_waits 0) (caseTwo_once 0) (caseTwo_keep _ 0) buf
/-- Odd ranks wait in the opposite order; sends are buffered. -/
example := C23_outstanding (l := ⟨2, 2⟩) (m := exMixMem ⟨2, 2⟩ F f) (prog := exTwo) (by decide) rfl (caseTwo_ready F f)
  (fun r _ => caseTwo_starts r) (fun r _ => caseTwo_waits r) (fun r _ => caseTwo_once r) (fun r _ => caseTwo_keep _ r)
  (fun _ _ _ _ => true) (fun _ _ _ _ _ _ => rfl)
example := C23_as_alone (l := ⟨2, 2⟩) (m := exMixMem ⟨2, 2⟩ F f) (prog := exTwo) (by decide) rfl (caseTwo_ready F f)
  caseTwo_disjoint (fun r _ => caseTwo_starts r) (fun r _ => caseTwo_waits r) (fun r _ => caseTwo_once r)
  (fun r _ k hk => by
    unfold exTwo
    have : k = 0 ∨ k = 1 := by simp at hk; omega
    rcases this with rfl | rfl <;> split <;> simp)
  (fun r _ => caseTwo_keep _ r) (fun r _ => by intro g hg; unfold exTwo at hg; split at hg <;> simp at hg)
  (fun _ _ _ _ => true) (fun _ _ _ _ _ _ => rfl)

end

/-! ### C25 to C27 -/

theorem case_comm_safe : FloatSafe (Comm.cube ⟨1, 2⟩).layout :=
  C05_safe_up_to_48 _ (by decide) (by decide) (by decide) (by decide)

example (buf : Buffering) := C25_root_error_hangs buf (.cube ⟨1, 2⟩) (fun _ => 0) (fun _ => (none : Option (Quantity Nat)))
  (fun r => if r = 11 then some exPart else none) rfl
/-- Every rank sends `exPart`, the root rank receives into `exGlobal`. -/
example (buf : Buffering) := C26_gather buf (.cube ⟨1, 2⟩) case_comm_safe (fun _ => 0) [.y, .xI] [2, 3] 0 1 exAxes
  (by intro k hk
      have : k = 0 ∨ k = 1 := by simp at hk; omega
      rcases this with rfl | rfl <;> decide)
  (fun _ => exPart) (fun r => if r = 0 then some exGlobal else none) (fun _ _ => exPart_shaped)
  (by intro q hq; cases hq; exact exGlobal_shaped) (fun h => by cases h)
example (buf : Buffering) := C26_round_trip buf (.cube ⟨1, 2⟩) case_comm_safe (fun _ => 0) (fun _ => 0) [.y, .xI] [2, 3] 0 1
  exAxes exGlobal exGlobal_shaped (fun r => if r = 0 then some exGlobal else none)
  (fun r => if r = 11 then some exPart else none) (fun _ => none) rfl
  (by intro r _ q hq
      split at hq
      · cases hq; exact exPart_shaped
      · cases hq)
  (fun _ h => nomatch h) (by intro _ q hq; cases hq)
/-- Rank 4 has the quantities under other names than rank 0 expects: nothing tells the difference. -/
example := C27_gather_by_position (.cube ⟨1, 2⟩) (fun _ => 0) 4 (by decide) none
  [("u", .qty exPart), ("T", .qty exPart)] [("v", .qty exPart), ("u", .qty exPart)] rfl (by decide) (by decide)

end FV3
