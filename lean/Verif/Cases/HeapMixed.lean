import Verif.Props.HeapMixed
import Verif.Cases.HeapComm

/-!
# Cases of C85
-/

namespace FV3
namespace Heap
open Mem (World Gt4py Reachable)

/-- A field on the cube. -/
def cubeField : Fld Int := fun P _ _ => P.x + 10 * P.y + 100 * P.z

/-- One rank per tile with 2 x 2 cells and one halo point.  0: an array with the field on all tiles; 1: the global quantity, in
this array; 2: the part of the array for tile 3; 3: the quantity of the rank, in this part. -/
def cubeOps : List (Mem.Op Int) :=
  [.array ⟨[6, 4, 5], fun i => cubeField (pos 2 (i.getD 0 0) (2 * (i.getD 2 0) - 1) (2 * (i.getD 1 0) - 1)) (fun _ => 0) ⟨0, 0, 0⟩⟩ false,
   .quantity 0 [.tile, .y, .x] "K" (some [0, 1, 1]) (some [6, 2, 2]) none,
   .getItem 0 .self [.int 3],
   .quantity 2 [.y, .x] "K" (some [1, 1]) (some [2, 2]) none]

def cubeW (_ : Int) : World Int := (World.init fun _ => 0).after Mem.demo cubeOps

theorem cubeW_global (r : Int) : dataOf (cubeW r) 1 =
    .ok (0, ⟨⟨0, [6, 4, 5], [20, 5, 1]⟩, false, true⟩, ⟨[.tile, .y, .x], "K", [0, 1, 1], [6, 2, 2], none⟩) := rfl

theorem cubeW_part (r : Int) : dataOf (cubeW r) 3 =
    .ok (1, ⟨⟨60, [4, 5], [5, 1]⟩, false, true⟩, ⟨[.y, .x], "K", [1, 1], [2, 2], none⟩) := rfl

theorem cubeW_reach (r : Int) : Reachable Mem.demo (cubeW r) := ⟨_, _, rfl⟩

theorem cube_shaped (q : Quantity Int) (hs : q.data.shape = [4, 5]) (hd : q.dims = [.y, .x]) (ho : q.origin = [1, 1])
    (he : q.extent = [2, 2]) : q.RankShaped [.y, .x] [2, 2] := by
  obtain ⟨⟨s, f⟩, d, u, o, e⟩ := q
  simp only at hs hd ho he
  subst hs hd ho he
  refine ⟨⟨⟨rfl, rfl, rfl⟩, ?_⟩, rfl, rfl, ?_⟩
  · show ∀ k, k < 2 → 0 ≤ ([1, 1] : List Int).getD k 0 ∧ 0 ≤ ([2, 2] : List Int).getD k 0 ∧
      ([1, 1] : List Int).getD k 0 + ([2, 2] : List Int).getD k 0 ≤ (([4, 5] : List Nat).getD k 0 : Nat)
    decide
  · intro k d c t hd hc ht
    match k with
    | 0 => simp at hd hc; subst hd hc; cases ht; decide
    | 1 => simp at hd hc; subst hd hc; cases ht; decide
    | k + 2 => simp at hd

theorem cube_global (q : Quantity Int) (hs : q.data.shape = [6, 4, 5]) (hd : q.dims = [.tile, .y, .x]) (ho : q.origin = [0, 1, 1])
    (he : q.extent = [6, 2, 2]) : q.GlobalShaped (.cube ⟨1, 1⟩) [.y, .x] [2, 2] := by
  obtain ⟨⟨s, f⟩, d, u, o, e⟩ := q
  simp only at hs hd ho he
  subst hs hd ho he
  refine ⟨⟨⟨rfl, rfl, rfl⟩, ?_⟩, rfl, _, rfl, rfl, rfl, ?_⟩
  · show ∀ k, k < 3 → 0 ≤ ([0, 1, 1] : List Int).getD k 0 ∧ 0 ≤ ([6, 2, 2] : List Int).getD k 0 ∧
      ([0, 1, 1] : List Int).getD k 0 + ([6, 2, 2] : List Int).getD k 0 ≤ (([6, 4, 5] : List Nat).getD k 0 : Nat)
    decide
  · intro k d c t hd hc ht
    match k with
    | 0 => simp at hd hc ht; subst hd hc ht; decide
    | 1 => simp at hd hc ht; subst hd hc ht; decide
    | k + 2 => simp at hd

theorem cubeW_fits : CFits (.cube ⟨1, 1⟩) [.y, .x] [2, 2] cubeW (.scatter 1 fun _ => 3) := by
  refine ⟨by decide, ?_, fun r _ => ⟨?_, rfl⟩⟩
  · rw [quantities_eq (cubeW_global 0)]
    exact cube_global _ rfl rfl rfl rfl
  · rw [quantities_eq (cubeW_part r)]
    exact cube_shaped _ rfl rfl rfl rfl

theorem cubeW_usable (r : Int) : Usable (cubeW r) [3] := by
  refine ⟨fun h hh => ?_, fun h hh => ?_, fun h hh h' hh' hne => absurd ((List.mem_singleton.1 hh).trans (List.mem_singleton.1 hh').symm) hne⟩
  · rw [List.mem_singleton.1 hh]
    exact ⟨⟨[.y, .x], "K", [1, 1], [2, 2], none⟩, rfl, by decide⟩
  · rw [List.mem_singleton.1 hh]
    rfl

theorem cubeW_field : ScalarField ⟨1, 1⟩ (fun r => quantities (cubeW r)) 3 0 1 2 1 :=
  case_field _ _ fun r => ⟨_, rfl, quantities_eq (cubeW_part r)⟩

theorem cubeW_holds : GlobalHolds (quantities (cubeW 0) 1) ⟨[.y, .x], [2, 2]⟩ .scalar 0 1 ((⟨1, 1⟩ : Layout).x * 2) cubeField := by
  rintro p P others ⟨hin, -, hp⟩
  subst hp
  have hin : InB [6, 2, 2] p := hin
  match p, hin with
  | [t, j, i], hin =>
    have h : ∀ t < 6, ∀ j < 2, ∀ i < 2, (quantities (cubeW 0) 1).computeArr.get [t, j, i] =
        cubeField (pos (1 * 2) (t : Int) (2 * (i : Int) + 1 - overlapOf .x) (2 * (j : Int) + 1 - overlapOf .y)) (fun _ => 0) ⟨0, 0, 0⟩ := by
      rw [quantities_eq (cubeW_global 0)]
      decide
    exact h t hin.1 j hin.2.1 i hin.2.2.1

/-- The field is scattered from the root into the parts, and the halos are updated; the part of the root overwrites a part of the
global quantity. -/
example (buf : Buffering) : ∃ W' : Int → World Int,
    ((mixedNet Mem.demo ⟨1, 1⟩ [.collective (.scatter 1 fun _ => 3), .update (.haloUpdate 3 1)] cubeW).Completes buf
      fun r => (.ok (), W' r)) ∧
    ∀ r ∈ allRanks ⟨1, 1⟩, Holds ⟨1, 1⟩ 2 r (quantities (W' r) 3) .scalar 0 1 1 .halo cubeField :=
  C85_field (l := ⟨1, 1⟩) (p := ⟨[.y, .x], [2, 2]⟩) ⟨by decide, by decide, by decide, by decide⟩ rfl (fun r _ => cubeW_reach r)
    (by decide) (by decide) cubeW_fits (fun r _ => cubeW_usable r) cubeW_field
    (fun r _ => by rw [quantities_eq (cubeW_part r)]) rfl rfl cubeW_holds buf

/-- And gathered into the global quantity again. -/
example (buf : Buffering) : ∃ W' : Int → World Int,
    ((mixedNet Mem.demo ⟨1, 1⟩ [.collective (.scatter 1 fun _ => 3), .update (.haloUpdate 3 1), .collective (.gather (fun _ => 3) 1)]
      cubeW).Completes buf fun r => (.ok (), W' r)) ∧
    GlobalHolds (quantities (W' 0) 1) ⟨[.y, .x], [2, 2]⟩ .scalar 0 1 2 cubeField :=
  C85_field_back (l := ⟨1, 1⟩) (p := ⟨[.y, .x], [2, 2]⟩) ⟨by decide, by decide, by decide, by decide⟩ rfl (fun r _ => cubeW_reach r)
    (by decide) (by decide) cubeW_fits (fun r _ => cubeW_usable r) cubeW_field
    (fun r _ => by rw [quantities_eq (cubeW_part r)]) rfl rfl cubeW_holds cubeW_fits.2.1 rfl buf

/-- And another update. -/
example (buf : Buffering) : ∃ W' : Int → World Int,
    XRun Mem.demo ⟨1, 1⟩ [.collective (.scatter 1 fun _ => 3), .update (.haloUpdate 3 1),
      .update (.compute fun r => [.setItem 2 .self [.int 1, .int 2] ⟨[], fun _ => r⟩]), .collective (.gather (fun _ => 3) 1),
      .update (.haloUpdate 3 1)] cubeW W' ∧
    (mixedNet Mem.demo ⟨1, 1⟩ [.collective (.scatter 1 fun _ => 3), .update (.haloUpdate 3 1),
      .update (.compute fun r => [.setItem 2 .self [.int 1, .int 2] ⟨[], fun _ => r⟩]), .collective (.gather (fun _ => 3) 1),
      .update (.haloUpdate 3 1)] cubeW).Completes buf fun r => (.ok (), W' r) := by
  have hu : XReady ⟨1, 1⟩ cubeW (.update (.haloUpdate 3 1)) := fun op ho => by
    cases ho
    exact ⟨fun r _ => cubeW_usable r, 0, 1, 2, by decide, by decide, cubeW_field⟩
  have ha : HAxes [.y, .x] 0 1 := (case_ready (caseQ ⟨[4, 5], fun _ => 0⟩) rfl rfl rfl rfl).axes
  refine C85_calls (l := ⟨1, 1⟩) ⟨by decide, by decide, by decide, by decide⟩ rfl (fun r _ => cubeW_reach r) (fun x hx => ?_) buf
  simp only [List.mem_cons, List.not_mem_nil, or_false] at hx
  rcases hx with rfl | rfl | rfl | rfl | rfl
  · exact ⟨_, _, cubeW_fits⟩
  · exact hu
  · exact fun op ho => by cases ho
  · exact ⟨[.y, .x], [2, 2], ⟨0, 1, ha⟩, cubeW_fits.2.1, rfl, fun r hr => (cubeW_fits.2.2 r hr).1⟩
  · exact hu

/-! ### Winds -/

/-- A wind on the cube: its component along a direction. -/
def cubeWind : Fld Int := fun P _ e => e.x * P.y + e.y * (10 * P.z) + e.z * (7 + P.x)

/-- As before, with the components of a wind.  0 and 2: arrays with the components on all tiles; 1 and 3: the global quantities;
4 and 6: the parts of the arrays for tiles 3 and 2; 5 and 7: the quantities of the rank, in these parts. -/
def windOps : List (Mem.Op Int) :=
  [.array ⟨[6, 4, 5], fun i => cubeWind (pos 2 (i.getD 0 0) (2 * (i.getD 2 0) - 1) (2 * (i.getD 1 0) - 1)) (fun _ => 0)
      (face (i.getD 0 0)).ex⟩ false,
   .quantity 0 [.tile, .y, .x] "m/s" (some [0, 1, 1]) (some [6, 2, 2]) none,
   .array ⟨[6, 4, 5], fun i => cubeWind (pos 2 (i.getD 0 0) (2 * (i.getD 2 0) - 1) (2 * (i.getD 1 0) - 1)) (fun _ => 0)
      (face (i.getD 0 0)).ey⟩ false,
   .quantity 2 [.tile, .y, .x] "m/s" (some [0, 1, 1]) (some [6, 2, 2]) none,
   .getItem 0 .self [.int 3],
   .quantity 4 [.y, .x] "m/s" (some [1, 1]) (some [2, 2]) none,
   .getItem 2 .self [.int 2],
   .quantity 6 [.y, .x] "m/s" (some [1, 1]) (some [2, 2]) none]

def windW (_ : Int) : World Int := (World.init fun _ => 0).after Mem.demo windOps

theorem windW_global (r : Int) : dataOf (windW r) 1 =
    .ok (0, ⟨⟨0, [6, 4, 5], [20, 5, 1]⟩, false, true⟩, ⟨[.tile, .y, .x], "m/s", [0, 1, 1], [6, 2, 2], none⟩) := rfl

theorem windW_global' (r : Int) : dataOf (windW r) 3 =
    .ok (1, ⟨⟨120, [6, 4, 5], [20, 5, 1]⟩, false, true⟩, ⟨[.tile, .y, .x], "m/s", [0, 1, 1], [6, 2, 2], none⟩) := rfl

theorem windW_part (r : Int) : dataOf (windW r) 5 =
    .ok (2, ⟨⟨60, [4, 5], [5, 1]⟩, false, true⟩, ⟨[.y, .x], "m/s", [1, 1], [2, 2], none⟩) := rfl

theorem windW_part' (r : Int) : dataOf (windW r) 7 =
    .ok (3, ⟨⟨160, [4, 5], [5, 1]⟩, false, true⟩, ⟨[.y, .x], "m/s", [1, 1], [2, 2], none⟩) := rfl

theorem windW_reach (r : Int) : Reachable Mem.demo (windW r) := ⟨_, _, rfl⟩

theorem windW_fits : CFits (.cube ⟨1, 1⟩) [.y, .x] [2, 2] windW (.scatter 1 fun _ => 5) := by
  refine ⟨by decide, ?_, fun r _ => ⟨?_, rfl⟩⟩
  · rw [quantities_eq (windW_global 0)]
    exact cube_global _ rfl rfl rfl rfl
  · rw [quantities_eq (windW_part r)]
    exact cube_shaped _ rfl rfl rfl rfl

theorem windW_fits' : CFits (.cube ⟨1, 1⟩) [.y, .x] [2, 2] windW (.scatter 3 fun _ => 7) := by
  refine ⟨by decide, ?_, fun r _ => ⟨?_, rfl⟩⟩
  · rw [quantities_eq (windW_global' 0)]
    exact cube_global _ rfl rfl rfl rfl
  · rw [quantities_eq (windW_part' r)]
    exact cube_shaped _ rfl rfl rfl rfl

/-- The parts for the two components are at different addresses. -/
theorem windW_addr (r : Int) {idx : List Nat} {a : Int} (h : Cell (windW r) 5 idx a) : a < 120 := by
  obtain ⟨x, hx, hin, rfl⟩ := h
  rw [windW_part] at hx
  cases hx
  match idx, hin with
  | [j, i], hin =>
    have : ∀ j < 4, ∀ i < 5, (Strided.View.addr ⟨60, [4, 5], [5, 1]⟩ [j, i] : Int) < 120 := by decide
    exact this j hin.1 i hin.2.1

theorem windW_addr' (r : Int) {idx : List Nat} {a : Int} (h : Cell (windW r) 7 idx a) : 120 ≤ a := by
  obtain ⟨x, hx, hin, rfl⟩ := h
  rw [windW_part'] at hx
  cases hx
  match idx, hin with
  | [j, i], hin =>
    have : ∀ j < 4, ∀ i < 5, 120 ≤ (Strided.View.addr ⟨160, [4, 5], [5, 1]⟩ [j, i] : Int) := by decide
    exact this j hin.1 i hin.2.1

theorem windW_addr_global (r : Int) {idx : List Nat} {a : Int} (h : Cell (windW r) 3 idx a) : 120 ≤ a := by
  obtain ⟨x, hx, hin, rfl⟩ := h
  rw [windW_global'] at hx
  cases hx
  match idx, hin with
  | [t, j, i], hin =>
    have : ∀ t < 6, ∀ j < 4, ∀ i < 5, 120 ≤ (Strided.View.addr ⟨120, [6, 4, 5], [20, 5, 1]⟩ [t, j, i] : Int) := by decide
    exact this t hin.1 j hin.2.1 i hin.2.2.1

theorem windW_usable (r : Int) : Usable (windW r) [5, 7] := by
  refine ⟨fun h hh => ?_, fun h hh => ?_, fun h hh h' hh' hne idx idx' a hc hc' => ?_⟩
  · simp only [List.mem_cons, List.not_mem_nil, or_false] at hh
    rcases hh with rfl | rfl <;> exact ⟨⟨[.y, .x], "m/s", [1, 1], [2, 2], none⟩, rfl, by decide⟩
  · simp only [List.mem_cons, List.not_mem_nil, or_false] at hh
    rcases hh with rfl | rfl <;> rfl
  · simp only [List.mem_cons, List.not_mem_nil, or_false] at hh hh'
    rcases hh with rfl | rfl <;> rcases hh' with rfl | rfl
    · exact hne rfl
    · have := windW_addr r hc; have := windW_addr' r hc'; omega
    · have := windW_addr r hc'; have := windW_addr' r hc; omega
    · exact hne rfl

theorem windW_field : VectorField ⟨1, 1⟩ (fun r => quantities (windW r)) 5 7 0 1 2 1 := by
  have hx := fun r => quantities_eq (windW_part r)
  have hy := fun r => quantities_eq (windW_part' r)
  refine ⟨fun r _ => ?_, fun r _ => ?_, fun r _ r' _ => ?_, fun r _ r' _ => ?_, fun r _ => ?_, fun r _ r' _ k _ _ _ => ?_, fun r _ => ?_,
    fun r _ => ?_⟩
  · rw [hx]; exact case_ready _ rfl rfl rfl rfl
  · rw [hy]; exact case_ready _ rfl rfl rfl rfl
  · rw [hx, hx]
  · rw [hy, hy]
  · rw [hx, hy]; rfl
  · rw [hx, hy]; rfl
  · rw [hx, hy]; rfl
  · rw [hx, hy]; rfl

set_option maxRecDepth 4000 in
theorem windW_holds : GlobalHolds (quantities (windW 0) 1) ⟨[.y, .x], [2, 2]⟩ .x 0 1 ((⟨1, 1⟩ : Layout).x * 2) cubeWind := by
  rintro p P others ⟨hin, -, hp⟩
  subst hp
  have hin : InB [6, 2, 2] p := hin
  match p, hin with
  | [t, j, i], hin =>
    have h : ∀ t < 6, ∀ j < 2, ∀ i < 2, (quantities (windW 0) 1).computeArr.get [t, j, i] =
        cubeWind (pos (1 * 2) (t : Int) (2 * (i : Int) + 1 - overlapOf .x) (2 * (j : Int) + 1 - overlapOf .y)) (fun _ => 0)
          (face (t : Int)).ex := by
      rw [quantities_eq (windW_global 0)]
      decide
    exact h t hin.1 j hin.2.1 i hin.2.2.1

set_option maxRecDepth 4000 in
theorem windW_holds' : GlobalHolds (quantities (windW 0) 3) ⟨[.y, .x], [2, 2]⟩ .y 0 1 ((⟨1, 1⟩ : Layout).x * 2) cubeWind := by
  rintro p P others ⟨hin, -, hp⟩
  subst hp
  have hin : InB [6, 2, 2] p := hin
  match p, hin with
  | [t, j, i], hin =>
    have h : ∀ t < 6, ∀ j < 2, ∀ i < 2, (quantities (windW 0) 3).computeArr.get [t, j, i] =
        cubeWind (pos (1 * 2) (t : Int) (2 * (i : Int) + 1 - overlapOf .x) (2 * (j : Int) + 1 - overlapOf .y)) (fun _ => 0)
          (face (t : Int)).ey := by
      rw [quantities_eq (windW_global' 0)]
      decide
    exact h t hin.1 j hin.2.1 i hin.2.2.1

/-- The components are scattered into the parts, which overwrites some of the global quantities, and the halos are updated. -/
example (buf : Buffering) : ∃ W' : Int → World Int,
    ((mixedNet Mem.demo ⟨1, 1⟩ [.collective (.scatter 1 fun _ => 5), .collective (.scatter 3 fun _ => 7), .update (.vectorHaloUpdate 5 7 1)]
      windW).Completes buf fun r => (.ok (), W' r)) ∧
    ∀ r ∈ allRanks ⟨1, 1⟩, Holds ⟨1, 1⟩ 2 r (quantities (W' r) 5) .x 0 1 1 .halo cubeWind ∧
      Holds ⟨1, 1⟩ 2 r (quantities (W' r) 7) .y 0 1 1 .halo cubeWind :=
  C85_wind (l := ⟨1, 1⟩) (px := ⟨[.y, .x], [2, 2]⟩) (py := ⟨[.y, .x], [2, 2]⟩) ⟨by decide, by decide, by decide, by decide⟩ rfl
    (fun r _ => windW_reach r) (by decide) (by decide) (by decide) windW_fits windW_fits' (fun r _ => windW_usable r)
    (fun _ _ _ hc _ hc' => by have := windW_addr 0 hc'; have := windW_addr_global 0 hc; omega) windW_field
    (fun r _ => by rw [quantities_eq (windW_part r)]) (fun r _ => by rw [quantities_eq (windW_part' r)]) rfl rfl rfl rfl
    (fun P o e => by simp only [cubeWind, Vec3.neg, Int.neg_mul]; omega) windW_holds windW_holds' buf

end Heap
end FV3
