import Verif.Props.HeapColl

/-!
# Cases of C84
-/

namespace FV3
namespace Heap
open Mem (World Gt4py Reachable)

/-- Two ranks side by side.  0: an array; 1: the quantity of the tile, in this array; 2: columns 3 to 6 of the array; 3: a
quantity with the shape of a part of the tile, in these columns. -/
def sharedOps (r : Int) : List (Mem.Op Int) :=
  [.array ⟨[2, 7], fun i => 100 * r + 10 * i.getD 0 0 + i.getD 1 0⟩ false,
   .quantity 0 [.y, .xI] "m" none none none,
   .getItem 0 .self [.slice .full, .slice (.of 3 7)],
   .quantity 2 [.y, .xI] "m" none none none]

def sharedW (r : Int) : World Int := (World.init fun _ => 0).after Mem.demo (sharedOps r)

theorem sharedW_global (r : Int) :
    dataOf (sharedW r) 1 = .ok (0, ⟨⟨0, [2, 7], [7, 1]⟩, false, true⟩, ⟨[.y, .xI], "m", [0, 0], [2, 7], none⟩) := rfl

theorem sharedW_part (r : Int) :
    dataOf (sharedW r) 3 = .ok (1, ⟨⟨3, [2, 4], [7, 1]⟩, false, true⟩, ⟨[.y, .xI], "m", [0, 0], [2, 4], none⟩) := rfl

theorem sharedW_reach (r : Int) : Reachable Mem.demo (sharedW r) := ⟨_, _, rfl⟩

theorem sharedW_fits : CFits (.tile ⟨1, 2⟩) [.y, .xI] [2, 3] sharedW (.scatter 1 fun _ => 3) := by
  refine ⟨by decide, ?_, fun r _ => ⟨?_, rfl⟩⟩
  · rw [quantities_eq (sharedW_global 0)]
    refine ⟨⟨⟨rfl, rfl, rfl⟩, ?_⟩, rfl, rfl, rfl, ?_⟩
    · show ∀ k, k < 2 → 0 ≤ ([0, 0] : List Int).getD k 0 ∧ 0 ≤ ([2, 7] : List Int).getD k 0 ∧
        ([0, 0] : List Int).getD k 0 + ([2, 7] : List Int).getD k 0 ≤ (([2, 7] : List Nat).getD k 0 : Nat)
      decide
    · intro k d c t hd hc ht
      match k with
      | 0 => simp at hd hc ht; subst hd hc ht; decide
      | 1 => simp at hd hc ht; subst hd hc ht; decide
      | k + 2 => simp at hd
  · rw [quantities_eq (sharedW_part r)]
    refine ⟨⟨⟨rfl, rfl, rfl⟩, ?_⟩, rfl, rfl, ?_⟩
    · show ∀ k, k < 2 → 0 ≤ ([0, 0] : List Int).getD k 0 ∧ 0 ≤ ([2, 4] : List Int).getD k 0 ∧
        ([0, 0] : List Int).getD k 0 + ([2, 4] : List Int).getD k 0 ≤ (([2, 4] : List Nat).getD k 0 : Nat)
      decide
    · intro k d c t hd hc ht
      match k with
      | 0 => simp at hd hc ht; subst hd hc ht; decide
      | 1 => simp at hd hc ht; subst hd hc ht; decide
      | k + 2 => simp at hd

/-- The scatter overwrites columns of the quantity which is sent; rank 1 gets what was there before. -/
example (buf : Buffering) : ∃ W' : Int → World Int,
    ((collNet Mem.demo (.tile ⟨1, 2⟩) [.scatter 1 fun _ => 3] sharedW).Completes buf fun r => (.ok (), W' r)) ∧
    (quantities (W' 0) 3).computeArr.get [1, 2] = 12 ∧ (quantities (W' 1) 3).computeArr.get [1, 2] = 15 ∧
    (quantities (W' 0) 1).data.get [1, 5] = 12 := by
  obtain ⟨W', ⟨W1, ⟨dims, cells, hf, hs⟩, h3⟩, h2⟩ := C84_calls (g := Mem.demo) (c := .tile ⟨1, 2⟩) (W := sharedW)
    (calls := [.scatter 1 fun _ => 3]) ⟨by decide, by decide, by decide, by decide⟩ (fun r _ => sharedW_reach r)
    (fun x hx => by rw [List.mem_singleton.1 hx]; exact ⟨_, _, sharedW_fits⟩) buf
  have m0 : (0 : Int) ∈ (Comm.tile ⟨1, 2⟩).ranks := by decide
  have m1 : (1 : Int) ∈ (Comm.tile ⟨1, 2⟩).ranks := by decide
  have e1 : dims = [.y, .xI] := globalDims_inj (hf.2.1.names.symm.trans sharedW_fits.2.1.names)
  subst e1
  have e2 : cells = [2, 3] := rankOf_unique (hf.2.2 0 m0).1.extent (sharedW_fits.2.2 0 m0).1.extent
  subst e2
  have d0 := (dataOf_congr (hs 0 m0).2.2.arrs (hs 0 m0).2.2.objs 3).trans (sharedW_part 0)
  have d1 := (dataOf_congr (hs 1 m1).2.2.arrs (hs 1 m1).2.2.objs 3).trans (sharedW_part 1)
  have g0 := (dataOf_congr (hs 0 m0).2.2.arrs (hs 0 m0).2.2.objs 1).trans (sharedW_global 0)
  have p0 := (hs 0 m0).1 [1, 2] (by rw [quantities_eq d0]; show InB [2, 4] [1, 2]; decide)
  have p1 := (hs 1 m1).1 [1, 2] (by rw [quantities_eq d1]; show InB [2, 4] [1, 2]; decide)
  have v0 : (quantities (W' 0) 3).computeArr.get [1, 2] = 12 := by rw [h3 0 m0, p0]; rfl
  refine ⟨W', h2, v0, by rw [h3 1 m1, p1]; rfl, ?_⟩
  rw [← v0, h3 0 m0, quantities_eq d0, quantities_eq g0]
  rfl

theorem sharedAxes : HAxes [.y, .xI] 0 1 := exAxes

/-- There and back: the quantity is as before. -/
example (buf : Buffering) : ∃ W' : Int → World Int,
    ((collNet Mem.demo (.tile ⟨1, 2⟩) [.scatter 1 fun _ => 3, .gather (fun _ => 3) 1] sharedW).Completes buf fun r => (.ok (), W' r)) ∧
    (quantities (W' 0) 1).computeArr.Eqv (quantities (sharedW 0) 1).computeArr :=
  C84_round_trip (c := .tile ⟨1, 2⟩) ⟨by decide, by decide, by decide, by decide⟩ (fun r _ => sharedW_reach r) sharedAxes sharedW_fits rfl buf

end Heap
end FV3
