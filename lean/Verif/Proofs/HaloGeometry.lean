import Verif.Props.Boundary
import Verif.Props.BoundarySlice
import Verif.Props.Rotate

/-!
# Geometry of halo exchange

`foldPt_block`: the points of a block of `n × n` cells next to a rank, in the coordinates of
the rank owning the block.  `exchange`: the array sent over the boundary leading back, turned,
has at every halo point the value of the point of the neighbour at the same place.
-/

namespace FV3

/-- A point `u` of a block of `n` cells (`s = 1`: of interfaces), in block number `I` of `L`:
interfaces on the edge of the tile count for the tile itself. -/
def BlockPt (n s L I u : Int) : Prop :=
  0 ≤ u ∧ u < n + s ∧ (I < 0 → u < n) ∧ (I ≥ L → s ≤ u)

/-- Doubled tile coordinate of point `u` of block `I`. -/
def dbl (n s I u : Int) : Int := 2 * (I * n + u) + 1 - s

theorem dbl_neg {n s I u L : Int} (hn : 0 < n) (hs : s = 0 ∨ s = 1) (h : BlockPt n s L I u)
    (h1 : I < 0) : dbl n s I u < 0 := by
  unfold dbl
  obtain ⟨a, b, c, d⟩ := h
  have := c h1
  have : I * n ≤ -1 * n := Int.mul_le_mul_of_nonneg_right (by omega) (by omega)
  omega

theorem dbl_big {n s I u L : Int} (hn : 0 < n) (hs : s = 0 ∨ s = 1) (h : BlockPt n s L I u)
    (h1 : I ≥ L) : dbl n s I u > 2 * (L * n) := by
  unfold dbl
  obtain ⟨a, b, c, d⟩ := h
  have := d h1
  have : L * n ≤ I * n := Int.mul_le_mul_of_nonneg_right (by omega) (by omega)
  omega

theorem dbl_in {n s I u L : Int} (hn : 0 < n) (hs : s = 0 ∨ s = 1) (h : BlockPt n s L I u)
    (h0 : 0 ≤ I) (h1 : I < L) : 0 ≤ dbl n s I u ∧ dbl n s I u ≤ 2 * (L * n) := by
  unfold dbl
  obtain ⟨a, b, c, d⟩ := h
  have h2 : (I + 1) * n ≤ L * n := Int.mul_le_mul_of_nonneg_right (by omega) (by omega)
  have h3 : 0 ≤ I * n := Int.mul_nonneg h0 (by omega)
  have h4 : (I + 1) * n = I * n + n := by ring
  omega

theorem block_single {n sx sy L I J u v : Int} (hn : 0 < n) (hsx : sx = 0 ∨ sx = 1)
    (hsy : sy = 0 ∨ sy = 1) (hu : BlockPt n sx L I u) (hv : BlockPt n sy L J v)
    (hb : leavesBoth L J I = false) : SingleCross (L * n) (dbl n sx I u) (dbl n sy J v) := by
  simp only [leavesBoth, Bool.and_eq_false_iff, Bool.or_eq_false_iff, decide_eq_false_iff_not] at hb
  rcases hb with h | h
  · left; have := dbl_in hn hsx hu (by omega) (by omega); omega
  · right; have := dbl_in hn hsy hv (by omega) (by omega); omega

/-- Coordinates of a point of the neighbouring block in the axes of the rank owning it, for
`k` clockwise turns. -/
def turnPt (k n sx sy u v : Int) : Int × Int :=
  if k = 1 then (n - 1 + sy - v, u) else if k = 3 then (v, n - 1 + sx - u) else (u, v)

theorem foldPt_block (L n t J I sx sy u v : Int) (hL : 0 < L) (hn : 0 < n)
    (h1 : -1 ≤ I) (h2 : I ≤ L) (h3 : -1 ≤ J) (h4 : J ≤ L) (hsx : sx = 0 ∨ sx = 1)
    (hsy : sy = 0 ∨ sy = 1) (hu : BlockPt n sx L I u) (hv : BlockPt n sy L J v)
    (hb : leavesBoth L J I = false) (s : Int × Int × Int × Int) (hs : s = cubeStep L t J I) :
    foldPt (L * n) t (dbl n sx I u) (dbl n sy J v) =
      (s.1, dbl n (if s.2.2.2 = 0 then sx else sy) s.2.2.1 (turnPt s.2.2.2 n sx sy u v).1,
        dbl n (if s.2.2.2 = 0 then sy else sx) s.2.1 (turnPt s.2.2.2 n sx sy u v).2, s.2.2.2) := by
  simp only [leavesBoth, Bool.and_eq_false_iff, Bool.or_eq_false_iff, decide_eq_false_iff_not] at hb
  unfold foldPt
  by_cases c1 : I < 0
  · rw [if_pos (dbl_neg hn hsx hu c1)]
    have : I = -1 := by omega
    by_cases ht : t % 2 = 0
    · rw [if_pos ht]; rw [cs_w0 c1 ht] at hs; subst hs
      refine tup4 rfl ?_ ?_ rfl <;> simp [dbl, turnPt, this] <;> ring
    · rw [if_neg ht]; rw [cs_w1 c1 ht] at hs; subst hs
      refine tup4 rfl ?_ ?_ rfl <;> simp [dbl, turnPt, this] <;> ring
  by_cases c2 : I ≥ L
  · rw [if_neg (show ¬ dbl n sx I u < 0 by
      have := dbl_big hn hsx hu c2
      have : 0 ≤ L * n := Int.mul_nonneg (by omega) (by omega)
      omega), if_pos (dbl_big hn hsx hu c2)]
    have : I = L := by omega
    by_cases ht : t % 2 = 0
    · rw [if_pos ht]; rw [cs_e0 (by omega) c2 ht] at hs; subst hs
      refine tup4 rfl ?_ ?_ rfl <;> simp [dbl, turnPt, this] <;> ring
    · rw [if_neg ht]; rw [cs_e1 (by omega) c2 ht] at hs; subst hs
      refine tup4 rfl ?_ ?_ rfl <;> simp [dbl, turnPt, this] <;> ring
  have hin := dbl_in hn hsx hu (by omega) (by omega)
  rw [if_neg (show ¬ dbl n sx I u < 0 by omega), if_neg (show ¬ dbl n sx I u > 2 * (L * n) by omega)]
  by_cases c3 : J < 0
  · rw [if_pos (dbl_neg hn hsy hv c3)]
    have : J = -1 := by omega
    by_cases ht : t % 2 = 0
    · rw [if_pos ht]; rw [cs_s0 (by omega) (by omega) c3 ht] at hs; subst hs
      refine tup4 rfl ?_ ?_ rfl <;> simp [dbl, turnPt, this] <;> ring
    · rw [if_neg ht]; rw [cs_s1 (by omega) (by omega) c3 ht] at hs; subst hs
      refine tup4 rfl ?_ ?_ rfl <;> simp [dbl, turnPt, this] <;> ring
  by_cases c4 : J ≥ L
  · rw [if_neg (show ¬ dbl n sy J v < 0 by
      have := dbl_big hn hsy hv c4
      have : 0 ≤ L * n := Int.mul_nonneg (by omega) (by omega)
      omega), if_pos (dbl_big hn hsy hv c4)]
    have : J = L := by omega
    by_cases ht : t % 2 = 0
    · rw [if_pos ht]; rw [cs_n0 (by omega) (by omega) c4 ht] at hs; subst hs
      refine tup4 rfl ?_ ?_ rfl <;> simp [dbl, turnPt, this] <;> ring
    · rw [if_neg ht]; rw [cs_n1 (by omega) (by omega) c4 ht] at hs; subst hs
      refine tup4 rfl ?_ ?_ rfl <;> simp [dbl, turnPt, this] <;> ring
  have hin' := dbl_in hn hsy hv (by omega) (by omega)
  rw [if_neg (show ¬ dbl n sy J v < 0 by omega), if_neg (show ¬ dbl n sy J v > 2 * (L * n) by omega)]
  rw [cs_in (by omega) (by omega) (by omega) (by omega)] at hs; subst hs
  simp [turnPt]

theorem cubeStep_rot (n t j i : Int) :
    (cubeStep n t j i).2.2.2 = 0 ∨ (cubeStep n t j i).2.2.2 = 1 ∨ (cubeStep n t j i).2.2.2 = 3 := by
  unfold cubeStep; split_ifs <;> simp

end FV3
