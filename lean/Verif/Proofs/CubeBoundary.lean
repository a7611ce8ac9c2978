import Verif.Proofs.RankTransform
import Verif.Spec.BoundaryTypes
import Verif.Spec.Cube

namespace FV3

variable {l : Layout} {t j i : Int}

/-- Common context: a rank of tile `t` at row `j`, column `i`. -/
structure OnTile (l : Layout) (j i : Int) : Prop where
  hy : 0 < l.y
  hx : 0 < l.x
  hj0 : 0 ≤ j
  hj : j < l.y
  hi0 : 0 ≤ i
  hi : i < l.x

theorem OnTile.sub (h : OnTile l j i) : subtileIndex l (mkRank l t j i) = (j, i) :=
  subtileIndex_mkRank h.hy h.hx h.hj0 h.hj h.hi0 h.hi

theorem OnTile.tile (h : OnTile l j i) : tileIndex l (mkRank l t j i) = .ok t :=
  tileIndex_mkRank h.hy h.hx h.hj0 h.hj h.hi0 h.hi

theorem OnTile.left (h : OnTile l j i) : onTileLeft l (mkRank l t j i) = decide (i = 0) := by
  simp [onTileLeft, h.sub]
theorem OnTile.right (h : OnTile l j i) : onTileRight l (mkRank l t j i) = decide (i = l.x - 1) := by
  simp [onTileRight, h.sub]
theorem OnTile.top (h : OnTile l j i) : onTileTop l (mkRank l t j i) = decide (j = l.y - 1) := by
  simp [onTileTop, h.sub]
theorem OnTile.bottom (h : OnTile l j i) : onTileBottom l (mkRank l t j i) = decide (j = 0) := by
  simp [onTileBottom, h.sub]

/-! ### Tile partitioner -/

theorem tile_left (h : OnTile l j i) :
    (Tile.leftEdge l (mkRank l t j i)).toRank = mkRank l t j (if i = 0 then l.x - 1 else i - 1) := by
  simp only [Tile.leftEdge, h.left, decide_eq_true_eq]
  unfold mkRank
  split_ifs <;> omega

theorem tile_right (h : OnTile l j i) :
    (Tile.rightEdge l (mkRank l t j i)).toRank =
      mkRank l t j (if i = l.x - 1 then 0 else i + 1) := by
  simp only [Tile.rightEdge, h.right, decide_eq_true_eq]
  unfold mkRank
  split_ifs <;> omega

theorem tile_top (h : OnTile l j i) :
    (Tile.topEdge l (mkRank l t j i)).toRank = mkRank l t (if j = l.y - 1 then 0 else j + 1) i := by
  simp only [Tile.topEdge, h.top, decide_eq_true_eq]
  unfold mkRank
  split_ifs with hj
  · subst hj; ring
  · ring

theorem tile_bottom (h : OnTile l j i) :
    (Tile.bottomEdge l (mkRank l t j i)).toRank =
      mkRank l t (if j = 0 then l.y - 1 else j - 1) i := by
  simp only [Tile.bottomEdge, h.bottom, decide_eq_true_eq]
  unfold mkRank
  split_ifs with hj
  · subst hj; ring
  · ring

theorem OnTile.wrapX (h : OnTile l j i) : OnTile l j (if i = 0 then l.x - 1 else i - 1) ∧
    OnTile l j (if i = l.x - 1 then 0 else i + 1) := by
  obtain ⟨a, b, c, d, e, f⟩ := h
  constructor
  · refine ⟨a, b, c, d, ?_, ?_⟩ <;> split_ifs <;> omega
  · refine ⟨a, b, c, d, ?_, ?_⟩ <;> split_ifs <;> omega

theorem wrap_dec {i n : Int} (h0 : 0 ≤ i) (h : i < n) :
    (if i = 0 then n - 1 else i - 1) = (i + -1) % n := by
  split_ifs with hi
  · subst hi
    have : (0 + -1 + n * 1) % n = (0 + -1) % n := Int.add_mul_emod_self_left ..
    rw [← this, Int.emod_eq_of_lt (by omega) (by omega)]; omega
  · rw [Int.emod_eq_of_lt (by omega) (by omega)]; omega

theorem wrap_inc {i n : Int} (h0 : 0 ≤ i) (h : i < n) :
    (if i = n - 1 then 0 else i + 1) = (i + 1) % n := by
  split_ifs with hi
  · subst hi
    rw [show n - 1 + 1 = n by omega, Int.emod_self]
  · rw [Int.emod_eq_of_lt (by omega) (by omega)]

theorem wrap_zero {i n : Int} (h0 : 0 ≤ i) (h : i < n) : (i + 0) % n = i := by
  rw [Int.add_zero, Int.emod_eq_of_lt h0 h]

/-- Closed form of `TilePartitioner.boundary`. -/
theorem tile_boundary (b : BType) (h : OnTile l j i) :
    Tile.boundary l b (mkRank l t j i) =
      { boundaryType := b, fromRank := mkRank l t j i, rotations := 0
        toRank := mkRank l t ((j + b.dy) % l.y) ((i + b.dx) % l.x) } := by
  obtain ⟨hL, hR⟩ := h.wrapX
  have e1 := wrap_dec h.hi0 h.hi
  have e2 := wrap_inc h.hi0 h.hi
  have e3 := wrap_dec h.hj0 h.hj
  have e4 := wrap_inc h.hj0 h.hj
  have e5 := wrap_zero h.hi0 h.hi
  have e6 := wrap_zero h.hj0 h.hj
  have hl := tile_left (t := t) h
  have hr := tile_right (t := t) h
  have ht := tile_top (t := t) h
  have hb := tile_bottom (t := t) h
  cases b <;> simp only [Tile.boundary, Tile.getCorner, BType.dx, BType.dy]
  · rw [e6, ← e1, ← hl]; rfl
  · rw [e6, ← e2, ← hr]; rfl
  · rw [e5, ← e4, ← ht]; rfl
  · rw [e5, ← e3, ← hb]; rfl
  · rw [hl, tile_top hL, e4, e1]; rfl
  · rw [hr, tile_top hR, e4, e2]; rfl
  · rw [hl, tile_bottom hL, e3, e1]; rfl
  · rw [hr, tile_bottom hR, e3, e2]; rfl

/-! ### Cube partitioner -/

theorem isEven_iff (v : Int) : isEven v = decide (v % 2 = 0) := by
  unfold isEven; rw [pymod_pos _ (by decide)]

theorem rotatedTileRank_eq (hsq : l.y = l.x) (h : OnTile l j i) :
    Cube.rotatedTileRank l (mkRank l t j i) =
      .ok ((l.x - 1 - i) * l.x + (l.x - 1 - j)) := by
  obtain ⟨a, b, c, d, e, f⟩ := h
  have hp : 0 < l.y * l.x := Int.mul_pos a b
  unfold Cube.rotatedTileRank Layout.tileRanks
  have hmod : pymod (mkRank l t j i) (l.y * l.x) = j * l.x + i := by
    obtain ⟨h1, h2⟩ := mkRank_lt_tile b c d e f
    rw [pymod_pos _ hp]
    unfold mkRank
    rw [show t * (l.y * l.x) + j * l.x + i = (j * l.x + i) + (l.y * l.x) * t by ring,
      Int.add_mul_emod_self_left, Int.emod_eq_of_lt h1 h2]
  rw [hmod]
  simp only [bind, Except.bind, rotate_int hsq c d e f]
  exact fliplr_int (by omega) (by omega) (by omega) (by omega)

theorem tileRootRank_shift (h : OnTile l j i) (m : Int) :
    tileRootRank l (mkRank l t j i + m * l.tileRanks) = (t + m) * (l.y * l.x) := by
  have e : mkRank l t j i + m * l.tileRanks = mkRank l (t + m) j i := by
    unfold mkRank Layout.tileRanks; ring
  rw [e]
  have h1 := h.tile (t := t + m)
  rw [tileIndex_eq h.hy h.hx] at h1
  injection h1 with h1
  unfold tileRootRank
  rw [pydiv_pos _ (by unfold Layout.tileRanks; exact Int.mul_pos h.hy h.hx)]
  unfold Layout.tileRanks
  rw [h1]; ring

/-- Where one step from subtile `(j, i)` of tile `t` leads when at most one tile edge is
crossed: new tile, row, column and rotation count. -/
def cubeStep (n t j i : Int) : Int × Int × Int × Int :=
  if i < 0 then if t % 2 = 0 then (t - 2, n - 1, n - 1 - j, 1) else (t - 1, j, n - 1, 0)
  else if i ≥ n then if t % 2 = 0 then (t + 1, j, 0, 0) else (t + 2, 0, n - 1 - j, 1)
  else if j ≥ n then if t % 2 = 0 then (t + 2, n - 1 - i, 0, 3) else (t + 1, 0, i, 0)
  else if j < 0 then if t % 2 = 0 then (t - 1, n - 1, i, 0) else (t - 2, n - 1 - i, n - 1, 3)
  else (t, j, i, 0)

def stepRank (l : Layout) (s : Int × Int × Int × Int) : Int := mkRank l s.1 s.2.1 s.2.2.1

theorem ensureSquare_ok (hsq : l.y = l.x) : Cube.ensureSquare l = .ok () := by
  simp [Cube.ensureSquare, hsq]

theorem cube_left (hsq : l.y = l.x) (h : OnTile l j i) :
    Cube.leftEdge l (mkRank l t j i) = .ok
      { boundaryType := .west, fromRank := mkRank l t j i
        toRank := stepRank l (cubeStep l.x t j (i - 1))
        rotations := (cubeStep l.x t j (i - 1)).2.2.2 } := by
  have ⟨a, b, c, d, e, f⟩ := h
  unfold Cube.leftEdge
  simp only [ensureSquare_ok hsq, bind, Except.bind, h.left, h.tile, decide_eq_true_eq,
    isEven_iff, rotatedTileRank_eq hsq h, pure, Except.pure]
  have e1 := tileRootRank_shift (t := t) h (-2)
  rw [show mkRank l t j i + -2 * l.tileRanks = mkRank l t j i - 2 * l.tileRanks by ring] at e1
  have hb := tile_boundary (t := t) .west h
  by_cases hi : i = 0
  · subst hi
    rw [if_pos rfl]
    by_cases ht : t % 2 = 0
    · rw [if_pos ht, e1]
      have : cubeStep l.x t j (0 - 1) = (t - 2, l.x - 1, l.x - 1 - j, 1) := by
        unfold cubeStep; rw [if_pos (by omega), if_pos ht]
      rw [this]
      simp only [stepRank, mkRank]
      congr 2
      ring
    · rw [if_neg ht, hb]
      have : cubeStep l.x t j (0 - 1) = (t - 1, j, l.x - 1, 0) := by
        unfold cubeStep; rw [if_pos (by omega), if_neg ht]
      rw [this]
      simp only [stepRank, BType.dx, BType.dy, wrap_zero c d, ← wrap_dec e f, if_true]
      congr 2
      unfold mkRank Layout.tileRanks; ring
  · rw [if_neg hi, hb]
    have : cubeStep l.x t j (i - 1) = (t, j, i - 1, 0) := by
      unfold cubeStep
      rw [if_neg (by omega), if_neg (by omega), if_neg (by omega), if_neg (by omega)]
    rw [this]
    simp only [stepRank, BType.dx, BType.dy, wrap_zero c d, ← wrap_dec e f, hi, if_false]

theorem cube_right (hsq : l.y = l.x) (h : OnTile l j i) :
    Cube.rightEdge l (mkRank l t j i) = .ok
      { boundaryType := .east, fromRank := mkRank l t j i
        toRank := stepRank l (cubeStep l.x t j (i + 1))
        rotations := (cubeStep l.x t j (i + 1)).2.2.2 } := by
  have ⟨a, b, c, d, e, f⟩ := h
  unfold Cube.rightEdge
  simp only [ensureSquare_ok hsq, bind, Except.bind, h.right, h.tile, decide_eq_true_eq,
    isEven_iff, rotatedTileRank_eq hsq h, pure, Except.pure]
  have e1 := tileRootRank_shift (t := t) h 2
  have hb := tile_boundary (t := t) .east h
  by_cases hi : i = l.x - 1
  · rw [if_pos hi]
    by_cases ht : t % 2 = 0
    · rw [if_neg (by simp [ht]), hb]
      have : cubeStep l.x t j (i + 1) = (t + 1, j, 0, 0) := by
        unfold cubeStep; rw [if_neg (by omega), if_pos (by omega), if_pos ht]
      rw [this]
      have ew := wrap_inc e f
      rw [if_pos hi] at ew
      simp only [stepRank, BType.dx, BType.dy, wrap_zero c d, ← ew]
      congr 2
      unfold mkRank Layout.tileRanks; ring
    · rw [if_pos (by simpa using ht), e1]
      have : cubeStep l.x t j (i + 1) = (t + 2, 0, l.x - 1 - j, 1) := by
        unfold cubeStep; rw [if_neg (by omega), if_pos (by omega), if_neg ht]
      rw [this]
      simp only [stepRank, mkRank, hi]
      congr 2
      ring
  · rw [if_neg hi, hb]
    have : cubeStep l.x t j (i + 1) = (t, j, i + 1, 0) := by
      unfold cubeStep
      rw [if_neg (by omega), if_neg (by omega), if_neg (by omega), if_neg (by omega)]
    rw [this]
    simp only [stepRank, BType.dx, BType.dy, wrap_zero c d, ← wrap_inc e f, hi, if_false]

theorem cube_top (hsq : l.y = l.x) (h : OnTile l j i) :
    Cube.topEdge l (mkRank l t j i) = .ok
      { boundaryType := .north, fromRank := mkRank l t j i
        toRank := stepRank l (cubeStep l.x t (j + 1) i)
        rotations := (cubeStep l.x t (j + 1) i).2.2.2 } := by
  have ⟨a, b, c, d, e, f⟩ := h
  unfold Cube.topEdge
  simp only [ensureSquare_ok hsq, bind, Except.bind, h.top, h.tile, decide_eq_true_eq,
    isEven_iff, rotatedTileRank_eq hsq h, pure, Except.pure]
  have hb := tile_boundary (t := t) .north h
  by_cases hj : j = l.y - 1
  · rw [if_pos hj]
    by_cases ht : t % 2 = 0
    · rw [if_pos ht]
      have : cubeStep l.x t (j + 1) i = (t + 2, l.x - 1 - i, 0, 3) := by
        unfold cubeStep; rw [if_neg (by omega), if_neg (by omega), if_pos (by omega), if_pos ht]
      rw [this]
      simp only [stepRank, mkRank, Layout.tileRanks, hj, hsq]
      congr 2
      ring
    · rw [if_neg ht, hb]
      have : cubeStep l.x t (j + 1) i = (t + 1, 0, i, 0) := by
        unfold cubeStep; rw [if_neg (by omega), if_neg (by omega), if_pos (by omega), if_neg ht]
      rw [this]
      have ew := wrap_inc c d
      rw [if_pos hj] at ew
      simp only [stepRank, BType.dx, BType.dy, wrap_zero e f, ← ew]
      congr 2
      unfold mkRank Layout.tileRanks; ring
  · rw [if_neg hj, hb]
    have : cubeStep l.x t (j + 1) i = (t, j + 1, i, 0) := by
      unfold cubeStep
      rw [if_neg (by omega), if_neg (by omega), if_neg (by omega), if_neg (by omega)]
    rw [this]
    simp only [stepRank, BType.dx, BType.dy, wrap_zero e f, ← wrap_inc c d, hj, if_false]

theorem cube_bottom (hsq : l.y = l.x) (h : OnTile l j i) :
    Cube.bottomEdge l (mkRank l t j i) = .ok
      { boundaryType := .south, fromRank := mkRank l t j i
        toRank := stepRank l (cubeStep l.x t (j - 1) i)
        rotations := (cubeStep l.x t (j - 1) i).2.2.2 } := by
  have ⟨a, b, c, d, e, f⟩ := h
  unfold Cube.bottomEdge
  simp only [ensureSquare_ok hsq, bind, Except.bind, h.bottom, h.tile, decide_eq_true_eq,
    isEven_iff, rotatedTileRank_eq hsq h, pure, Except.pure]
  have hb := tile_boundary (t := t) .south h
  by_cases hj : j = 0
  · subst hj
    by_cases ht : t % 2 = 0
    · rw [if_neg (by simp [ht]), hb, if_pos rfl]
      have : cubeStep l.x t (0 - 1) i = (t - 1, l.x - 1, i, 0) := by
        unfold cubeStep
        rw [if_neg (by omega), if_neg (by omega), if_neg (by omega), if_pos (by omega), if_pos ht]
      rw [this]
      simp only [stepRank, BType.dx, BType.dy, wrap_zero e f, ← wrap_dec c d, if_true]
      congr 2
      unfold mkRank Layout.tileRanks; rw [hsq]; ring
    · rw [if_pos (by simpa using ht)]
      have : cubeStep l.x t (0 - 1) i = (t - 2, l.x - 1 - i, l.x - 1, 3) := by
        unfold cubeStep
        rw [if_neg (by omega), if_neg (by omega), if_neg (by omega), if_pos (by omega), if_neg ht]
      rw [this]
      simp only [stepRank, mkRank, Layout.tileRanks, hsq]
      congr 2
      ring
  · rw [if_neg (by simp [hj]), hb, if_neg hj]
    have : cubeStep l.x t (j - 1) i = (t, j - 1, i, 0) := by
      unfold cubeStep
      rw [if_neg (by omega), if_neg (by omega), if_neg (by omega), if_neg (by omega)]
    rw [this]
    simp only [stepRank, BType.dx, BType.dy, wrap_zero e f, ← wrap_dec c d, hj, if_false]

/-- Both coordinates leave the tile: there is no subtile diagonally across a cube corner. -/
def leavesBoth (n j i : Int) : Bool := (decide (i < 0) || decide (i ≥ n)) && (decide (j < 0) || decide (j ≥ n))

theorem cubeStep_onTile (hsq : l.y = l.x) (hx : 0 < l.x) (b : leavesBoth l.x j i = false)
    (h1 : -1 ≤ i) (h2 : i ≤ l.x) (h3 : -1 ≤ j) (h4 : j ≤ l.x) :
    OnTile l (cubeStep l.x t j i).2.1 (cubeStep l.x t j i).2.2.1 := by
  simp only [leavesBoth, Bool.and_eq_false_iff, Bool.or_eq_false_iff, decide_eq_false_iff_not] at b
  unfold cubeStep
  split_ifs <;> refine ⟨by omega, by omega, ?_, ?_, ?_, ?_⟩ <;> simp only <;> omega

theorem cs_w0 {n t j i : Int} (h : i < 0) (ht : t % 2 = 0) :
    cubeStep n t j i = (t - 2, n - 1, n - 1 - j, 1) := by
  unfold cubeStep; rw [if_pos h, if_pos ht]
theorem cs_w1 {n t j i : Int} (h : i < 0) (ht : ¬ t % 2 = 0) :
    cubeStep n t j i = (t - 1, j, n - 1, 0) := by
  unfold cubeStep; rw [if_pos h, if_neg ht]
theorem cs_e0 {n t j i : Int} (h0 : 0 ≤ i) (h : i ≥ n) (ht : t % 2 = 0) :
    cubeStep n t j i = (t + 1, j, 0, 0) := by
  unfold cubeStep; rw [if_neg (by omega), if_pos h, if_pos ht]
theorem cs_e1 {n t j i : Int} (h0 : 0 ≤ i) (h : i ≥ n) (ht : ¬ t % 2 = 0) :
    cubeStep n t j i = (t + 2, 0, n - 1 - j, 1) := by
  unfold cubeStep; rw [if_neg (by omega), if_pos h, if_neg ht]
theorem cs_n0 {n t j i : Int} (h0 : 0 ≤ i) (h : i < n) (hj : j ≥ n) (ht : t % 2 = 0) :
    cubeStep n t j i = (t + 2, n - 1 - i, 0, 3) := by
  unfold cubeStep; rw [if_neg (by omega), if_neg (by omega), if_pos hj, if_pos ht]
theorem cs_n1 {n t j i : Int} (h0 : 0 ≤ i) (h : i < n) (hj : j ≥ n) (ht : ¬ t % 2 = 0) :
    cubeStep n t j i = (t + 1, 0, i, 0) := by
  unfold cubeStep; rw [if_neg (by omega), if_neg (by omega), if_pos hj, if_neg ht]
theorem cs_s0 {n t j i : Int} (h0 : 0 ≤ i) (h : i < n) (hj : j < 0) (ht : t % 2 = 0) :
    cubeStep n t j i = (t - 1, n - 1, i, 0) := by
  unfold cubeStep
  rw [if_neg (by omega), if_neg (by omega), if_neg (by omega), if_pos hj, if_pos ht]
theorem cs_s1 {n t j i : Int} (h0 : 0 ≤ i) (h : i < n) (hj : j < 0) (ht : ¬ t % 2 = 0) :
    cubeStep n t j i = (t - 2, n - 1 - i, n - 1, 3) := by
  unfold cubeStep
  rw [if_neg (by omega), if_neg (by omega), if_neg (by omega), if_pos hj, if_neg ht]
theorem cs_in {n t j i : Int} (h0 : 0 ≤ i) (h : i < n) (hj : 0 ≤ j) (hj' : j < n) :
    cubeStep n t j i = (t, j, i, 0) := by
  unfold cubeStep
  rw [if_neg (by omega), if_neg (by omega), if_neg (by omega), if_neg (by omega)]

/-- Raw corner closed forms (before reduction of `to_rank`). -/
theorem cube_nw (hsq : l.y = l.x) (h : OnTile l j i) (hc : ¬ (j = l.x - 1 ∧ i = 0)) :
    Cube.topLeftCorner l (mkRank l t j i) = .ok (some
      { boundaryType := .nw, fromRank := mkRank l t j i
        toRank := stepRank l (cubeStep l.x t (j + 1) (i - 1))
        rotations := (cubeStep l.x t (j + 1) (i - 1)).2.2.2 }) := by
  have ⟨a, b, c, d, e, f⟩ := h
  unfold Cube.topLeftCorner Cube.getCorner
  simp only [h.top, h.left, h.tile, bind, Except.bind, isEven_iff, pure, Except.pure,
    cube_left hsq h, Bool.and_eq_true, decide_eq_true_eq]
  rw [if_neg (by omega)]
  have h1 : OnTile l (cubeStep l.x t j (i - 1)).2.1 (cubeStep l.x t j (i - 1)).2.2.1 :=
    cubeStep_onTile hsq b (by simp [leavesBoth]; omega) (by omega) (by omega) (by omega) (by omega)
  by_cases hi : i = 0
  · by_cases ht : t % 2 = 0
    · rw [if_pos ⟨ht, hi⟩]
      unfold stepRank
      simp only [cube_left hsq h1]
      rw [cs_w0 (i := i - 1) (by omega) ht] at h1 ⊢
      simp only
      rw [cs_in (by omega) (by omega) (by omega) (by omega), cs_w0 (by omega) ht]
      simp only [stepRank]
      congr 3; congr 1; omega
    · rw [if_neg (by simp [ht])]
      unfold stepRank
      simp only [cube_top hsq h1]
      rw [cs_w1 (by omega) ht] at h1 ⊢
      simp only
      rw [cs_in (by omega) (by omega) (by omega) (by omega), cs_w1 (by omega) ht]
      simp [stepRank]
  · rw [if_neg (by simp [hi])]
    unfold stepRank
    simp only [cube_top hsq h1]
    rw [cs_in (j := j) (by omega) (by omega) (by omega) (by omega)] at h1 ⊢
    simp [stepRank]

theorem cube_ne (hsq : l.y = l.x) (h : OnTile l j i) (hc : ¬ (j = l.x - 1 ∧ i = l.x - 1)) :
    Cube.topRightCorner l (mkRank l t j i) = .ok (some
      { boundaryType := .ne, fromRank := mkRank l t j i
        toRank := stepRank l (cubeStep l.x t (j + 1) (i + 1))
        rotations := (cubeStep l.x t (j + 1) (i + 1)).2.2.2 }) := by
  have ⟨a, b, c, d, e, f⟩ := h
  unfold Cube.topRightCorner Cube.getCorner
  simp only [h.top, h.right, h.tile, bind, Except.bind, isEven_iff, pure, Except.pure,
    cube_top hsq h, Bool.and_eq_true, decide_eq_true_eq]
  rw [if_neg (by omega)]
  have h1 : OnTile l (cubeStep l.x t (j + 1) i).2.1 (cubeStep l.x t (j + 1) i).2.2.1 :=
    cubeStep_onTile hsq b (by simp [leavesBoth]; omega) (by omega) (by omega) (by omega) (by omega)
  by_cases hj : j = l.y - 1
  · by_cases ht : t % 2 = 0
    · rw [if_pos ⟨ht, hj⟩]
      unfold stepRank
      simp only [cube_bottom hsq h1]
      rw [cs_n0 (by omega) (by omega) (by omega) ht] at h1 ⊢
      simp only
      rw [cs_in (by omega) (by omega) (by omega) (by omega),
        cs_n0 (by omega) (by omega) (by omega) ht]
      simp only [stepRank]
      congr 3; congr 1; omega
    · rw [if_neg (by simp [ht])]
      unfold stepRank
      simp only [cube_right hsq h1]
      rw [cs_n1 (by omega) (by omega) (by omega) ht] at h1 ⊢
      simp only
      rw [cs_in (by omega) (by omega) (by omega) (by omega),
        cs_n1 (by omega) (by omega) (by omega) ht]
      simp [stepRank]
  · rw [if_neg (by simp [hj])]
    unfold stepRank
    simp only [cube_right hsq h1]
    rw [cs_in (j := j + 1) (i := i) (by omega) (by omega) (by omega) (by omega)] at h1 ⊢
    simp [stepRank]

theorem cube_sw (hsq : l.y = l.x) (h : OnTile l j i) (hc : ¬ (j = 0 ∧ i = 0)) :
    Cube.bottomLeftCorner l (mkRank l t j i) = .ok (some
      { boundaryType := .sw, fromRank := mkRank l t j i
        toRank := stepRank l (cubeStep l.x t (j - 1) (i - 1))
        rotations := (cubeStep l.x t (j - 1) (i - 1)).2.2.2 }) := by
  have ⟨a, b, c, d, e, f⟩ := h
  unfold Cube.bottomLeftCorner Cube.getCorner
  simp only [h.bottom, h.left, h.tile, bind, Except.bind, isEven_iff, pure, Except.pure,
    cube_bottom hsq h, Bool.and_eq_true, decide_eq_true_eq]
  rw [if_neg (by omega)]
  have h1 : OnTile l (cubeStep l.x t (j - 1) i).2.1 (cubeStep l.x t (j - 1) i).2.2.1 :=
    cubeStep_onTile hsq b (by simp [leavesBoth]; omega) (by omega) (by omega) (by omega) (by omega)
  by_cases hj : j = 0
  · by_cases ht : t % 2 = 0
    · rw [if_neg (by simp [ht])]
      unfold stepRank
      simp only [cube_left hsq h1]
      rw [cs_s0 (by omega) (by omega) (by omega) ht] at h1 ⊢
      simp only
      rw [cs_in (by omega) (by omega) (by omega) (by omega),
        cs_s0 (by omega) (by omega) (by omega) ht]
      simp [stepRank]
    · rw [if_pos (by simp [ht, hj])]
      unfold stepRank
      simp only [cube_top hsq h1]
      rw [cs_s1 (by omega) (by omega) (by omega) ht] at h1 ⊢
      simp only
      rw [cs_in (by omega) (by omega) (by omega) (by omega),
        cs_s1 (by omega) (by omega) (by omega) ht]
      simp only [stepRank]
      congr 3; congr 1; omega
  · rw [if_neg (by simp [hj])]
    unfold stepRank
    simp only [cube_left hsq h1]
    rw [cs_in (j := j - 1) (i := i) (by omega) (by omega) (by omega) (by omega)] at h1 ⊢
    simp [stepRank]

theorem cube_se (hsq : l.y = l.x) (h : OnTile l j i) (hc : ¬ (j = 0 ∧ i = l.x - 1)) :
    Cube.bottomRightCorner l (mkRank l t j i) = .ok (some
      { boundaryType := .se, fromRank := mkRank l t j i
        toRank := stepRank l (cubeStep l.x t (j - 1) (i + 1))
        rotations := (cubeStep l.x t (j - 1) (i + 1)).2.2.2 }) := by
  have ⟨a, b, c, d, e, f⟩ := h
  unfold Cube.bottomRightCorner Cube.getCorner
  simp only [h.bottom, h.right, h.tile, bind, Except.bind, isEven_iff, pure, Except.pure,
    cube_bottom hsq h, Bool.and_eq_true, decide_eq_true_eq]
  rw [if_neg (by omega)]
  have h1 : OnTile l (cubeStep l.x t (j - 1) i).2.1 (cubeStep l.x t (j - 1) i).2.2.1 :=
    cubeStep_onTile hsq b (by simp [leavesBoth]; omega) (by omega) (by omega) (by omega) (by omega)
  by_cases hj : j = 0
  · by_cases ht : t % 2 = 0
    · rw [if_neg (by simp [ht])]
      unfold stepRank
      simp only [cube_right hsq h1]
      rw [cs_s0 (by omega) (by omega) (by omega) ht] at h1 ⊢
      simp only
      rw [cs_in (by omega) (by omega) (by omega) (by omega),
        cs_s0 (by omega) (by omega) (by omega) ht]
      simp [stepRank]
    · rw [if_pos (by simp [ht, hj])]
      unfold stepRank
      simp only [cube_bottom hsq h1]
      rw [cs_s1 (by omega) (by omega) (by omega) ht] at h1 ⊢
      simp only
      rw [cs_in (by omega) (by omega) (by omega) (by omega),
        cs_s1 (by omega) (by omega) (by omega) ht]
      simp only [stepRank]
      congr 3; congr 1; omega
  · rw [if_neg (by simp [hj])]
    unfold stepRank
    simp only [cube_right hsq h1]
    rw [cs_in (j := j - 1) (i := i) (by omega) (by omega) (by omega) (by omega)] at h1 ⊢
    simp [stepRank]

theorem mkRank_mod (h : OnTile l j i) :
    pymod (mkRank l t j i) l.cubeRanks = mkRank l (t % 6) j i := by
  obtain ⟨a, b, c, d, e, f⟩ := h
  have hp : 0 < l.y * l.x := Int.mul_pos a b
  unfold Layout.cubeRanks Layout.tileRanks
  rw [pymod_pos _ (by omega)]
  have hr := (mkRank_range (t := t % 6) b c d e f 6).2 (by omega)
  have e1 : mkRank l t j i = mkRank l (t % 6) j i + (6 * (l.y * l.x)) * (t / 6) := by
    have := Int.emod_add_mul_ediv t 6
    unfold mkRank
    conv_lhs => rw [← this]
    ring
  rw [e1, Int.add_mul_emod_self_left, Int.emod_eq_of_lt hr.1 hr.2]

/-- Closed form of `CubedSpherePartitioner.boundary`. -/
theorem cube_boundary (hsq : l.y = l.x) (h : OnTile l j i) (b : BType) :
    Cube.boundary l b (mkRank l t j i) = .ok
      (if leavesBoth l.x (j + b.dy) (i + b.dx) then none
       else some
        { boundaryType := b, fromRank := mkRank l t j i
          toRank := mkRank l ((cubeStep l.x t (j + b.dy) (i + b.dx)).1 % 6)
            (cubeStep l.x t (j + b.dy) (i + b.dx)).2.1
            (cubeStep l.x t (j + b.dy) (i + b.dx)).2.2.1
          rotations := (cubeStep l.x t (j + b.dy) (i + b.dx)).2.2.2 }) := by
  have ⟨a, bb, c, d, e, f⟩ := h
  have key : ∀ (dj di : Int), -1 ≤ dj → dj ≤ 1 → -1 ≤ di → di ≤ 1 →
      leavesBoth l.x (j + dj) (i + di) = false →
      pymod (stepRank l (cubeStep l.x t (j + dj) (i + di))) l.cubeRanks =
        mkRank l ((cubeStep l.x t (j + dj) (i + di)).1 % 6)
          (cubeStep l.x t (j + dj) (i + di)).2.1 (cubeStep l.x t (j + dj) (i + di)).2.2.1 := by
    intro dj di h1 h2 h3 h4 hb
    exact mkRank_mod (cubeStep_onTile hsq bb hb (by omega) (by omega) (by omega) (by omega))
  unfold Cube.boundary
  have hnone : ∀ b : BType, leavesBoth l.x (j + b.dy) (i + b.dx) = false →
      Cube.rawBoundary l b (mkRank l t j i) = .ok (some
        { boundaryType := b, fromRank := mkRank l t j i
          toRank := stepRank l (cubeStep l.x t (j + b.dy) (i + b.dx))
          rotations := (cubeStep l.x t (j + b.dy) (i + b.dx)).2.2.2 }) := by
    intro b hb
    simp only [leavesBoth, Bool.and_eq_false_iff, Bool.or_eq_false_iff,
      decide_eq_false_iff_not] at hb
    cases b <;> simp only [Cube.rawBoundary, BType.dx, BType.dy, Int.add_zero] at hb ⊢
    · rw [cube_left hsq h]; rfl
    · rw [cube_right hsq h]; rfl
    · rw [cube_top hsq h]; rfl
    · rw [cube_bottom hsq h]; rfl
    · exact cube_nw hsq h (by omega)
    · exact cube_ne hsq h (by omega)
    · exact cube_sw hsq h (by omega)
    · exact cube_se hsq h (by omega)
  by_cases hb : leavesBoth l.x (j + b.dy) (i + b.dx) = true
  · rw [if_pos hb]
    have hraw : Cube.rawBoundary l b (mkRank l t j i) = .ok none := by
      simp only [leavesBoth, Bool.and_eq_true, Bool.or_eq_true, decide_eq_true_eq] at hb
      cases b <;> simp only [BType.dx, BType.dy] at hb
      · omega
      · omega
      · omega
      · omega
      · simp only [Cube.rawBoundary, Cube.topLeftCorner, h.top, h.left]
        rw [if_pos (by simp; omega)]; rfl
      · simp only [Cube.rawBoundary, Cube.topRightCorner, h.top, h.right]
        rw [if_pos (by simp; omega)]; rfl
      · simp only [Cube.rawBoundary, Cube.bottomLeftCorner, h.bottom, h.left]
        rw [if_pos (by simp; omega)]; rfl
      · simp only [Cube.rawBoundary, Cube.bottomRightCorner, h.bottom, h.right]
        rw [if_pos (by simp; omega)]; rfl
    rw [hraw]; rfl
  · rw [if_neg hb]
    have hb' : leavesBoth l.x (j + b.dy) (i + b.dx) = false := by simpa using hb
    rw [hnone b hb']
    simp only [bind, Except.bind, pure, Except.pure]
    rw [key b.dy b.dx (by cases b <;> decide) (by cases b <;> decide) (by cases b <;> decide)
      (by cases b <;> decide) hb']

end FV3
