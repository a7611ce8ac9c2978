import Verif.Spec.Partition
import Verif.Proofs.RankExtent

namespace FV3

theorem pydiv_pos (a : Int) {b : Int} (h : 0 < b) : pydiv a b = a / b :=
  Int.fdiv_eq_ediv_of_nonneg a (by omega)
theorem pymod_pos (a : Int) {b : Int} (h : 0 < b) : pymod a b = a % b :=
  Int.fmod_eq_emod_of_nonneg a (by omega)

theorem mem_Y (d : Dim) : d ∈ Y_DIMS ↔ IsY d := by simp [Y_DIMS, IsY]
theorem mem_X (d : Dim) : d ∈ X_DIMS ↔ IsX d := by simp [X_DIMS, IsX]

theorem not_isX_of_isY {d : Dim} (h : IsY d) : ¬ IsX d := by
  rcases h with h | h <;> subst h <;> decide

theorem pointsOf_eq (d : Dim) (c : Int) : pointsOf d c = c + nShared d := by
  unfold pointsOf nShared INTERFACE_DIMS
  by_cases h : d = .xI ∨ d = .yI ∨ d = .zI
  · simp [h]
  · rw [if_neg h, if_neg (by simpa using h)]; omega

theorem listByDims_get {T : Type} (dims : List Dim) (a b c : T) (k : Nat) (d : Dim)
    (h : dims[k]? = some d) :
    (listByDims dims a b c)[k]? = some (if IsY d then a else if IsX d then b else c) := by
  unfold listByDims
  simp [h, mem_X, mem_Y]

theorem listByDims_length {T : Type} (dims : List Dim) (a b c : T) :
    (listByDims dims a b c).length = dims.length := by simp [listByDims]

theorem rankExtent_length (dims : List Dim) (e : List Int) (l : Layout)
    (h : e.length = dims.length) :
    (rankExtentFromTileMetadata dims e l).length = dims.length := by
  simp [rankExtentFromTileMetadata, listByDims_length, h]

theorem tileExtent_length (dims : List Dim) (e : List Int) (l : Layout)
    (h : e.length = dims.length) :
    (tileExtentFromRankMetadata dims e l).length = dims.length := by
  simp [tileExtentFromRankMetadata, listByDims_length, h]

theorem rankExtent_get (dims : List Dim) (e : List Int) (l : Layout) (k : Nat) (d : Dim) (x : Int)
    (hd : dims[k]? = some d) (he : e[k]? = some x) :
    (rankExtentFromTileMetadata dims e l)[k]? = some (rankExtent1D d x (ranksAlong l d)) := by
  unfold rankExtentFromTileMetadata
  simp [List.getElem?_zipWith, List.zip, hd, he, listByDims_get dims l.y l.x 1 k d hd, ranksAlong]

theorem tileExtent_get (dims : List Dim) (e : List Int) (l : Layout) (k : Nat) (d : Dim) (x : Int)
    (hd : dims[k]? = some d) (he : e[k]? = some x) :
    (tileExtentFromRankMetadata dims e l)[k]? =
      some ((x - nShared d) * ranksAlong l d + nShared d) := by
  unfold tileExtentFromRankMetadata
  simp [List.getElem?_zipWith, List.zip, hd, he, listByDims_get dims l.y l.x 1 k d hd, ranksAlong]

theorem rankExtent1D_int (d : Dim) (c n : Int) (hn : 0 < n) (hs : RecipSafe n.toNat)
    (hc : 0 ≤ c) (hb : c * n < 2 ^ 51) :
    rankExtent1D d (c * n + nShared d) n = c + nShared d := by
  obtain ⟨k, rfl⟩ := Int.eq_ofNat_of_zero_le hc
  obtain ⟨m, rfl⟩ := Int.eq_ofNat_of_zero_le (by omega : 0 ≤ n)
  simp only [Int.toNat_natCast] at *
  exact rankExtent1D_exact d k m (by omega) hs (by exact_mod_cast hb)

theorem ranksAlong_pos {l : Layout} (hl : FloatSafe l) (d : Dim) : 0 < ranksAlong l d := by
  unfold ranksAlong
  split_ifs
  · exact hl.ypos
  · exact hl.xpos
  · decide

theorem ranksAlong_safe {l : Layout} (hl : FloatSafe l) (d : Dim) :
    RecipSafe (ranksAlong l d).toNat := by
  unfold ranksAlong
  split_ifs
  · exact hl.ysafe
  · exact hl.xsafe
  · exact recipSafe_le_48 1 (by omega) (by omega)

/-- Rank extents of a well-formed tile extent. -/
theorem rankExtent_of_tile {l : Layout} (hl : FloatSafe l) {dims : List Dim}
    {cells tile : List Int} (ht : TileOf l dims cells tile) {k : Nat} {d : Dim} {c t : Int}
    (hd : dims[k]? = some d) (hc : cells[k]? = some c) (he : tile[k]? = some t) :
    (rankExtentFromTileMetadata dims tile l)[k]? = some (c + nShared d) := by
  obtain ⟨-, -, h⟩ := ht
  obtain ⟨h0, hb, rfl⟩ := h k d c t hd hc he
  rw [rankExtent_get dims tile l k d _ hd he, pointsOf_eq,
    rankExtent1D_int d c _ (ranksAlong_pos hl d) (ranksAlong_safe hl d) h0 hb]

/-- Slices of a well-formed tile extent, in closed form. -/
theorem subtileSlice_get {l : Layout} (hl : FloatSafe l) {dims : List Dim}
    {cells tile : List Int} (ht : TileOf l dims cells tile) (p : Int × Int) (ov : Bool)
    {k : Nat} {d : Dim} {c t : Int}
    (hd : dims[k]? = some d) (hc : cells[k]? = some c) (he : tile[k]? = some t) :
    (FV3.subtileSlice dims tile l p ov)[k]? =
      some (coordAlong p d * c,
        if coordAlong p d = ranksAlong l d - 1 ∨ ov = true then coordAlong p d * c + (c + nShared d)
        else coordAlong p d * c + c) := by
  unfold FV3.subtileSlice indexGenerator
  have h1 := rankExtent_of_tile hl ht hd hc he
  have h2 := listByDims_get dims p.1 p.2 0 k d hd
  have h3 := listByDims_get dims l.y l.x 1 k d hd
  simp only [List.getElem?_map, List.getElem?_zipWith, List.zip, hd, h1, h2, h3, Option.map_some,
    IndexData1D.baseExtent, IndexData1D.isEndIndex, coordAlong, ranksAlong, Option.some.injEq,
    Prod.mk.injEq, Bool.or_eq_true, decide_eq_true_eq]
  constructor
  · ring
  · split_ifs <;> ring

theorem subtileSlice_length (dims : List Dim) (tile : List Int) (l : Layout) (p : Int × Int)
    (ov : Bool) (h : tile.length = dims.length) :
    (FV3.subtileSlice dims tile l p ov).length = dims.length := by
  simp [FV3.subtileSlice, indexGenerator, listByDims_length, rankExtent_length, h]

/-! ### Ranks and subtile positions -/

theorem subtileIndex_eq {l : Layout} (hy : 0 < l.y) (hx : 0 < l.x) (r : Int) :
    subtileIndex l r = (r % (l.y * l.x) / l.x, r % (l.y * l.x) % l.x) := by
  unfold subtileIndex Layout.tileRanks
  have : 0 < l.y * l.x := Int.mul_pos hy hx
  simp only [pymod_pos _ this, pydiv_pos _ hx, pymod_pos _ hx]

/-- The rank at tile `t`, subtile row `j`, subtile column `i`. -/
def mkRank (l : Layout) (t j i : Int) : Int := t * (l.y * l.x) + j * l.x + i

theorem mkRank_lt_tile {l : Layout} {j i : Int} (hx : 0 < l.x) (hj0 : 0 ≤ j) (hj : j < l.y)
    (hi0 : 0 ≤ i) (hi : i < l.x) : 0 ≤ j * l.x + i ∧ j * l.x + i < l.y * l.x := by
  have h1 : 0 ≤ j * l.x := Int.mul_nonneg hj0 (by omega)
  have h2 : (j + 1) * l.x ≤ l.y * l.x := Int.mul_le_mul_of_nonneg_right (by omega) (by omega)
  have h3 : (j + 1) * l.x = j * l.x + l.x := by ring
  omega

theorem subtileIndex_mkRank {l : Layout} {t j i : Int} (hy : 0 < l.y) (hx : 0 < l.x)
    (hj0 : 0 ≤ j) (hj : j < l.y) (hi0 : 0 ≤ i) (hi : i < l.x) :
    subtileIndex l (mkRank l t j i) = (j, i) := by
  rw [subtileIndex_eq hy hx]
  obtain ⟨h1, h2⟩ := mkRank_lt_tile hx hj0 hj hi0 hi
  have h3 : mkRank l t j i % (l.y * l.x) = j * l.x + i := by
    unfold mkRank
    rw [show t * (l.y * l.x) + j * l.x + i = (j * l.x + i) + (l.y * l.x) * t by ring,
      Int.add_mul_emod_self_left, Int.emod_eq_of_lt h1 h2]
  rw [h3]
  have h4 : (j * l.x + i) / l.x = j := by
    rw [show j * l.x + i = i + l.x * j by ring, Int.add_mul_ediv_left _ _ (by omega),
      Int.ediv_eq_zero_of_lt hi0 hi]; omega
  have h5 : (j * l.x + i) % l.x = i := by
    rw [show j * l.x + i = i + l.x * j by ring, Int.add_mul_emod_self_left,
      Int.emod_eq_of_lt hi0 hi]
  rw [h4, h5]

theorem tileIndex_eq {l : Layout} (hy : 0 < l.y) (hx : 0 < l.x) (r : Int) :
    tileIndex l r = .ok (r / (l.y * l.x)) := by
  unfold tileIndex getTileIndex Layout.cubeRanks Layout.tileRanks
  have hp : 0 < l.y * l.x := Int.mul_pos hy hx
  have h1 : pymod (6 * (l.y * l.x)) 6 = 0 := by
    rw [pymod_pos _ (by decide)]; omega
  have h2 : pydiv (6 * (l.y * l.x)) 6 = l.y * l.x := by
    rw [pydiv_pos _ (by decide)]; omega
  rw [h1, h2]
  rw [if_neg (by simp), if_neg (by omega), pydiv_pos _ hp]

theorem tileIndex_mkRank {l : Layout} {t j i : Int} (hy : 0 < l.y) (hx : 0 < l.x)
    (hj0 : 0 ≤ j) (hj : j < l.y) (hi0 : 0 ≤ i) (hi : i < l.x) :
    tileIndex l (mkRank l t j i) = .ok t := by
  rw [tileIndex_eq hy hx]
  obtain ⟨h1, h2⟩ := mkRank_lt_tile hx hj0 hj hi0 hi
  congr 1
  unfold mkRank
  rw [show t * (l.y * l.x) + j * l.x + i = (j * l.x + i) + (l.y * l.x) * t by ring,
    Int.add_mul_ediv_left _ _ (by omega), Int.ediv_eq_zero_of_lt h1 h2]; omega

theorem subtileIndex_range {l : Layout} (hy : 0 < l.y) (hx : 0 < l.x) (r : Int) :
    0 ≤ (subtileIndex l r).1 ∧ (subtileIndex l r).1 < l.y ∧
    0 ≤ (subtileIndex l r).2 ∧ (subtileIndex l r).2 < l.x := by
  rw [subtileIndex_eq hy hx]
  have hp : 0 < l.y * l.x := Int.mul_pos hy hx
  have h1 := Int.emod_nonneg r (by omega : l.y * l.x ≠ 0)
  have h2 := Int.emod_lt_of_pos r hp
  refine ⟨Int.ediv_nonneg h1 (by omega), ?_, Int.emod_nonneg _ (by omega), Int.emod_lt_of_pos _ hx⟩
  exact Int.ediv_lt_of_lt_mul hx h2

/-- Every rank is `mkRank` of its tile and subtile position. -/
theorem mkRank_eta {l : Layout} (hy : 0 < l.y) (hx : 0 < l.x) (r : Int) :
    mkRank l (r / (l.y * l.x)) (subtileIndex l r).1 (subtileIndex l r).2 = r := by
  rw [subtileIndex_eq hy hx]
  unfold mkRank
  have h1 := Int.emod_add_mul_ediv r (l.y * l.x)
  have h2 := Int.emod_add_mul_ediv (r % (l.y * l.x)) l.x
  have e1 : r / (l.y * l.x) * (l.y * l.x) = l.y * l.x * (r / (l.y * l.x)) := by ring
  have e2 : r % (l.y * l.x) / l.x * l.x = l.x * (r % (l.y * l.x) / l.x) := by ring
  simp only
  rw [e1, e2]; omega

theorem mkRank_exists {l : Layout} (hy : 0 < l.y) (hx : 0 < l.x) (r : Int) :
    ∃ t j i, r = mkRank l t j i ∧ 0 ≤ j ∧ j < l.y ∧ 0 ≤ i ∧ i < l.x ∧ t = r / (l.y * l.x) := by
  obtain ⟨a, b, c, d⟩ := subtileIndex_range hy hx r
  exact ⟨_, _, _, (mkRank_eta hy hx r).symm, a, b, c, d, rfl⟩

theorem mkRank_inj {l : Layout} {t j i t' j' i' : Int} (hy : 0 < l.y) (hx : 0 < l.x)
    (hj0 : 0 ≤ j) (hj : j < l.y) (hi0 : 0 ≤ i) (hi : i < l.x)
    (hj0' : 0 ≤ j') (hj' : j' < l.y) (hi0' : 0 ≤ i') (hi' : i' < l.x)
    (h : mkRank l t j i = mkRank l t' j' i') : t = t' ∧ j = j' ∧ i = i' := by
  have h1 := subtileIndex_mkRank (t := t) hy hx hj0 hj hi0 hi
  have h2 := subtileIndex_mkRank (t := t') hy hx hj0' hj' hi0' hi'
  have h3 := tileIndex_mkRank (t := t) hy hx hj0 hj hi0 hi
  have h4 := tileIndex_mkRank (t := t') hy hx hj0' hj' hi0' hi'
  rw [h] at h1 h3
  rw [h1] at h2; rw [h3] at h4
  injection h2 with e1 e2
  injection h4 with e3
  exact ⟨e3, e1, e2⟩

theorem mkRank_range {l : Layout} {t j i : Int} (hx : 0 < l.x)
    (hj0 : 0 ≤ j) (hj : j < l.y) (hi0 : 0 ≤ i) (hi : i < l.x) (N : Int) :
    (0 ≤ mkRank l t j i ∧ mkRank l t j i < N * (l.y * l.x)) ↔ (0 ≤ t ∧ t < N) := by
  obtain ⟨h1, h2⟩ := mkRank_lt_tile hx hj0 hj hi0 hi
  unfold mkRank
  constructor
  · rintro ⟨ha, hb⟩
    constructor
    · by_contra hc
      have : (t + 1) * (l.y * l.x) ≤ 0 * (l.y * l.x) :=
        Int.mul_le_mul_of_nonneg_right (by omega) (by omega)
      have e : (t + 1) * (l.y * l.x) = t * (l.y * l.x) + l.y * l.x := by ring
      omega
    · by_contra hc
      have : N * (l.y * l.x) ≤ t * (l.y * l.x) :=
        Int.mul_le_mul_of_nonneg_right (by omega) (by omega)
      omega
  · rintro ⟨ha, hb⟩
    have e1 : 0 ≤ t * (l.y * l.x) := Int.mul_nonneg ha (by omega)
    have e2 : (t + 1) * (l.y * l.x) ≤ N * (l.y * l.x) :=
      Int.mul_le_mul_of_nonneg_right (by omega) (by omega)
    have e : (t + 1) * (l.y * l.x) = t * (l.y * l.x) + l.y * l.x := by ring
    constructor <;> omega

/-! ### One-dimensional partition arithmetic -/

/-- The owner along one axis of point `x` of a line of `n` ranks with `c` cells each. -/
def owner (c n x : Int) : Int := if c = 0 then n - 1 else min (x / c) (n - 1)

theorem owner_range {c n x : Int} (hc : 0 ≤ c) (hn : 0 < n) (hx : 0 ≤ x) :
    0 ≤ owner c n x ∧ owner c n x < n := by
  unfold owner
  split_ifs
  · omega
  · have : 0 ≤ x / c := Int.ediv_nonneg hx hc
    omega

theorem owner_spec {c n s x p : Int} (hc : 0 ≤ c) (hs : 0 ≤ s ∧ s ≤ 1) (hx : 0 ≤ x)
    (hxt : x < c * n + s) (hpn : p < n) :
    (p * c ≤ x ∧ x < (if p = n - 1 then p * c + (c + s) else p * c + c)) ↔ p = owner c n x := by
  unfold owner
  by_cases h0 : c = 0
  · subst h0
    simp only [Int.mul_zero, Int.zero_mul, Int.zero_add] at *
    rw [if_pos trivial]
    constructor
    · rintro ⟨-, h⟩
      split_ifs at h with h1
      · exact h1
      · omega
    · intro h
      rw [if_pos h]
      exact ⟨hx, by omega⟩
  · rw [if_neg h0]
    have hc' : 0 < c := by omega
    have hm := Int.emod_add_mul_ediv x c
    have hm0 := Int.emod_nonneg x h0
    have hm1 := Int.emod_lt_of_pos x hc'
    obtain ⟨q, hq⟩ : ∃ q, q = x / c := ⟨_, rfl⟩
    rw [← hq] at hm ⊢
    have hq0 : 0 ≤ q := by rw [hq]; exact Int.ediv_nonneg hx hc
    have hcn : c * n = c * (n - 1) + c := by ring
    have hle : ∀ a b : Int, a ≤ b → c * a ≤ c * b := fun a b h =>
      Int.mul_le_mul_of_nonneg_left h hc
    have hpc : p * c = c * p := by ring
    rw [hpc]
    rcases Int.lt_trichotomy p q with h | h | h
    · -- p < q
      have h1 := hle (p + 1) q (by omega)
      have h2 : c * (p + 1) = c * p + c := by ring
      constructor
      · rintro ⟨-, h3⟩
        split_ifs at h3 with h4
        · omega
        · omega
      · intro h3
        have hp1 : p = n - 1 := by omega
        rw [if_pos hp1]
        have : c * p = c * (n - 1) := by rw [hp1]
        omega
    · subst h
      constructor
      · intro _; omega
      · intro _
        split_ifs <;> omega
    · have h1 := hle (q + 1) p (by omega)
      have h2 : c * (q + 1) = c * q + c := by ring
      constructor
      · rintro ⟨h3, -⟩; omega
      · intro h3; omega

end FV3
