import Verif.Proofs.Partition

/-!
# C01-C05: ranks, extents and subtile slices
-/

namespace FV3

/-- **C01**: for every rank there is a (tile, row, column), and every (tile, row, column)
is that of exactly one rank. -/
theorem C01_rank_bijection (l : Layout) (hy : 0 < l.y) (hx : 0 < l.x) :
    (∀ r, 0 ≤ r → r < l.cubeRanks →
      ∃ t j i, tileIndex l r = .ok t ∧ subtileIndex l r = (j, i) ∧
        (0 ≤ t ∧ t < 6) ∧ (0 ≤ j ∧ j < l.y) ∧ (0 ≤ i ∧ i < l.x)) ∧
    (∀ t j i, 0 ≤ t → t < 6 → 0 ≤ j → j < l.y → 0 ≤ i → i < l.x →
      ∃ r, (0 ≤ r ∧ r < l.cubeRanks ∧ tileIndex l r = .ok t ∧ subtileIndex l r = (j, i)) ∧
        ∀ r', 0 ≤ r' → r' < l.cubeRanks → tileIndex l r' = .ok t → subtileIndex l r' = (j, i) →
          r' = r) := by
  constructor
  · intro r h0 h1
    obtain ⟨t, j, i, rfl, a, b, c, d, -⟩ := mkRank_exists hy hx r
    refine ⟨t, j, i, tileIndex_mkRank hy hx a b c d, subtileIndex_mkRank hy hx a b c d, ?_,
      ⟨a, b⟩, c, d⟩
    exact (mkRank_range hx a b c d 6).1 ⟨h0, h1⟩
  · intro t j i h0 h1 a b c d
    refine ⟨mkRank l t j i, ?_, ?_⟩
    · have := (mkRank_range hx a b c d 6).2 ⟨h0, h1⟩
      exact ⟨this.1, this.2, tileIndex_mkRank hy hx a b c d, subtileIndex_mkRank hy hx a b c d⟩
    · intro r' _ _ h2 h3
      have := mkRank_eta hy hx r'
      rw [tileIndex_eq hy hx] at h2
      injection h2 with h2
      rw [h2, h3] at this
      exact this.symm

/-- **C01**: `tile_root_rank` is the least rank on the same tile. -/
theorem C01_tile_root_rank (l : Layout) (hy : 0 < l.y) (hx : 0 < l.x) (r : Int)
    (h0 : 0 ≤ r) :
    0 ≤ tileRootRank l r ∧ tileRootRank l r ≤ r ∧
    tileIndex l (tileRootRank l r) = tileIndex l r ∧
    ∀ r', tileIndex l r' = tileIndex l r → tileRootRank l r ≤ r' := by
  have hp : 0 < l.y * l.x := Int.mul_pos hy hx
  have e : tileRootRank l r = l.y * l.x * (r / (l.y * l.x)) := by
    unfold tileRootRank Layout.tileRanks; rw [pydiv_pos _ hp]
  have h1 := Int.emod_add_mul_ediv r (l.y * l.x)
  have h2 := Int.emod_nonneg r (by omega : l.y * l.x ≠ 0)
  refine ⟨?_, by omega, ?_, ?_⟩
  · rw [e]; exact Int.mul_nonneg (by omega) (Int.ediv_nonneg h0 (by omega))
  · rw [tileIndex_eq hy hx, tileIndex_eq hy hx, e, Int.mul_ediv_cancel_left _ (by omega)]
  · intro r' h
    rw [tileIndex_eq hy hx, tileIndex_eq hy hx] at h
    injection h with h
    have h3 := Int.emod_add_mul_ediv r' (l.y * l.x)
    have h4 := Int.emod_nonneg r' (by omega : l.y * l.x ≠ 0)
    rw [h] at h3
    omega

/-- **C01**: `get_tile_index`/`get_tile_number` raise ValueError exactly for totals that
are not multiples of six, and otherwise differ by one. -/
theorem C01_tile_index_errors (rank total : Int) :
    (getTileIndex rank total = .error .valueError ↔ ¬ (6 ∣ total)) ∧
    (getTileNumber rank total = .error .valueError ↔ ¬ (6 ∣ total)) ∧
    (∀ n, 0 < n → total = 6 * n →
      getTileIndex rank total = .ok (rank / n) ∧ getTileNumber rank total = .ok (rank / n + 1)) := by
  have hm : pymod total 6 = total % 6 := pymod_pos _ (by decide)
  have hd : pydiv total 6 = total / 6 := pydiv_pos _ (by decide)
  unfold getTileIndex getTileNumber
  rw [hm, hd]
  refine ⟨?_, ?_, ?_⟩
  · split_ifs with h1 h2
    · simp; omega
    · simp; omega
    · simp; omega
  · split_ifs with h1 h2
    · simp; omega
    · simp; omega
    · simp; omega
  · rintro n hn rfl
    have e : 6 * n / 6 = n := by omega
    rw [e, if_neg (by omega), if_neg (by omega), pydiv_pos _ hn]
    constructor
    · rfl
    · rw [if_neg (by omega), if_neg (by omega)]

example : (0 : Int) < (⟨3, 2⟩ : Layout).y ∧ tileIndex ⟨3, 2⟩ 27 = .ok 4 ∧
    subtileIndex ⟨3, 2⟩ 27 = (1, 1) ∧ tileRootRank ⟨3, 2⟩ 27 = 24 := by decide

/-! ### C05 -/

/-- **C05** (partial: float-safe layouts only; see `C05_refuted`).  Splitting a tile made
of ranks with `cells` grid cells gives ranks with `cells` grid cells. -/
theorem C05_subtile_of_global_partial (l : Layout) (hl : FloatSafe l) (dims : List Dim)
    (cells rank : List Int) (hr : RankOf dims cells rank)
    (hb : ∀ (k : Nat) d c, dims[k]? = some d → cells[k]? = some c → c * ranksAlong l d < 2 ^ 51) :
    Tile.subtileExtent l dims (Tile.globalExtent l dims rank) = rank := by
  obtain ⟨h1, h2, h3⟩ := hr
  unfold Tile.subtileExtent Tile.globalExtent
  have hlen := tileExtent_length dims rank l h2
  apply List.ext_getElem?
  intro k
  by_cases hk : k < dims.length
  · have hd : dims[k]? = some dims[k] := by simp [hk]
    have hc : cells[k]? = some (cells[k]'(by omega)) := by simp
    have hr : rank[k]? = some (rank[k]'(by omega)) := by simp
    obtain ⟨h0, he⟩ := h3 k _ _ _ hd hc hr
    have ht := tileExtent_get dims rank l k _ _ hd hr
    rw [rankExtent_get dims _ l k _ _ hd ht, hr, he, pointsOf_eq]
    congr 1
    have := rankExtent1D_int dims[k] _ _ (ranksAlong_pos hl _) (ranksAlong_safe hl _) h0
      (hb k _ _ hd hc)
    rw [Int.add_sub_cancel]
    exact this
  · rw [List.getElem?_eq_none (by rw [rankExtent_length _ _ _ hlen]; omega),
      List.getElem?_eq_none (by omega)]

/-- **C05** (partial: float-safe layouts only).  Joining the ranks of a tile gives the
tile, whenever the layout divides the tile. -/
theorem C05_global_of_subtile_partial (l : Layout) (hl : FloatSafe l) (dims : List Dim)
    (cells tile : List Int) (ht : TileOf l dims cells tile) :
    RankOf dims cells (Tile.subtileExtent l dims tile) ∧
    Tile.globalExtent l dims (Tile.subtileExtent l dims tile) = tile := by
  have ⟨h1, h2, h3⟩ := ht
  unfold Tile.subtileExtent Tile.globalExtent
  have hlen := rankExtent_length dims tile l h2
  have hget : ∀ k, (hk : k < dims.length) →
      (rankExtentFromTileMetadata dims tile l)[k]? =
        some (cells[k]'(by omega) + nShared dims[k]) := fun k hk =>
    rankExtent_of_tile hl ht (by simp [hk]) (by simp) (by simp : tile[k]? = some (tile[k]'(by omega)))
  constructor
  · refine ⟨h1, hlen, ?_⟩
    intro k d c r hd hc hr
    have hk : k < dims.length := by
      have := (List.getElem?_eq_some_iff.1 hd).1; exact this
    have hd' : dims[k] = d := (List.getElem?_eq_some_iff.1 hd).2
    have hc' : cells[k]'(by omega) = c := (List.getElem?_eq_some_iff.1 hc).2
    have := hget k hk
    rw [hr] at this
    injection this with this
    refine ⟨(h3 k d c _ hd hc (by simp : tile[k]? = some (tile[k]'(by omega)))).1, ?_⟩
    rw [this, pointsOf_eq, hd', hc']
  · apply List.ext_getElem?
    intro k
    by_cases hk : k < dims.length
    · have hd : dims[k]? = some dims[k] := by simp [hk]
      have hc : cells[k]? = some (cells[k]'(by omega)) := by simp
      have htk : tile[k]? = some (tile[k]'(by omega)) := by simp
      obtain ⟨h0, hb, he⟩ := h3 k _ _ _ hd hc htk
      rw [tileExtent_get dims _ l k _ _ hd (hget k hk), htk, he, pointsOf_eq]
      congr 1
      ring
    · rw [List.getElem?_eq_none (by rw [tileExtent_length _ _ _ hlen]; omega),
        List.getElem?_eq_none (by omega)]

/-- **C05**: float-safety of a layout entry is observable: it holds iff the smallest
possible tile (one cell per rank) is split correctly. -/
theorem C05_safe_iff (l : Layout) (hy : 0 < l.y) (hx : 0 < l.x)
    (hyb : l.y < 2 ^ 51) (hxb : l.x < 2 ^ 51) :
    FloatSafe l ↔ Tile.subtileExtent l [.y, .x] [l.y, l.x] = [1, 1] := by
  have ey : nShared .y = nShared .x := by decide
  have e : Tile.subtileExtent l [.y, .x] [l.y, l.x] =
      [rankExtent1D .x l.y l.y, rankExtent1D .x l.x l.x] := by
    show [rankExtent1D .y l.y l.y, rankExtent1D .x l.x l.x] = _
    have : rankExtent1D .y l.y l.y = rankExtent1D .x l.y l.y := by
      unfold rankExtent1D; rw [ey]
    rw [this]
  rw [e]
  have key : ∀ n : Int, 0 < n → n < 2 ^ 51 → (RecipSafe n.toNat ↔ rankExtent1D .x n n = 1) := by
    intro n hn hb
    have := recipSafe_iff n.toNat (by omega) (by omega)
    rwa [Int.toNat_of_nonneg (by omega)] at this
  constructor
  · intro h
    rw [(key _ hy hyb).1 h.ysafe, (key _ hx hxb).1 h.xsafe]
  · intro h
    injection h with h1 h2
    injection h2 with h2
    exact ⟨hy, hx, (key _ hy hyb).2 h1, (key _ hx hxb).2 h2⟩

/-- **C05**: every layout up to 48 ranks per axis is float-safe. -/
theorem C05_safe_up_to_48 (l : Layout) (hy : 0 < l.y) (hx : 0 < l.x) (hy' : l.y ≤ 48)
    (hx' : l.x ≤ 48) : FloatSafe l :=
  ⟨hy, hx, recipSafe_le_48 _ (by omega) (by omega), recipSafe_le_48 _ (by omega) (by omega)⟩

/-- **C05**: multiplying the layout by powers of two keeps it float-safe, so that every layout
`2^a · m` with `m` at most 48 is: all powers of two, 96, 192, 384, … -/
theorem C05_safe_powers (l : Layout) (a b my mx : Nat) (hy : l.y = 2 ^ a * my) (hx : l.x = 2 ^ b * mx)
    (hy0 : 0 < my) (hx0 : 0 < mx) (hy' : my ≤ 48) (hx' : mx ≤ 48) : FloatSafe l := by
  have ey : l.y.toNat = 2 ^ a * my := by rw [hy]; norm_cast
  have ex : l.x.toNat = 2 ^ b * mx := by rw [hx]; norm_cast
  have py : 0 < 2 ^ a * my := by positivity
  have px : 0 < 2 ^ b * mx := by positivity
  refine ⟨by omega, by omega, ?_, ?_⟩
  · rw [ey, recipSafe_two_pow _ _ hy0]; exact recipSafe_le_48 _ hy0 hy'
  · rw [ex, recipSafe_two_pow _ _ hx0]; exact recipSafe_le_48 _ hx0 hx'

/-- **C05**: which layouts are float-safe, in integers: `1/n` is rounded up, or the remainder of
`2^(53+⌊log₂ n⌋)` by `n` is at most half of `2^⌊log₂ n⌋`. -/
theorem C05_safe_iff_remainder (l : Layout) (hy : 2 ≤ l.y) (hx : 2 ≤ l.x) :
    FloatSafe l ↔ ∀ n : Nat, (n : Int) = l.y ∨ (n : Int) = l.x →
      let r := 2 ^ (53 + n.log2) % n
      n ≤ 2 * r ∨ 2 * r ≤ 2 ^ n.log2 := by
  have key : ∀ m : Int, 2 ≤ m → (RecipSafe m.toNat ↔
      (m.toNat ≤ 2 * (2 ^ (53 + m.toNat.log2) % m.toNat) ∨
        2 * (2 ^ (53 + m.toNat.log2) % m.toNat) ≤ 2 ^ m.toNat.log2)) := by
    intro m hm
    rw [recipSafe_iff_mod _ (by omega), not_and_or, Nat.not_lt, Nat.not_lt]
    exact or_comm
  constructor
  · intro h n hn
    rcases hn with hn | hn
    · have e : n = l.y.toNat := by omega
      rw [e]; exact (key _ hy).1 h.ysafe
    · have e : n = l.x.toNat := by omega
      rw [e]; exact (key _ hx).1 h.xsafe
  · intro h
    exact ⟨by omega, by omega, (key _ hy).2 (h l.y.toNat (Or.inl (by omega))),
      (key _ hx).2 (h l.x.toNat (Or.inr (by omega)))⟩

/-- **C05 fails for every layout `49 · 2^k`** (below `2^51`): one cell per rank gives ranks of no
cells. -/
theorem C05_refuted_powers (k : Nat) (hk : k ≤ 45) :
    Tile.subtileExtent ⟨2 ^ k * 49, 2 ^ k * 49⟩ [.y, .x]
      (Tile.globalExtent ⟨2 ^ k * 49, 2 ^ k * 49⟩ [.y, .x] [1, 1]) ≠ [1, 1] := by
  have hp : (2 : Nat) ^ k ≤ 2 ^ 45 := Nat.pow_le_pow_right (by decide) hk
  have hpos : 0 < (2 : Nat) ^ k := by positivity
  have hint : ((2 : Int) ^ k) = ((2 ^ k : Nat) : Int) := by norm_cast
  have hb : ((2 : Int) ^ k) * 49 < 2 ^ 51 := by
    rw [hint]
    have : (2 : Nat) ^ 45 * 49 < 2 ^ 51 := by decide
    omega
  have h0 : 0 < ((2 : Int) ^ k) * 49 := by rw [hint]; omega
  have hg : Tile.globalExtent ⟨2 ^ k * 49, 2 ^ k * 49⟩ [.y, .x] [1, 1] =
      [(2 : Int) ^ k * 49, 2 ^ k * 49] := by
    have h1 : nShared .y = 0 := by decide
    have h2 : nShared .x = 0 := by decide
    show [((1 : Int) - nShared .y) * (2 ^ k * 49) + nShared .y,
      (1 - nShared .x) * (2 ^ k * 49) + nShared .x] = _
    rw [h1, h2]
    simp
  rw [hg]
  intro h
  have hs := ((C05_safe_iff ⟨2 ^ k * 49, 2 ^ k * 49⟩ h0 h0 hb hb).2 h).ysafe
  have e : ((2 : Int) ^ k * 49).toNat = 2 ^ k * 49 := by rw [hint]; omega
  have hs' : RecipSafe (2 ^ k * 49) := by rw [← e]; exact hs
  rw [recipSafe_two_pow _ _ (by decide)] at hs'
  exact absurd hs' (by decide +kernel)

/-- **C05 is false in general**: with layout 49 a tile of 49 ranks of one cell each is
split into ranks of zero cells, because `int(49 * (1/49))` is 0 in double precision. -/
theorem C05_refuted :
    ∃ (l : Layout) (dims : List Dim) (cells rank : List Int), 0 < l.y ∧ 0 < l.x ∧
      RankOf dims cells rank ∧
      Tile.subtileExtent l dims (Tile.globalExtent l dims rank) ≠ rank := by
  refine ⟨⟨49, 49⟩, [.y, .x], [1, 1], [1, 1], by decide, by decide, ⟨rfl, rfl, ?_⟩, by decide +kernel⟩
  intro k d c r hd hc hr
  match k with
  | 0 => simp at hd hc hr; subst hd hc hr; decide
  | 1 => simp at hd hc hr; subst hd hc hr; decide
  | n + 2 => simp at hd

example : TileOf ⟨2, 3⟩ [.z, .yI, .x] [79, 4, 5] [79, 9, 15] ∧ FloatSafe ⟨2, 3⟩ ∧
    Tile.subtileExtent ⟨2, 3⟩ [.z, .yI, .x] [79, 9, 15] = [79, 5, 5] := by
  refine ⟨⟨rfl, rfl, ?_⟩, C05_safe_up_to_48 _ (by decide) (by decide) (by decide) (by decide),
    by decide +kernel⟩
  intro k d c t hd hc ht
  match k with
  | 0 => simp at hd hc ht; subst hd hc ht; decide
  | 1 => simp at hd hc ht; subst hd hc ht; decide
  | 2 => simp at hd hc ht; subst hd hc ht; decide
  | n + 3 => simp at hd

example : FloatSafe ⟨96, 1024⟩ := C05_safe_powers _ 5 10 3 1 rfl rfl (by decide) (by decide) (by decide) (by decide)

example : ¬ FloatSafe ⟨49, 2⟩ := by
  rw [C05_safe_iff_remainder _ (by decide) (by decide)]
  intro h
  have := h 49 (Or.inl rfl)
  revert this
  decide +kernel

/-! ### C02, C03, C04 -/

/-- Membership in a rank's slice, axis by axis. -/
theorem inBox_subtile {l : Layout} (hl : FloatSafe l) {dims : List Dim}
    {cells tile : List Int} (ht : TileOf l dims cells tile) (p : Int × Int) (ov : Bool)
    {idx : List Int} (hidx : InExtent tile idx) :
    InBox (FV3.subtileSlice dims tile l p ov) idx ↔
      ∀ (k : Nat) d c x, dims[k]? = some d → cells[k]? = some c → idx[k]? = some x →
        coordAlong p d * c ≤ x ∧
        x < (if coordAlong p d = ranksAlong l d - 1 ∨ ov = true
              then coordAlong p d * c + (c + nShared d) else coordAlong p d * c + c) := by
  have ⟨h1, h2, _⟩ := ht
  have hlen := subtileSlice_length dims tile l p ov h2
  constructor
  · rintro ⟨-, h⟩ k d c x hd hc hx
    have hk : k < dims.length := (List.getElem?_eq_some_iff.1 hd).1
    have := subtileSlice_get hl ht p ov hd hc (by simp : tile[k]? = some (tile[k]'(by omega)))
    exact h k _ _ this hx
  · intro h
    refine ⟨by rw [hlen, ← h2, hidx.1], ?_⟩
    intro k s x hs hx
    have hk : k < dims.length := by
      have := (List.getElem?_eq_some_iff.1 hs).1; omega
    have hg := subtileSlice_get hl ht p ov (by simp [hk] : dims[k]? = some dims[k])
      (by simp : cells[k]? = some (cells[k]'(by omega)))
      (by simp : tile[k]? = some (tile[k]'(by omega)))
    rw [hs] at hg
    injection hg with hg
    rw [hg]
    exact h k _ _ _ (by simp [hk]) (by simp) hx

theorem coordAlong_nonhoriz {d : Dim} (hy : ¬ IsY d) (hx : ¬ IsX d) (p : Int × Int) (l : Layout) :
    coordAlong p d = 0 ∧ ranksAlong l d = 1 := by
  simp [coordAlong, ranksAlong, hy, hx]

/-- Owner of a tile index: subtile position of the responsible rank. -/
theorem owner_of_index {l : Layout} (hl : FloatSafe l) {dims : List Dim} {ky kx : Nat}
    (hax : HAxes dims ky kx) {cells tile : List Int} (ht : TileOf l dims cells tile)
    {idx : List Int} (hidx : InExtent tile idx) :
    ∃ j i, (0 ≤ j ∧ j < l.y) ∧ (0 ≤ i ∧ i < l.x) ∧
      ∀ p : Int × Int, (0 ≤ p.1 ∧ p.1 < l.y) → (0 ≤ p.2 ∧ p.2 < l.x) →
        (InBox (FV3.subtileSlice dims tile l p false) idx ↔ p = (j, i)) := by
  have ⟨h1, h2, h3⟩ := ht
  have ⟨h4, h5⟩ := hidx
  have hky := hax.ylt
  have hkx := hax.xlt
  have hY : IsY dims[ky] := (hax.y ky _ (by simp [hky])).2 rfl
  have hX : IsX dims[kx] := (hax.x kx _ (by simp [hkx])).2 rfl
  have hXnY : ¬ IsY dims[kx] := fun h => not_isX_of_isY h hX
  have hsh : ∀ d, 0 ≤ nShared d ∧ nShared d ≤ 1 := fun d => by
    rcases nShared_cases d with h | h <;> omega
  have gy := h3 ky _ _ _ (by simp [hky] : dims[ky]? = some dims[ky])
    (by simp : cells[ky]? = some (cells[ky]'(by omega)))
    (by simp : tile[ky]? = some (tile[ky]'(by omega)))
  have gx := h3 kx _ _ _ (by simp [hkx] : dims[kx]? = some dims[kx])
    (by simp : cells[kx]? = some (cells[kx]'(by omega)))
    (by simp : tile[kx]? = some (tile[kx]'(by omega)))
  have iy := h5 ky _ _ (by simp : tile[ky]? = some (tile[ky]'(by omega)))
    (by simp : idx[ky]? = some (idx[ky]'(by omega)))
  have ix := h5 kx _ _ (by simp : tile[kx]? = some (tile[kx]'(by omega)))
    (by simp : idx[kx]? = some (idx[kx]'(by omega)))
  have ry : ranksAlong l dims[ky] = l.y := by simp [ranksAlong, hY]
  have rx : ranksAlong l dims[kx] = l.x := by simp [ranksAlong, hX, hXnY]
  rw [pointsOf_eq, ry] at gy
  rw [pointsOf_eq, rx] at gx
  refine ⟨owner (cells[ky]'(by omega)) l.y (idx[ky]'(by omega)),
    owner (cells[kx]'(by omega)) l.x (idx[kx]'(by omega)),
    owner_range gy.1 hl.ypos iy.1, owner_range gx.1 hl.xpos ix.1, ?_⟩
  intro p hp1 hp2
  rw [inBox_subtile hl ht p false hidx]
  have sy := owner_spec gy.1 (hsh dims[ky]) iy.1 (by omega) hp1.2
  have sx := owner_spec gx.1 (hsh dims[kx]) ix.1 (by omega) hp2.2
  constructor
  · intro h
    have a := h ky _ _ _ (by simp [hky] : dims[ky]? = some dims[ky])
      (by simp : cells[ky]? = some (cells[ky]'(by omega)))
      (by simp : idx[ky]? = some (idx[ky]'(by omega)))
    have b := h kx _ _ _ (by simp [hkx] : dims[kx]? = some dims[kx])
      (by simp : cells[kx]? = some (cells[kx]'(by omega)))
      (by simp : idx[kx]? = some (idx[kx]'(by omega)))
    simp only [coordAlong, hY, hX, hXnY, if_true, if_false, ry, rx, Bool.false_eq_true,
      or_false] at a b
    exact Prod.ext (sy.1 a) (sx.1 b)
  · intro h k d c x hd hc hx
    have hk : k < dims.length := (List.getElem?_eq_some_iff.1 hd).1
    have hdk : dims[k] = d := (List.getElem?_eq_some_iff.1 hd).2
    have hck : cells[k]'(by omega) = c := (List.getElem?_eq_some_iff.1 hc).2
    have hxk : idx[k]'(by omega) = x := (List.getElem?_eq_some_iff.1 hx).2
    by_cases hyy : k = ky
    · subst hyy
      have := sy.2 (by rw [h])
      simp only [hck, hxk] at this
      rw [← hdk]
      simp only [coordAlong, hY, if_true, ry, Bool.false_eq_true, or_false]
      exact this
    · by_cases hxx : k = kx
      · subst hxx
        have := sx.2 (by rw [h])
        simp only [hck, hxk] at this
        rw [← hdk]
        simp only [coordAlong, hX, hXnY, if_true, if_false, rx, Bool.false_eq_true, or_false]
        exact this
      · have ny : ¬ IsY d := fun hh => hyy ((hax.y k d hd).1 hh)
        have nx : ¬ IsX d := fun hh => hxx ((hax.x k d hd).1 hh)
        obtain ⟨e1, e2⟩ := coordAlong_nonhoriz ny nx p l
        have g := h3 k d c _ hd hc (by simp : tile[k]? = some (tile[k]'(by omega)))
        have i := h5 k _ x (by simp : tile[k]? = some (tile[k]'(by omega))) hx
        rw [e2, pointsOf_eq] at g
        rw [e1, e2]
        simp only [Int.sub_self, true_or, if_true]
        omega

/-- **C02**: without overlap, every index of the tile lies in the slice of exactly one
rank. -/
theorem C02_slices_partition (l : Layout) (hl : FloatSafe l) (dims : List Dim) (ky kx : Nat)
    (hax : HAxes dims ky kx) (cells tile : List Int) (ht : TileOf l dims cells tile)
    (idx : List Int) (hidx : InExtent tile idx) :
    ∃ r, (0 ≤ r ∧ r < l.tileRanks ∧ InBox (Tile.subtileSlice l r dims tile false) idx) ∧
      ∀ r', 0 ≤ r' → r' < l.tileRanks → InBox (Tile.subtileSlice l r' dims tile false) idx →
        r' = r := by
  obtain ⟨j, i, hj, hi, h⟩ := owner_of_index hl hax ht hidx
  have hr := (mkRank_range (t := 0) hl.xpos hj.1 hj.2 hi.1 hi.2 1).2 (by omega)
  refine ⟨mkRank l 0 j i, ⟨hr.1, by simpa [Layout.tileRanks] using hr.2, ?_⟩, ?_⟩
  · unfold Tile.subtileSlice
    rw [subtileIndex_mkRank hl.ypos hl.xpos hj.1 hj.2 hi.1 hi.2]
    exact (h (j, i) hj hi).2 rfl
  · intro r' h0 h1 hb
    unfold Tile.subtileSlice at hb
    obtain ⟨a, b, c, d⟩ := subtileIndex_range hl.ypos hl.xpos r'
    have := (h _ ⟨a, b⟩ ⟨c, d⟩).1 hb
    have e := mkRank_eta hl.ypos hl.xpos r'
    rw [this, Int.ediv_eq_zero_of_lt h0 (by simpa [Layout.tileRanks] using h1)] at e
    exact e.symm

/-- **C04**: the cube's slices raise exactly for a wrong first dimension, and otherwise
every (tile, index) lies in the slice of exactly one rank. -/
theorem C04_cube_slices_partition (l : Layout) (hl : FloatSafe l) (dims : List Dim) (ky kx : Nat)
    (hax : HAxes dims ky kx) (cells tile : List Int) (ht : TileOf l dims cells tile)
    (t : Int) (ht0 : 0 ≤ t) (ht6 : t < 6) (idx : List Int) (hidx : InExtent tile idx) :
    ∃ r, (0 ≤ r ∧ r < l.cubeRanks ∧
        ∃ box, Cube.subtileSlice l r (.tile :: dims) (6 :: tile) false = .ok (t, box) ∧
          InBox box idx) ∧
      ∀ r', 0 ≤ r' → r' < l.cubeRanks →
        (∃ box, Cube.subtileSlice l r' (.tile :: dims) (6 :: tile) false = .ok (t, box) ∧
          InBox box idx) → r' = r := by
  obtain ⟨j, i, hj, hi, h⟩ := owner_of_index hl hax ht hidx
  have hr := (mkRank_range (t := t) hl.xpos hj.1 hj.2 hi.1 hi.2 6).2 ⟨ht0, ht6⟩
  have hsl : ∀ r, Cube.subtileSlice l r (.tile :: dims) (6 :: tile) false =
      .ok (r / (l.y * l.x), FV3.subtileSlice dims tile l (subtileIndex l r) false) := by
    intro r
    unfold Cube.subtileSlice
    simp only [ne_eq, not_true_eq_false, if_false, tileIndex_eq hl.ypos hl.xpos, List.tail_cons]
    rfl
  refine ⟨mkRank l t j i, ⟨hr.1, hr.2, _, ?_, (h (j, i) hj hi).2 rfl⟩, ?_⟩
  · have e := tileIndex_mkRank (t := t) hl.ypos hl.xpos hj.1 hj.2 hi.1 hi.2
    rw [tileIndex_eq hl.ypos hl.xpos] at e
    injection e with e
    rw [hsl, subtileIndex_mkRank hl.ypos hl.xpos hj.1 hj.2 hi.1 hi.2, e]
  · rintro r' h0 h1 ⟨box, hb, hin⟩
    rw [hsl] at hb
    injection hb with hb
    injection hb with e1 e2
    subst e2
    obtain ⟨a, b, c, d⟩ := subtileIndex_range hl.ypos hl.xpos r'
    have := (h _ ⟨a, b⟩ ⟨c, d⟩).1 hin
    have e := mkRank_eta hl.ypos hl.xpos r'
    rw [this, e1] at e
    exact e.symm

/-- **C04**: error branch. -/
theorem C04_cube_slice_error (l : Layout) (hy : 0 < l.y) (hx : 0 < l.x) (r : Int) (d : Dim)
    (dims : List Dim) (ext : List Int) (ov : Bool) :
    Cube.subtileSlice l r (d :: dims) ext ov = .error .notImplemented ↔ d ≠ .tile := by
  unfold Cube.subtileSlice
  by_cases h : d = .tile
  · simp only [h, ne_eq, not_true_eq_false, if_false, tileIndex_eq hy hx, iff_false]
    intro hc; cases hc
  · simp only [h, ne_eq, not_false_eq_true, if_true, iff_true]
    rfl

/-- **C03**: with overlap, the slices have the rank's extent, start at the rank's
position times its cell count, and cover the tile. -/
theorem C03_overlap_shape_and_cover (l : Layout) (hl : FloatSafe l) (dims : List Dim)
    (ky kx : Nat) (hax : HAxes dims ky kx)
    (cells tile : List Int) (ht : TileOf l dims cells tile) :
    (∀ r, (Tile.subtileSlice l r dims tile true).map (fun s => s.2 - s.1) =
        Tile.subtileExtent l dims tile) ∧
    (∀ r, ∀ (k : Nat) s d c, (Tile.subtileSlice l r dims tile true)[k]? = some s →
        dims[k]? = some d → cells[k]? = some c → s.1 = coordAlong (subtileIndex l r) d * c) ∧
    (∀ idx, InExtent tile idx → ∃ r, 0 ≤ r ∧ r < l.tileRanks ∧
        InBox (Tile.subtileSlice l r dims tile true) idx) := by
  have ⟨h1, h2, h3⟩ := ht
  refine ⟨?_, ?_, ?_⟩
  · intro r
    unfold Tile.subtileSlice Tile.subtileExtent
    apply List.ext_getElem?
    intro k
    by_cases hk : k < dims.length
    · have hc : cells[k]? = some (cells[k]'(by omega)) := by simp
      have htk : tile[k]? = some (tile[k]'(by omega)) := by simp
      rw [List.getElem?_map, subtileSlice_get hl ht _ true (by simp [hk] : dims[k]? = some dims[k])
        hc htk, rankExtent_of_tile hl ht (by simp [hk] : dims[k]? = some dims[k]) hc htk]
      simp
    · rw [List.getElem?_eq_none, List.getElem?_eq_none]
      · rw [rankExtent_length _ _ _ h2]; omega
      · rw [List.length_map, subtileSlice_length _ _ _ _ _ h2]; omega
  · intro r k s d c hs hd hc
    have hk : k < dims.length := (List.getElem?_eq_some_iff.1 hd).1
    unfold Tile.subtileSlice at hs
    rw [subtileSlice_get hl ht _ true hd hc (by simp : tile[k]? = some (tile[k]'(by omega)))] at hs
    injection hs with hs
    rw [← hs]
  · intro idx hidx
    obtain ⟨r, ⟨h0, h4, hb⟩, -⟩ := C02_slices_partition l hl dims ky kx hax cells tile ht idx hidx
    refine ⟨r, h0, h4, ?_⟩
    unfold Tile.subtileSlice at hb ⊢
    rw [inBox_subtile hl ht _ _ hidx] at hb ⊢
    intro k d c x hd hc hx
    obtain ⟨ha, hb'⟩ := hb k d c x hd hc hx
    refine ⟨ha, ?_⟩
    rw [if_pos (Or.inr rfl)]
    have : 0 ≤ nShared d := by rcases nShared_cases d with h | h <;> omega
    split_ifs at hb' <;> omega

/-- **C03**: along one axis, the ranks whose overlapping slice contains point `x` are the
one owning cell `x / c`, and for interface points that are internal multiples of the cell
count also its predecessor; a centre point belongs to one rank only.  (`p` ranges over the
rank coordinates along the axis; axes other than `k` do not matter.) -/
theorem C03_overlap_sharing (l : Layout) (hl : FloatSafe l) (dims : List Dim)
    (cells tile : List Int) (ht : TileOf l dims cells tile)
    (k : Nat) (d : Dim) (c t : Int) (hd : dims[k]? = some d) (hc : cells[k]? = some c)
    (htk : tile[k]? = some t) (hc0 : 0 < c) (pos : Int × Int)
    (x : Int) (hx0 : 0 ≤ x) (hxt : x < t)
    (hp : 0 ≤ coordAlong pos d ∧ coordAlong pos d < ranksAlong l d) (s : Int × Int)
    (hs : (FV3.subtileSlice dims tile l pos true)[k]? = some s) :
    (s.1 ≤ x ∧ x < s.2) ↔
      (coordAlong pos d = x / c ∨
       (coordAlong pos d = x / c - 1 ∧ x % c = 0 ∧ (d = .xI ∨ d = .yI ∨ d = .zI))) := by
  obtain ⟨-, hb, he⟩ := ht.2.2 k d c t hd hc htk
  rw [subtileSlice_get hl ht pos true hd hc htk] at hs
  injection hs with hs
  subst hs
  rw [if_pos (Or.inr rfl)]
  have hsd : nShared d = if (d = .xI ∨ d = .yI ∨ d = .zI) then 1 else 0 := by
    have := pointsOf_eq d 0
    unfold pointsOf at this
    split_ifs at this ⊢ <;> omega
  rw [hsd]
  have hm := Int.emod_add_mul_ediv x c
  have hm0 := Int.emod_nonneg x (by omega : c ≠ 0)
  have hm1 := Int.emod_lt_of_pos x hc0
  generalize coordAlong pos d = p at *
  generalize x / c = q at *
  generalize x % c = m at *
  have hle : ∀ a b : Int, a ≤ b → c * a ≤ c * b := fun a b h =>
    Int.mul_le_mul_of_nonneg_left h (by omega)
  have hpc : p * c = c * p := by ring
  simp only [hpc]
  rcases Int.lt_trichotomy p (q - 1) with h | h | h
  · have h1 := hle (p + 1) (q - 1) (by omega)
    have h2 : c * (p + 1) = c * p + c := by ring
    have h3 : c * (q - 1) = c * q - c := by ring
    constructor
    · rintro ⟨_, h4⟩
      exfalso
      split_ifs at h4 <;> omega
    · omega
  · subst h
    have h3 : c * (q - 1) = c * q - c := by ring
    split_ifs with hi
    · constructor
      · rintro ⟨_, h4⟩
        right
        exact ⟨rfl, by omega, hi⟩
      · rintro (h4 | ⟨-, h5, -⟩) <;> omega
    · constructor
      · rintro ⟨_, h4⟩; omega
      · rintro (h4 | ⟨-, -, h5⟩)
        · omega
        · exact absurd h5 hi
  · rcases Int.lt_or_eq_of_le (by omega : q ≤ p) with h' | h'
    · have h1 := hle (q + 1) p (by omega)
      have h2 : c * (q + 1) = c * q + c := by ring
      constructor
      · rintro ⟨h4, _⟩; omega
      · omega
    · subst h'
      constructor
      · intro _; left; rfl
      · intro _
        constructor
        · omega
        · split_ifs <;> omega

example : HAxes [.z, .yI, .x] 1 2 := by
  refine ⟨?_, ?_, by decide, by decide⟩ <;>
  · intro k d hd
    match k with
    | 0 => simp at hd; subst hd; decide
    | 1 => simp at hd; subst hd; decide
    | 2 => simp at hd; subst hd; decide
    | n + 3 => simp at hd

end FV3
