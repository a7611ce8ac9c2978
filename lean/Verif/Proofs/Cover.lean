import Verif.Proofs.Place

/-!
# The places of the ranks cover the global domain
-/

namespace FV3
variable {α : Type}

theorem inB_map_toNat (ext : List Int) (idx : List Nat) :
    InB (ext.map Int.toNat) idx ↔
      idx.length = ext.length ∧ ∀ k, k < ext.length → ((idx.getD k 0 : Nat) : Int) < ext.getD k 0 := by
  rw [inB_iff, List.length_map]
  constructor
  · rintro ⟨h1, h2⟩
    refine ⟨h1, fun k hk => ?_⟩
    have := h2 k hk
    rw [getD_lt (l := ext.map Int.toNat) _ (by simpa using hk), List.getElem_map, ← getD_lt 0 hk] at this
    omega
  · rintro ⟨h1, h2⟩
    refine ⟨h1, fun k hk => ?_⟩
    have := h2 k hk
    rw [getD_lt (l := ext.map Int.toNat) _ (by simpa using hk), List.getElem_map, ← getD_lt 0 hk]
    omega

theorem place_tile_inB {l : Layout} (hl : FloatSafe l) {dims : List Dim} {cells tile : List Int}
    (ht : TileOf l dims cells tile) (r : Int) {rel : List Nat} (h : InB (rankShape dims cells) rel) :
    InB (tile.map Int.toNat) (tab dims.length fun k => (startAt l dims cells r k + (rel.getD k 0 : Nat)).toNat) := by
  rw [inB_map_toNat, ht.2.1]
  refine ⟨by simp, ?_⟩
  intro k hk
  rw [getD_tab _ _ hk]
  unfold rankShape at h
  rw [inB_tab] at h
  have h1 := h.2 k hk
  obtain ⟨h2, h3⟩ := startAt_range hl ht r hk
  omega

theorem place_inB {c : Comm} (hl : FloatSafe c.layout) {dims : List Dim} {cells ext : List Int}
    (hG : c.GlobalExtent dims cells ext) {r : Int} (h0 : 0 ≤ r) (h1 : r < c.size) {rel : List Nat}
    (h : InB (rankShape dims cells) rel) : InB (ext.map Int.toNat) (c.place dims cells r rel) := by
  cases c with
  | tile l => exact place_tile_inB hl hG r h
  | cube l =>
    obtain ⟨t, rfl, ht⟩ := hG
    have hl' : FloatSafe l := hl
    have hp : 0 < l.y * l.x := Int.mul_pos hl'.ypos hl'.xpos
    have hsz : r < 6 * (l.y * l.x) := h1
    have q0 : 0 ≤ r / (l.y * l.x) := Int.ediv_nonneg h0 (by omega)
    have q1 : r / (l.y * l.x) < 6 := Int.ediv_lt_of_lt_mul hp hsz
    refine ⟨?_, place_tile_inB hl' ht r h⟩
    show (r / (l.y * l.x)).toNat < 6
    omega

/-- Some position along an axis has a given point. -/
theorem axis_cover {c n s x : Int} (hc : 0 ≤ c) (hn : 0 < n) (hs : 0 ≤ s ∧ s ≤ 1) (hx : 0 ≤ x) (hxt : x < c * n + s) :
    ∃ p, 0 ≤ p ∧ p < n ∧ p * c ≤ x ∧ x < p * c + (c + s) := by
  obtain ⟨h1, h2⟩ := owner_range hc hn hx
  refine ⟨owner c n x, h1, h2, ?_⟩
  obtain ⟨h3, h4⟩ := (owner_spec hc hs hx hxt h2).2 rfl
  refine ⟨h3, ?_⟩
  split_ifs at h4 <;> omega

theorem tile_cover {l : Layout} (hl : FloatSafe l) {dims : List Dim} {cells tile : List Int} {ky kx : Nat}
    (ha : HAxes dims ky kx) (ht : TileOf l dims cells tile) (t : Int) {g : List Nat} (hg : InB (tile.map Int.toNat) g) :
    ∃ j i, 0 ≤ j ∧ j < l.y ∧ 0 ≤ i ∧ i < l.x ∧ ∃ rel, InB (rankShape dims cells) rel ∧
      (tab dims.length fun k => (startAt l dims cells (mkRank l t j i) k + (rel.getD k 0 : Nat)).toNat) = g := by
  rw [inB_map_toNat, ht.2.1] at hg
  obtain ⟨hgl, hgk⟩ := hg
  have hax : ∀ k, k < dims.length → ∃ p, 0 ≤ p ∧ p < ranksAlong l (dims.getD k .x) ∧ p * cells.getD k 0 ≤ (g.getD k 0 : Nat) ∧
      ((g.getD k 0 : Nat) : Int) < p * cells.getD k 0 + (cells.getD k 0 + nShared (dims.getD k .x)) := by
    intro k hk
    obtain ⟨h1, h2, h3⟩ := tileOf_getD ht hk
    exact axis_cover h1 (ranksAlong_pos hl _) (nShared_range _) (by omega) (by rw [← h3]; exact hgk k hk)
  obtain ⟨j, j0, j1, j2, j3⟩ := hax ky ha.ylt
  obtain ⟨i, i0, i1, i2, i3⟩ := hax kx ha.xlt
  have dy : IsY (dims.getD ky .x) := (ha.y ky _ (get?_of_lt dims .x ha.ylt)).2 rfl
  have dx : IsX (dims.getD kx .x) := (ha.x kx _ (get?_of_lt dims .x ha.xlt)).2 rfl
  have ndx : ¬ IsY (dims.getD kx .x) := by
    intro h
    exact not_isX_of_isY h dx
  have ej : j < l.y := by unfold ranksAlong at j1; rwa [if_pos dy] at j1
  have ei : i < l.x := by unfold ranksAlong at i1; rwa [if_neg ndx, if_pos dx] at i1
  refine ⟨j, i, j0, ej, i0, ei, tab dims.length fun k => ((g.getD k 0 : Nat) - startAt l dims cells (mkRank l t j i) k).toNat, ?_, ?_⟩
  all_goals
    have hst : ∀ k, k < dims.length → startAt l dims cells (mkRank l t j i) k ≤ (g.getD k 0 : Nat) ∧
        ((g.getD k 0 : Nat) : Int) < startAt l dims cells (mkRank l t j i) k + (cells.getD k 0 + nShared (dims.getD k .x)) := by
      intro k hk
      unfold startAt
      rw [subtileIndex_mkRank hl.ypos hl.xpos j0 ej i0 ei]
      unfold coordAlong
      by_cases hy : IsY (dims.getD k .x)
      · have : k = ky := (ha.y k _ (get?_of_lt dims .x hk)).1 hy
        subst this
        rw [if_pos hy]
        exact ⟨j2, j3⟩
      · by_cases hx : IsX (dims.getD k .x)
        · have : k = kx := (ha.x k _ (get?_of_lt dims .x hk)).1 hx
          subst this
          rw [if_neg hy, if_pos hx]
          exact ⟨i2, i3⟩
        · rw [if_neg hy, if_neg hx]
          obtain ⟨h1, h2, h3⟩ := tileOf_getD ht hk
          have := hgk k hk
          unfold ranksAlong at h3
          rw [if_neg hy, if_neg hx] at h3
          omega
  · unfold rankShape
    rw [inB_tab]
    refine ⟨by simp, fun k hk => ?_⟩
    rw [getD_tab _ _ hk]
    have := hst k hk
    omega
  · apply ext_getD 0 (by simp [hgl])
    intro k hk
    have hk' : k < dims.length := by simpa using hk
    rw [getD_tab _ _ hk', getD_tab _ _ hk']
    have := hst k hk'
    omega

theorem place_cover {c : Comm} (hl : FloatSafe c.layout) {dims : List Dim} {cells ext : List Int} {ky kx : Nat}
    (ha : HAxes dims ky kx) (hG : c.GlobalExtent dims cells ext) {g : List Nat} (hg : InB (ext.map Int.toNat) g) :
    ∃ r, (0 ≤ r ∧ r < c.size) ∧ ∃ rel, InB (rankShape dims cells) rel ∧ c.place dims cells r rel = g := by
  cases c with
  | tile l =>
    obtain ⟨j, i, j0, j1, i0, i1, rel, h1, h2⟩ := tile_cover hl ha hG 0 hg
    refine ⟨mkRank l 0 j i, ?_, rel, h1, h2⟩
    have hl' : FloatSafe l := hl
    have := (mkRank_range hl'.xpos j0 j1 i0 i1 1 (t := 0)).2 (by omega)
    rw [Int.one_mul] at this
    exact this
  | cube l =>
    obtain ⟨t, rfl, ht⟩ := hG
    have hl' : FloatSafe l := hl
    cases g with
    | nil => exact absurd hg id
    | cons g0 g =>
      obtain ⟨hg0, hg'⟩ := hg
      have hg0' : g0 < 6 := hg0
      obtain ⟨j, i, j0, j1, i0, i1, rel, h1, h2⟩ := tile_cover hl' ha ht (g0 : Int) hg'
      refine ⟨mkRank l g0 j i, (mkRank_range hl'.xpos j0 j1 i0 i1 6).2 (by omega), rel, h1, ?_⟩
      show (mkRank l g0 j i / (l.y * l.x)).toNat :: _ = _
      have e := tileIndex_mkRank (t := (g0 : Int)) hl'.ypos hl'.xpos j0 j1 i0 i1
      rw [tileIndex_eq hl'.ypos hl'.xpos] at e
      injection e with e
      rw [e]
      congr 1

/-- Among the ranks which have a point, there is a highest. -/
theorem exists_highest {c : Comm} {dims : List Dim} {cells : List Int} {shape : List Nat} {g : List Nat}
    (h : ∃ r, (0 ≤ r ∧ r < c.size) ∧ ∃ rel, InB shape rel ∧ c.place dims cells r rel = g) :
    ∃ r, (0 ≤ r ∧ r < c.size) ∧ (∃ rel, InB shape rel ∧ c.place dims cells r rel = g) ∧
      ∀ r', 0 ≤ r' → r' < c.size → (∃ rel', InB shape rel' ∧ c.place dims cells r' rel' = g) → r' ≤ r := by
  classical
  obtain ⟨r, hr, hrel⟩ := h
  generalize hm : (c.size - r).toNat = m
  induction m using Nat.strongRecOn generalizing r with
  | ind m ih =>
    by_cases hx : ∃ r', (0 ≤ r' ∧ r' < c.size) ∧ (∃ rel', InB shape rel' ∧ c.place dims cells r' rel' = g) ∧ r < r'
    · obtain ⟨r', h1, h2, h3⟩ := hx
      exact ih (c.size - r').toNat (by omega) r' h1 h2 rfl
    · refine ⟨r, hr, hrel, ?_⟩
      intro r' h0 h1 h2
      by_contra hc
      exact hx ⟨r', ⟨h0, h1⟩, h2, by omega⟩

end FV3
