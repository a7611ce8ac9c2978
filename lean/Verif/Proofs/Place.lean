import Verif.Spec.Collective
import Verif.Proofs.Partition
import Verif.Proofs.NDLemmas
import Verif.Props.Views

/-!
# The slices of scatter and gather select the place of a rank
-/

namespace FV3
variable {α : Type}

/-- Shape of the compute domain of a rank. -/
def rankShape (dims : List Dim) (cells : List Int) : List Nat :=
  tab dims.length fun k => (cells.getD k 0 + nShared (dims.getD k .x)).toNat

theorem get?_of_lt {β : Type} (l : List β) (d : β) {k : Nat} (h : k < l.length) : l[k]? = some (l.getD k d) := by
  rw [getD_lt _ h]; simp

theorem rankOf_getD {dims : List Dim} {cells ext : List Int} (h : RankOf dims cells ext) {k : Nat}
    (hk : k < dims.length) :
    0 ≤ cells.getD k 0 ∧ ext.getD k 0 = cells.getD k 0 + nShared (dims.getD k .x) := by
  obtain ⟨h1, h2, h3⟩ := h
  have := h3 k _ _ _ (get?_of_lt dims .x hk) (get?_of_lt cells 0 (by omega)) (get?_of_lt ext 0 (by omega))
  rwa [pointsOf_eq] at this

theorem rankOf_iff {dims : List Dim} {cells ext : List Int} (h1 : cells.length = dims.length)
    (h2 : ext.length = dims.length) (h : ∀ k, k < dims.length →
      0 ≤ cells.getD k 0 ∧ ext.getD k 0 = cells.getD k 0 + nShared (dims.getD k .x)) : RankOf dims cells ext := by
  refine ⟨h1, h2, ?_⟩
  intro k d c e hd hc he
  have hk : k < dims.length := (List.getElem?_eq_some_iff.1 hd).1
  have := h k hk
  rw [List.getD_eq_getElem?_getD, List.getD_eq_getElem?_getD, List.getD_eq_getElem?_getD, hd, hc, he] at this
  rwa [pointsOf_eq]

theorem tileOf_getD {l : Layout} {dims : List Dim} {cells ext : List Int} (h : TileOf l dims cells ext) {k : Nat}
    (hk : k < dims.length) : 0 ≤ cells.getD k 0 ∧
    cells.getD k 0 * ranksAlong l (dims.getD k .x) < 2 ^ 51 ∧
    ext.getD k 0 = cells.getD k 0 * ranksAlong l (dims.getD k .x) + nShared (dims.getD k .x) := by
  obtain ⟨h1, h2, h3⟩ := h
  have := h3 k _ _ _ (get?_of_lt dims .x hk) (get?_of_lt cells 0 (by omega)) (get?_of_lt ext 0 (by omega))
  rwa [pointsOf_eq] at this

theorem rankOf_shape {dims : List Dim} {cells ext : List Int} (h : RankOf dims cells ext) :
    ext.map Int.toNat = rankShape dims cells := by
  apply ext_getD 0
  · simp [rankShape, h.2.1]
  · intro k hk
    have hk' : k < dims.length := by rw [List.length_map, h.2.1] at hk; exact hk
    unfold rankShape
    rw [getD_tab _ _ hk', ← (rankOf_getD h hk').2, getD_lt _ hk, List.getElem_map, getD_lt]

theorem rankExtent_rankOf {l : Layout} (hl : FloatSafe l) {dims : List Dim} {cells tile : List Int}
    (ht : TileOf l dims cells tile) : RankOf dims cells (rankExtentFromTileMetadata dims tile l) := by
  refine rankOf_iff ht.1 (rankExtent_length _ _ _ ht.2.1) ?_
  intro k hk
  refine ⟨(tileOf_getD ht hk).1, ?_⟩
  have h := rankExtent_of_tile hl ht (get?_of_lt dims .x hk) (get?_of_lt cells 0 (by rw [ht.1]; exact hk))
    (get?_of_lt tile 0 (by rw [ht.2.1]; exact hk))
  rw [List.getD_eq_getElem?_getD, h]; rfl

theorem nShared_range (d : Dim) : 0 ≤ nShared d ∧ nShared d ≤ 1 := by
  unfold nShared; split <;> omega

/-- Position along an axis in a tile. -/
def startAt (l : Layout) (dims : List Dim) (cells : List Int) (r : Int) (k : Nat) : Int :=
  coordAlong (subtileIndex l r) (dims.getD k .x) * cells.getD k 0

theorem coordAlong_range {l : Layout} (hl : FloatSafe l) (r : Int) (d : Dim) :
    0 ≤ coordAlong (subtileIndex l r) d ∧ coordAlong (subtileIndex l r) d < ranksAlong l d := by
  obtain ⟨h1, h2, h3, h4⟩ := subtileIndex_range hl.ypos hl.xpos r
  unfold coordAlong ranksAlong
  split_ifs <;> omega

theorem startAt_range {l : Layout} (hl : FloatSafe l) {dims : List Dim} {cells tile : List Int}
    (ht : TileOf l dims cells tile) (r : Int) {k : Nat} (hk : k < dims.length) :
    0 ≤ startAt l dims cells r k ∧
    startAt l dims cells r k + (cells.getD k 0 + nShared (dims.getD k .x)) ≤ tile.getD k 0 := by
  obtain ⟨h1, h2, h3⟩ := tileOf_getD ht hk
  obtain ⟨h4, h5⟩ := coordAlong_range hl r (dims.getD k .x)
  unfold startAt
  generalize coordAlong (subtileIndex l r) (dims.getD k .x) = p at *
  generalize ranksAlong l (dims.getD k .x) = n at *
  generalize cells.getD k 0 = c at *
  refine ⟨Int.mul_nonneg h4 h1, ?_⟩
  rw [h3]
  have : c * (p + 1) ≤ c * n := Int.mul_le_mul_of_nonneg_left (by omega) h1
  have e : c * (p + 1) = p * c + c := by ring
  omega

theorem subtileSlice_tab {l : Layout} (hl : FloatSafe l) {dims : List Dim} {cells tile : List Int}
    (ht : TileOf l dims cells tile) (r : Int) :
    Comm.sliceIx (FV3.subtileSlice dims tile l (subtileIndex l r) true) =
      tab dims.length fun k => .slice (.of (startAt l dims cells r k)
        (startAt l dims cells r k + (cells.getD k 0 + nShared (dims.getD k .x)))) := by
  unfold Comm.sliceIx
  have hlen := subtileSlice_length dims tile l (subtileIndex l r) true ht.2.1
  apply ext_getD (Ix.int 0)
  · simp [hlen]
  · intro k hk
    have hk' : k < dims.length := by rw [List.length_map, hlen] at hk; exact hk
    have h := subtileSlice_get hl ht (subtileIndex l r) true (get?_of_lt dims .x hk')
      (get?_of_lt cells 0 (by rw [ht.1]; exact hk')) (get?_of_lt tile 0 (by rw [ht.2.1]; exact hk'))
    rw [getD_tab _ _ hk', List.getD_eq_getElem?_getD, List.getElem?_map, h]
    simp [startAt]

theorem toNat_of_getD {tile : List Int} {k : Nat} (hk : k < tile.length) (h : 0 ≤ tile.getD k 0) :
    (((tile.map Int.toNat).getD k 0 : Nat) : Int) = tile.getD k 0 := by
  rw [getD_lt _ (by simpa using hk), List.getElem_map]
  rw [getD_lt _ hk] at h ⊢
  omega

/-- The key fact about the index tuple of a rank. -/
structure PlaceIx (c : Comm) (dims : List Dim) (cells ext : List Int) (r : Int) (ix : List Ix) (rs : List RIx) :
    Prop where
  slice : c.subtileIx r (c.globalDims dims) ext = .ok ix
  length : ix.length = (c.globalDims dims).length
  plain : ∀ k, k < ix.length → (ix.getD k (.int 0)).Plain (ext.getD k 0)
  resolve : resolveAll ix (ext.map Int.toNat) = .ok rs
  shape : viewShape rs = rankShape dims cells
  idx : ∀ rel, viewIdx rs rel = c.place dims cells r rel
  unview_place : ∀ rel, InB (rankShape dims cells) rel → unview rs (c.place dims cells r rel) = some rel
  place_unview : ∀ g rel, g.length = (c.globalDims dims).length → unview rs g = some rel →
    InB (rankShape dims cells) rel ∧ c.place dims cells r rel = g

theorem tile_box {l : Layout} (hl : FloatSafe l) {dims : List Dim} {cells tile : List Int}
    (ht : TileOf l dims cells tile) (r : Int) :
    ∃ rs, resolveAll (Comm.sliceIx (FV3.subtileSlice dims tile l (subtileIndex l r) true)) (tile.map Int.toNat) = .ok rs ∧
      viewShape rs = rankShape dims cells ∧
      (∀ rel, viewIdx rs rel = tab dims.length fun k => (startAt l dims cells r k + (rel.getD k 0 : Nat)).toNat) ∧
      (∀ rel, InB (rankShape dims cells) rel →
        unview rs (tab dims.length fun k => (startAt l dims cells r k + (rel.getD k 0 : Nat)).toNat) = some rel) ∧
      (∀ g rel, g.length = dims.length → unview rs g = some rel → InB (rankShape dims cells) rel ∧
        (tab dims.length fun k => (startAt l dims cells r k + (rel.getD k 0 : Nat)).toNat) = g) := by
  rw [subtileSlice_tab hl ht]
  have hr := resolveAll_box dims.length (startAt l dims cells r)
    (fun k => startAt l dims cells r k + (cells.getD k 0 + nShared (dims.getD k .x))) (tile.map Int.toNat)
    (by rw [List.length_map, ht.2.1]) (by
      intro k hk
      obtain ⟨h1, h2⟩ := startAt_range hl ht r hk
      have h3 := (tileOf_getD ht hk).1
      have h4 := nShared_range (dims.getD k .x)
      rw [toNat_of_getD (by rw [ht.2.1]; exact hk) (by omega)]
      omega)
  have e : (fun k => (startAt l dims cells r k + (cells.getD k 0 + nShared (dims.getD k .x)) -
      startAt l dims cells r k).toNat) = fun k => (cells.getD k 0 + nShared (dims.getD k .x)).toNat := by
    funext k; congr 1; omega
  rw [e] at hr
  refine ⟨_, hr, viewShape_box _ _ _, fun rel => viewIdx_box _ _ _ _, ?_, ?_⟩
  · intro rel hrel
    unfold rankShape at hrel
    rw [inB_tab] at hrel
    rw [unview_box _ _ _ _ (by simp), if_pos]
    · congr 1
      apply ext_getD 0 (by simp [hrel.1])
      intro k hk
      have hk' : k < dims.length := by simpa using hk
      rw [getD_tab _ _ hk', getD_tab _ _ hk']
      have := (startAt_range hl ht r hk').1
      omega
    · intro k hk
      rw [getD_tab _ _ hk]
      have h1 := (startAt_range hl ht r hk).1
      have h2 := hrel.2 k hk
      omega
  · intro g rel hg hu
    rw [unview_box _ _ _ _ hg] at hu
    split at hu
    · rename_i h
      cases hu
      constructor
      · unfold rankShape
        rw [inB_tab]
        refine ⟨by simp, ?_⟩
        intro k hk
        rw [getD_tab _ _ hk]
        have := h k hk
        have h1 := (startAt_range hl ht r hk).1
        omega
      · apply ext_getD 0 (by simp [hg])
        intro k hk
        have hk' : k < dims.length := by simpa using hk
        rw [getD_tab _ _ hk', getD_tab _ _ hk']
        have := h k hk'
        have h1 := (startAt_range hl ht r hk').1
        omega
    · cases hu

theorem comm_size_pos {c : Comm} (hl : FloatSafe c.layout) : 0 < c.size := by
  cases c with
  | tile l => exact Int.mul_pos hl.ypos hl.xpos
  | cube l =>
    have : 0 < l.y * l.x := Int.mul_pos hl.ypos hl.xpos
    show 0 < 6 * (l.y * l.x)
    omega

theorem sliceIx_plain {l : Layout} (hl : FloatSafe l) {dims : List Dim} {cells tile : List Int}
    (ht : TileOf l dims cells tile) (r : Int) (k : Nat) (hk : k < dims.length) :
    ((Comm.sliceIx (FV3.subtileSlice dims tile l (subtileIndex l r) true)).getD k (.int 0)).Plain (tile.getD k 0) := by
  rw [subtileSlice_tab hl ht, getD_tab _ _ hk]
  obtain ⟨h1, h2⟩ := startAt_range hl ht r hk
  have h3 := (tileOf_getD ht hk).1
  have h4 := nShared_range (dims.getD k .x)
  refine ⟨?_, ?_, ?_⟩
  · intro a ha
    simp only [PySlice.of, Option.some.injEq] at ha
    omega
  · intro a ha
    simp only [PySlice.of, Option.some.injEq] at ha
    omega
  · intro a ha
    simp [PySlice.of] at ha

theorem sliceIx_length {l : Layout} {dims : List Dim} {cells tile : List Int}
    (ht : TileOf l dims cells tile) (r : Int) :
    (Comm.sliceIx (FV3.subtileSlice dims tile l (subtileIndex l r) true)).length = dims.length := by
  unfold Comm.sliceIx
  rw [List.length_map, subtileSlice_length _ _ _ _ _ ht.2.1]

theorem placeIx {c : Comm} (hl : FloatSafe c.layout) {dims : List Dim} {cells ext : List Int}
    (hG : c.GlobalExtent dims cells ext) {r : Int} (hr : r ∈ c.ranks) :
    ∃ ix rs, PlaceIx c dims cells ext r ix rs := by
  have hr' : 0 ≤ r ∧ r < c.size := by
    unfold Comm.ranks at hr
    simp only [List.mem_map, List.mem_range] at hr
    obtain ⟨n, h, rfl⟩ := hr
    constructor
    · exact Int.natCast_nonneg n
    · show (n : Int) < _
      omega
  cases c with
  | tile l =>
    obtain ⟨rs, h1, h2, h3, h4, h5⟩ := tile_box hl hG r
    exact ⟨_, rs, rfl, sliceIx_length hG r, fun k hk => sliceIx_plain hl hG r k (lt_of_lt_of_eq hk (sliceIx_length hG r)),
      h1, h2, h3, h4, h5⟩
  | cube l =>
    obtain ⟨t, rfl, ht⟩ := hG
    have hl' : FloatSafe l := hl
    have hp : 0 < l.y * l.x := Int.mul_pos hl'.ypos hl'.xpos
    have hsz : r < 6 * (l.y * l.x) := hr'.2
    have q0 : 0 ≤ r / (l.y * l.x) := Int.ediv_nonneg hr'.1 (by omega)
    have q1 : r / (l.y * l.x) < 6 := Int.ediv_lt_of_lt_mul hp hsz
    obtain ⟨rs, h1, h2, h3, h4, h5⟩ := tile_box hl' ht r
    refine ⟨.int (r / (l.y * l.x)) :: Comm.sliceIx (FV3.subtileSlice dims t l (subtileIndex l r) true),
      .int (r / (l.y * l.x)).toNat :: rs, ?_, ?_, ?_, ?_, ?_, ?_, ?_, ?_⟩
    · simp only [Comm.subtileIx, Cube.subtileSlice, Comm.globalDims, tileIndex_eq hl'.ypos hl'.xpos,
        ne_eq, not_true_eq_false, if_false, List.tail_cons]
      rfl
    · simp [sliceIx_length ht, Comm.globalDims]
    · intro k hk
      cases k with
      | zero => exact ⟨q0, q1⟩
      | succ k =>
        simp only [List.getD_cons_succ]
        refine sliceIx_plain hl' ht r k ?_
        simp only [List.length_cons, sliceIx_length ht] at hk
        omega
    · simp only [List.map_cons, resolveAll, Ix.resolve]
      rw [if_neg (show ¬ r / (l.y * l.x) < 0 by omega), if_pos (show 0 ≤ r / (l.y * l.x) ∧ r / (l.y * l.x) < ((Int.toNat 6 : Nat) : Int) from ⟨q0, q1⟩), h1]
      rfl
    · simpa [viewShape] using h2
    · intro rel
      simp only [viewIdx, h3]
      rfl
    · intro rel hrel
      simp only [Comm.place, unview, if_pos]
      exact h4 rel hrel
    · intro g rel hg hu
      cases g with
      | nil => simp [Comm.globalDims] at hg
      | cons g0 g =>
        simp only [unview] at hu
        split at hu
        · rename_i h0
          obtain ⟨a, b⟩ := h5 g rel (by simpa [Comm.globalDims] using hg) hu
          refine ⟨a, ?_⟩
          rw [h0, ← b]; rfl
        · cases hu

end FV3
