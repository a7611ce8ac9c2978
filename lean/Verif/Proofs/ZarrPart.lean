import Verif.Proofs.ZarrSel
import Verif.Proofs.ScatterProg
import Verif.Props.Views

/-!
# The part of an array that a rank stores, and its chunks
-/

namespace FV3
namespace Zarr
variable {α R : Type}

/-- A variable on tiles: one x-axis, one y-axis, at least one cell per rank along every axis. -/
structure TileVar (l : Layout) (dims : List Dim) (cells tile : List Int) (ky kx : Nat) : Prop where
  safe : FloatSafe l
  axes : HAxes dims ky kx
  tile : TileOf l dims cells tile
  cells : ∀ k, k < dims.length → 0 < cells.getD k 0

section
variable {l : Layout} {dims : List Dim} {cells tile : List Int} {ky kx : Nat}

/-- The points of rank `r` along axis `k`: interfaces at the upper end are left to the next rank. -/
def lenAt (l : Layout) (dims : List Dim) (cells : List Int) (r : Int) (k : Nat) : Int :=
  cells.getD k 0 + if coordAlong (subtileIndex l r) (dims.getD k .x) = ranksAlong l (dims.getD k .x) - 1 then
    nShared (dims.getD k .x) else 0

theorem lenAt_le (r : Int) (k : Nat) :
    cells.getD k 0 ≤ lenAt l dims cells r k ∧ lenAt l dims cells r k ≤ cells.getD k 0 + nShared (dims.getD k .x) := by
  unfold lenAt
  have := nShared_range (dims.getD k .x)
  split_ifs <;> omega

theorem TileVar.slices (h : TileVar l dims cells tile ky kx) (r : Int) :
    FV3.subtileSlice dims tile l (subtileIndex l r) false =
      tab dims.length fun k => (startAt l dims cells r k, startAt l dims cells r k + lenAt l dims cells r k) := by
  have ht := h.tile
  have hlen := subtileSlice_length dims tile l (subtileIndex l r) false ht.2.1
  apply ext_getD ((0 : Int), (0 : Int))
  · rw [hlen, length_tab]
  · intro k hk
    have hk' : k < dims.length := by rw [hlen] at hk; exact hk
    have hs := subtileSlice_get h.safe ht (subtileIndex l r) false (get?_of_lt dims .x hk')
      (get?_of_lt cells 0 (by rw [ht.1]; exact hk')) (get?_of_lt tile 0 (by rw [ht.2.1]; exact hk'))
    rw [getD_tab _ _ hk', List.getD_eq_getElem?_getD, hs]
    simp only [Option.getD_some, startAt, lenAt]
    congr 1
    simp only [Bool.false_eq_true, or_false]
    split_ifs <;> omega

theorem TileVar.chunks (h : TileVar l dims cells tile ky kx) : arrayChunks l tile dims = cells := by
  have ht := h.tile
  have hlen : (arrayChunks l tile dims).length = dims.length := by
    simp [arrayChunks, listByDims_length, ht.2.1]
  apply ext_getD 0
  · rw [hlen, ht.1]
  · intro k hk
    have hk' : k < dims.length := by rw [hlen] at hk; exact hk
    obtain ⟨h1, h2, h3⟩ := tileOf_getD ht hk'
    have hn := ranksAlong_pos h.safe (dims.getD k .x)
    have e : (arrayChunks l tile dims)[k]? = some (if dims.getD k .x ∈ INTERFACE_DIMS then
        pydiv (tile.getD k 0 - 1) (ranksAlong l (dims.getD k .x)) else
        pydiv (tile.getD k 0) (ranksAlong l (dims.getD k .x))) := by
      unfold arrayChunks
      rw [List.getElem?_zipWith]
      have e1 : (dims.zip tile)[k]? = some (dims.getD k .x, tile.getD k 0) := by
        rw [List.getElem?_zip_eq_some]
        exact ⟨get?_of_lt dims .x hk', get?_of_lt tile 0 (by rw [ht.2.1]; exact hk')⟩
      rw [e1, listByDims_get dims l.y l.x 1 k _ (get?_of_lt dims .x hk')]
      rfl
    rw [List.getD_eq_getElem?_getD, e, Option.getD_some, pydiv_pos _ hn, pydiv_pos _ hn, h3]
    by_cases hi : dims.getD k .x ∈ INTERFACE_DIMS
    · rw [if_pos hi]
      have : nShared (dims.getD k .x) = 1 := by unfold nShared; rw [if_pos hi]
      rw [this, Int.add_sub_cancel, Int.mul_ediv_cancel _ (by omega)]
    · rw [if_neg hi]
      have : nShared (dims.getD k .x) = 0 := by unfold nShared; rw [if_neg hi]
      rw [this, Int.add_zero, Int.mul_ediv_cancel _ (by omega)]

/-- Chunk shape of the array of a variable. -/
def varChunks (cells : List Int) : List Nat := 1 :: 1 :: cells.map Int.toNat

/-- The box in which rank `r` stores step `t`. -/
def partBox (l : Layout) (dims : List Dim) (cells : List Int) (r : Int) (t : Nat) : List (Nat × Nat) :=
  (t, t + 1) :: ((r / (l.y * l.x)).toNat, (r / (l.y * l.x)).toNat + 1) ::
    tab dims.length fun k => ((startAt l dims cells r k).toNat, (startAt l dims cells r k + lenAt l dims cells r k).toNat)

/-- The rank that owns a chunk of a variable. -/
def varOwner (l : Layout) (ky kx : Nat) (ci : List Nat) : Int :=
  mkRank l (ci.getD 1 0 : Nat) (min (ci.getD (ky + 2) 0 : Nat) (l.y - 1)) (min (ci.getD (kx + 2) 0 : Nat) (l.x - 1))

theorem HAxes.coordY (ha : HAxes dims ky kx) (p : Int × Int) : coordAlong p (dims.getD ky .x) = p.1 := by
  unfold coordAlong
  rw [if_pos ((ha.y ky _ (get?_of_lt dims .x ha.ylt)).2 rfl)]

theorem HAxes.ranksY (ha : HAxes dims ky kx) (l : Layout) : ranksAlong l (dims.getD ky .x) = l.y := by
  unfold ranksAlong
  rw [if_pos ((ha.y ky _ (get?_of_lt dims .x ha.ylt)).2 rfl)]

theorem HAxes.coordX (ha : HAxes dims ky kx) (p : Int × Int) : coordAlong p (dims.getD kx .x) = p.2 := by
  have hx := (ha.x kx _ (get?_of_lt dims .x ha.xlt)).2 rfl
  unfold coordAlong
  rw [if_neg (fun h => not_isX_of_isY h hx), if_pos hx]

theorem HAxes.ranksX (ha : HAxes dims ky kx) (l : Layout) : ranksAlong l (dims.getD kx .x) = l.x := by
  have hx := (ha.x kx _ (get?_of_lt dims .x ha.xlt)).2 rfl
  unfold ranksAlong
  rw [if_neg (fun h => not_isX_of_isY h hx), if_pos hx]

/-- Along one axis: the chunks of a rank. -/
theorem chunk_along {c n s p : Int} {ci : Nat} (hc : 0 < c) (hp0 : 0 ≤ p) (hpn : p < n) (hs : 0 ≤ s ∧ s ≤ 1)
    (h1 : (p * c).toNat / c.toNat ≤ ci)
    (h2 : ci < ((p * c + (c + if p = n - 1 then s else 0)).toNat - 1) / c.toNat + 1) :
    min (ci : Int) (n - 1) = p := by
  obtain ⟨c, rfl⟩ := Int.eq_ofNat_of_zero_le (by omega : 0 ≤ c)
  obtain ⟨p, rfl⟩ := Int.eq_ofNat_of_zero_le hp0
  have hc' : 0 < c := by omega
  have e1 : ((p : Int) * (c : Int)).toNat = p * c := by rw [← Int.natCast_mul]; rfl
  rw [e1, Int.toNat_natCast, Nat.mul_div_cancel _ hc'] at h1
  rw [Int.toNat_natCast] at h2
  by_cases hl : (p : Int) = n - 1
  · rw [if_pos hl] at h2
    have : min (ci : Int) (n - 1) = n - 1 := by omega
    omega
  · rw [if_neg hl] at h2
    have e2 : ((p : Int) * (c : Int) + ((c : Int) + 0)).toNat = p * c + c := by rw [← Int.natCast_mul]; omega
    rw [e2] at h2
    have : (p * c + c - 1) / c = p := by
      rw [Nat.div_eq_iff hc']
      constructor
      · omega
      · have : (p + 1) * c = p * c + c := by rw [Nat.add_mul, Nat.one_mul]
        omega
    rw [this] at h2
    omega

theorem varChunks_length (h : cells.length = dims.length) : (varChunks cells).length = dims.length + 2 := by
  simp [varChunks, h]

theorem partBox_length (r : Int) (t : Nat) : (partBox l dims cells r t).length = dims.length + 2 := by
  simp [partBox]

theorem varChunks_getD {k : Nat} (hk : k < cells.length) : (varChunks cells).getD (k + 2) 0 = (cells.getD k 0).toNat := by
  simp only [varChunks, List.getD_cons_succ]
  rw [getD_lt _ (by simpa using hk), List.getElem_map, getD_lt _ hk]

theorem partBox_getD (r : Int) (t : Nat) {k : Nat} (hk : k < dims.length) :
    (partBox l dims cells r t).getD (k + 2) (0, 0) =
      ((startAt l dims cells r k).toNat, (startAt l dims cells r k + lenAt l dims cells r k).toNat) := by
  simp only [partBox, List.getD_cons_succ]
  rw [getD_tab _ _ hk]

theorem chunkBox_getD {box : List (Nat × Nat)} {ch : List Nat} (hl : box.length = ch.length) {k : Nat} (hk : k < box.length) :
    (chunkBox box ch).getD k (0, 0) = ((box.getD k (0, 0)).1 / ch.getD k 0, ((box.getD k (0, 0)).2 - 1) / ch.getD k 0 + 1) := by
  unfold chunkBox
  rw [List.getD_eq_getElem?_getD, List.getElem?_zipWith, get?_of_lt box (0, 0) hk, get?_of_lt ch 0 (by omega)]
  rfl

/-- A rank stores only chunks it owns. -/
theorem TileVar.owned (h : TileVar l dims cells tile ky kx) {r : Int} (hr : 0 ≤ r) {t : Nat} {ci : List Nat}
    (hci : ci ∈ boxIdx (chunkBox (partBox l dims cells r t) (varChunks cells))) :
    varOwner l ky kx ci = r := by
  have hcl : cells.length = dims.length := h.tile.1
  have hlen : (partBox l dims cells r t).length = (varChunks cells).length := by
    rw [partBox_length, varChunks_length hcl]
  rw [mem_boxIdx] at hci
  have hcb : (chunkBox (partBox l dims cells r t) (varChunks cells)).length = dims.length + 2 := by
    simp [chunkBox, partBox_length, varChunks_length hcl]
  rw [hcb] at hci
  obtain ⟨-, hci⟩ := hci
  have hpos : 0 < l.y * l.x := Int.mul_pos h.safe.ypos h.safe.xpos
  have htile : ((ci.getD 1 0 : Nat) : Int) = r / (l.y * l.x) := by
    have h1 := hci 1 (by omega)
    rw [chunkBox_getD hlen (by rw [partBox_length]; omega)] at h1
    simp only [partBox, varChunks, List.getD_cons_succ, List.getD_cons_zero, Nat.div_one, Nat.add_sub_cancel] at h1
    have : 0 ≤ r / (l.y * l.x) := Int.ediv_nonneg hr (by omega)
    omega
  have haxis : ∀ k, k < dims.length → min ((ci.getD (k + 2) 0 : Nat) : Int) (ranksAlong l (dims.getD k .x) - 1) =
      coordAlong (subtileIndex l r) (dims.getD k .x) := by
    intro k hk
    have h1 := hci (k + 2) (by omega)
    rw [chunkBox_getD hlen (by rw [partBox_length]; omega), partBox_getD r t hk,
      varChunks_getD (by rw [hcl]; exact hk)] at h1
    obtain ⟨h2, h3⟩ := coordAlong_range h.safe r (dims.getD k .x)
    exact chunk_along (h.cells k hk) h2 h3 (nShared_range _) h1.1 h1.2
  have hy := haxis ky h.axes.ylt
  have hx := haxis kx h.axes.xlt
  rw [HAxes.coordY h.axes, HAxes.ranksY h.axes] at hy
  rw [HAxes.coordX h.axes, HAxes.ranksX h.axes] at hx
  unfold varOwner
  rw [htile, hy, hx, mkRank_eta h.safe.ypos h.safe.xpos]

/-- `rel` is a point that rank `r` stores. -/
def Stored (l : Layout) (dims : List Dim) (cells : List Int) (r : Int) (rel : List Nat) : Prop :=
  rel.length = dims.length ∧ ∀ k, k < dims.length → ((rel.getD k 0 : Nat) : Int) < lenAt l dims cells r k

theorem place_cube (l : Layout) (r : Int) (rel : List Nat) : Comm.place (.cube l) dims cells r rel =
    (r / (l.y * l.x)).toNat :: tab dims.length fun k => (startAt l dims cells r k + (rel.getD k 0 : Nat)).toNat := rfl

theorem stored_in_box (h : TileVar l dims cells tile ky kx) {r : Int} {rel : List Nat} (hrel : Stored l dims cells r rel)
    (t : Nat) : t :: Comm.place (.cube l) dims cells r rel ∈ boxIdx (partBox l dims cells r t) := by
  rw [mem_boxIdx, partBox_length, place_cube]
  refine ⟨by simp, ?_⟩
  intro k hk
  match k with
  | 0 => simp [partBox]
  | 1 => simp [partBox]
  | k + 2 =>
    have hk' : k < dims.length := by omega
    rw [partBox_getD r t hk']
    simp only [List.getD_cons_succ]
    rw [getD_tab _ _ hk']
    have h1 := hrel.2 k hk'
    have h2 := (startAt_range h.safe h.tile r hk').1
    omega

/-- In which place of the value the point is found. -/
theorem stored_rel (h : TileVar l dims cells tile ky kx) {r : Int} {rel : List Nat} (hrel : Stored l dims cells r rel)
    (t : Nat) : (List.zipWith (· - ·) (t :: Comm.place (.cube l) dims cells r rel)
      ((partBox l dims cells r t).map (·.1))).drop 2 = rel := by
  rw [place_cube]
  simp only [partBox, List.map_cons, List.zipWith_cons_cons, List.drop_succ_cons, List.drop_zero]
  apply ext_getD 0
  · simp [hrel.1]
  · intro k hk
    have hk' : k < dims.length := by simpa using hk
    rw [List.getD_eq_getElem?_getD, List.getElem?_zipWith, get?_of_lt (tab dims.length _) 0 (by simpa using hk'),
      List.getElem?_map, get?_of_lt (tab dims.length _) ((0 : Nat), (0 : Nat)) (by simpa using hk'),
      getD_tab _ _ hk', getD_tab _ _ hk']
    have h2 := (startAt_range h.safe h.tile r hk').1
    simp only [Option.map_some, Option.getD_some]
    omega

/-- Every point of a tile is stored by the highest rank that has it. -/
theorem responsible (h : TileVar l dims cells tile ky kx) {T : Nat} (hT : T < 6) {p : List Nat}
    (hp : InB (tile.map Int.toNat) p) :
    ∃ r rel, HighestAt (.cube l) dims cells (rankShape dims cells) r rel ∧
      Comm.place (.cube l) dims cells r rel = T :: p ∧ Stored l dims cells r rel := by
  have hy := h.safe.ypos
  have hx := h.safe.xpos
  rw [inB_map_toNat, h.tile.2.1] at hp
  obtain ⟨hpl, hpk⟩ := hp
  have hcl : cells.length = dims.length := h.tile.1
  -- coordinate of the owner along each axis
  let o : Nat → Int := fun k => owner (cells.getD k 0) (ranksAlong l (dims.getD k .x)) (p.getD k 0 : Nat)
  have ho : ∀ k, k < dims.length → (0 ≤ o k ∧ o k < ranksAlong l (dims.getD k .x)) ∧
      o k * cells.getD k 0 ≤ (p.getD k 0 : Nat) ∧ ((p.getD k 0 : Nat) : Int) < o k * cells.getD k 0 +
        (cells.getD k 0 + if o k = ranksAlong l (dims.getD k .x) - 1 then nShared (dims.getD k .x) else 0) := by
    intro k hk
    obtain ⟨h1, h2, h3⟩ := tileOf_getD h.tile hk
    have hr := owner_range (c := cells.getD k 0) (n := ranksAlong l (dims.getD k .x)) (x := (p.getD k 0 : Nat)) h1
      (ranksAlong_pos h.safe _) (by omega)
    have hpk' := hpk k hk
    rw [h3] at hpk'
    have hs := (owner_spec (p := o k) h1 (nShared_range (dims.getD k .x)) (by omega) hpk' hr.2).2 rfl
    refine ⟨hr, hs.1, ?_⟩
    have := hs.2
    split_ifs at this ⊢ <;> omega
  have hky := ho ky h.axes.ylt
  have hkx := ho kx h.axes.xlt
  rw [HAxes.ranksY h.axes] at hky
  rw [HAxes.ranksX h.axes] at hkx
  let r := mkRank l T (o ky) (o kx)
  have hsub : subtileIndex l r = (o ky, o kx) := subtileIndex_mkRank hy hx hky.1.1 hky.1.2 hkx.1.1 hkx.1.2
  have hrr : 0 ≤ r ∧ r < 6 * (l.y * l.x) := (mkRank_range hx hky.1.1 hky.1.2 hkx.1.1 hkx.1.2 6).2 (by omega)
  have htile : r / (l.y * l.x) = T := by
    have := tileIndex_mkRank (t := (T : Int)) hy hx hky.1.1 hky.1.2 hkx.1.1 hkx.1.2
    rw [tileIndex_eq hy hx] at this
    injection this
  have hcoord : ∀ k, k < dims.length → coordAlong (subtileIndex l r) (dims.getD k .x) = o k := by
    intro k hk
    rw [hsub]
    by_cases hY : IsY (dims.getD k .x)
    · have : k = ky := (h.axes.y k _ (get?_of_lt dims .x hk)).1 hY
      subst this
      rw [HAxes.coordY h.axes]
    · by_cases hX : IsX (dims.getD k .x)
      · have : k = kx := (h.axes.x k _ (get?_of_lt dims .x hk)).1 hX
        subst this
        rw [HAxes.coordX h.axes]
      · have h1 := (ho k hk).1
        have : ranksAlong l (dims.getD k .x) = 1 := by unfold ranksAlong; rw [if_neg hY, if_neg hX]
        have e : coordAlong (o ky, o kx) (dims.getD k .x) = 0 := by unfold coordAlong; rw [if_neg hY, if_neg hX]
        rw [e]; omega
  let rel := tab dims.length fun k => (((p.getD k 0 : Nat) : Int) - startAt l dims cells r k).toNat
  have hstart : ∀ k, k < dims.length → startAt l dims cells r k = o k * cells.getD k 0 := by
    intro k hk; unfold startAt; rw [hcoord k hk]
  have hlen : ∀ k, k < dims.length → lenAt l dims cells r k =
      (cells.getD k 0 + if o k = ranksAlong l (dims.getD k .x) - 1 then nShared (dims.getD k .x) else 0) := by
    intro k hk; unfold lenAt; rw [hcoord k hk]
  have hstored : Stored l dims cells r rel := by
    refine ⟨by simp [rel], ?_⟩
    intro k hk
    rw [getD_tab _ _ hk, hlen k hk, hstart k hk]
    have := ho k hk
    omega
  have hplace : Comm.place (.cube l) dims cells r rel = T :: p := by
    rw [place_cube, htile, Int.toNat_natCast]
    congr 1
    apply ext_getD 0
    · simp [hpl]
    · intro k hk
      have hk' : k < dims.length := by simpa using hk
      rw [getD_tab _ _ hk', getD_tab _ _ hk']
      have := ho k hk'
      have := hstart k hk'
      omega
  refine ⟨r, rel, ⟨(mem_ranks (.cube l) r).2 hrr, ?_, ?_⟩, hplace, hstored⟩
  · unfold rankShape
    rw [inB_tab]
    refine ⟨by simp [rel], ?_⟩
    intro k hk
    have h1 := hstored.2 k hk
    have h2 := (lenAt_le (l := l) (dims := dims) (cells := cells) r k).2
    omega
  · intro r' hr' rel' hrel' he
    rw [hplace, place_cube] at he
    injection he with he1 he2
    have hr'' := (mem_ranks (.cube l) r').1 hr'
    have hp0 : 0 < l.y * l.x := Int.mul_pos hy hx
    have ht' : r' / (l.y * l.x) = T := by
      have : 0 ≤ r' / (l.y * l.x) := Int.ediv_nonneg hr''.1 (by omega)
      omega
    have hle : ∀ k, k < dims.length → coordAlong (subtileIndex l r') (dims.getD k .x) ≤ o k := by
      intro k hk
      have e : (tab dims.length fun k => (startAt l dims cells r' k + (rel'.getD k 0 : Nat)).toNat).getD k 0 = p.getD k 0 := by
        rw [he2]
      rw [getD_tab _ _ hk] at e
      obtain ⟨h1, h2⟩ := coordAlong_range h.safe r' (dims.getD k .x)
      have h3 := (startAt_range h.safe h.tile r' hk).1
      have h4 := ho k hk
      have hc := h.cells k hk
      have h5 : startAt l dims cells r' k ≤ (p.getD k 0 : Nat) := by omega
      by_contra hlt
      have hn : ¬ o k = ranksAlong l (dims.getD k .x) - 1 := by omega
      rw [if_neg hn] at h4
      unfold startAt at h5
      have h6 : (o k + 1) * cells.getD k 0 ≤ coordAlong (subtileIndex l r') (dims.getD k .x) * cells.getD k 0 :=
        Int.mul_le_mul_of_nonneg_right (by omega) (by omega)
      have h7 : (o k + 1) * cells.getD k 0 = o k * cells.getD k 0 + cells.getD k 0 := by
        rw [Int.add_mul, Int.one_mul]
      omega
    have hy' := hle ky h.axes.ylt
    have hx' := hle kx h.axes.xlt
    rw [HAxes.coordY h.axes] at hy'
    rw [HAxes.coordX h.axes] at hx'
    rw [← mkRank_eta hy hx r', ht']
    unfold r mkRank
    have : (subtileIndex l r').1 * l.x ≤ o ky * l.x := Int.mul_le_mul_of_nonneg_right hy' (by omega)
    omega

end

end Zarr
end FV3
