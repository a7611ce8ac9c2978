import Verif.Spec.Sizer
import Verif.Proofs.Dict
import Verif.Props.Halo
import Verif.Props.Partition

/-!
# C32: quantities sized by `SubtileGridSizer`
-/

namespace FV3
variable {α : Type}

theorem horizontal_iff (d : Dim) : d ∈ HORIZONTAL_DIMS ↔ IsX d ∨ IsY d := by
  simp [HORIZONTAL_DIMS, X_DIMS, Y_DIMS, IsX, IsY, or_assoc]

theorem dimExtents_get (s : GridSizer) (d : Dim) :
    s.dimExtents.get? d = (s.cellsAlong d).map (pointsOf d) := by
  unfold GridSizer.dimExtents GridSizer.cellsAlong
  simp only [Dict.get?_set]
  cases d <;> simp [IsX, IsY, pointsOf] <;> (cases s.extra.get? _ <;> rfl)

/-- The array length along a dimension with `c` cells. -/
def shapeOf (s : GridSizer) (d : Dim) (c : Int) : Int :=
  if IsX d ∨ IsY d then s.nHalo + (c + 1) + s.nHalo else if d = .z ∨ d = .zI then c + 1 else c

theorem shapeDict_get (s : GridSizer) (d : Dim) :
    s.shapeDict.get? d = (s.cellsAlong d).map (shapeOf s d) := by
  unfold GridSizer.shapeDict GridSizer.cellsAlong
  simp only [Dict.get?_set]
  cases d <;> simp [IsX, IsY, shapeOf] <;> first | omega | (cases s.extra.get? _ <;> rfl)

theorem lookupAll_ok {d : Dict Dim Int} {dims : List Dim} {f : Dim → Int}
    (h : ∀ k ∈ dims, d.get? k = some (f k)) : GridSizer.lookupAll d dims = .ok (dims.map f) := by
  induction dims with
  | nil => rfl
  | cons k ks ih =>
    unfold GridSizer.lookupAll
    rw [h k (List.mem_cons_self ..), ih fun k' hk' => h k' (List.mem_cons_of_mem _ hk')]
    rfl

theorem lookupAll_missing {d : Dict Dim Int} {dims : List Dim} (h : ∃ k ∈ dims, d.get? k = none) :
    GridSizer.lookupAll d dims = .error .keyError := by
  induction dims with
  | nil => obtain ⟨k, hk, -⟩ := h; cases hk
  | cons k ks ih =>
    unfold GridSizer.lookupAll
    cases hk : d.get? k with
    | none => rfl
    | some v =>
      obtain ⟨k', hk', hn⟩ := h
      have : k' ∈ ks := by
        rcases List.mem_cons.1 hk' with rfl | h'
        · rw [hk] at hn; cases hn
        · exact h'
      simp only [ih ⟨k', this, hn⟩]
      rfl

theorem allocate_eq (s : GridSizer) (hs : s.Valid) (fill : List Nat → α) (dims : List Dim) (units : String)
    (c : Dim → Int) (hc : ∀ d ∈ dims, s.cellsAlong d = some (c d)) :
    s.allocate fill dims units =
      .ok ⟨⟨dims.map fun d => (shapeOf s d (c d)).toNat, fill⟩, dims, units,
        dims.map fun d => if d ∈ HORIZONTAL_DIMS then s.nHalo else 0, dims.map fun d => pointsOf d (c d)⟩ := by
  have c0 : ∀ d ∈ dims, 0 ≤ c d := by
    intro d hd
    have := hc d hd
    unfold GridSizer.cellsAlong at this
    have h1 := hs.nx
    have h2 := hs.ny
    have h3 := hs.nz
    repeat' split at this
    all_goals first
      | (have e := Option.some.inj this; omega)
      | exact hs.extra _ _ this
  unfold GridSizer.allocate GridSizer.getExtent GridSizer.getShape
  rw [lookupAll_ok (f := fun d => pointsOf d (c d)) fun d hd => by rw [dimExtents_get, hc d hd]; rfl,
    lookupAll_ok (f := fun d => shapeOf s d (c d)) fun d hd => by rw [shapeDict_get, hc d hd]; rfl]
  have hp : ((dims.map fun d => shapeOf s d (c d)).all fun n => decide (0 ≤ n)) = true := by
    rw [List.all_eq_true]
    intro n hn
    obtain ⟨d, hd, rfl⟩ := List.mem_map.1 hn
    have := c0 d hd
    have := hs.nHalo
    simp only [decide_eq_true_eq]
    unfold shapeOf
    split
    · omega
    · split <;> omega
  simp only [bind, Except.bind, npFull, hp, if_true, Quantity.mk?, Option.getD_some, validateLengths]
  simp [GridSizer.getOrigin, List.map_map, Function.comp_def, pure, Except.pure]

/-- **C32**: an allocated quantity has the requested dimensions and units and, along each axis, the
origin, extent and array length of `AxisOk`; its compute domain is inside the array. -/
theorem C32_allocate (s : GridSizer) (hs : s.Valid) (fill : List Nat → α) (dims : List Dim) (units : String)
    (hd : ∀ d ∈ dims, s.cellsAlong d ≠ none) :
    ∃ q, s.allocate fill dims units = .ok q ∧ q.dims = dims ∧ q.units = units ∧ q.WF ∧
      (∀ idx, q.data.get idx = fill idx) ∧
      ∀ k, k < q.ndim → ∃ c, s.cellsAlong (q.d k) = some c ∧ 0 ≤ c ∧
        s.AxisOk (q.d k) c (q.o k) (q.e k) (q.n k) := by
  have hc : ∀ d ∈ dims, s.cellsAlong d = some ((s.cellsAlong d).getD 0) := by
    intro d h
    cases e : s.cellsAlong d with
    | none => exact absurd e (hd d h)
    | some v => rfl
  have c0 : ∀ d ∈ dims, 0 ≤ (s.cellsAlong d).getD 0 := by
    intro d h
    have := hc d h
    generalize (s.cellsAlong d).getD 0 = v at this
    unfold GridSizer.cellsAlong at this
    have h1 := hs.nx
    have h2 := hs.ny
    have h3 := hs.nz
    repeat' split at this
    all_goals first
      | (have e := Option.some.inj this; omega)
      | exact hs.extra _ _ this
  refine ⟨_, allocate_eq s hs fill dims units _ hc, rfl, rfl, ?_⟩
  generalize hq : (⟨⟨_, fill⟩, dims, units, _, _⟩ : Quantity α) = q
  have hn : q.ndim = dims.length := by rw [← hq]; rfl
  have ax : ∀ k, k < q.ndim → s.cellsAlong (q.d k) = some ((s.cellsAlong (q.d k)).getD 0) ∧
      0 ≤ (s.cellsAlong (q.d k)).getD 0 ∧
      s.AxisOk (q.d k) ((s.cellsAlong (q.d k)).getD 0) (q.o k) (q.e k) (q.n k) := by
    intro k hk
    rw [hn] at hk
    have ed : q.d k = dims[k] := by rw [← hq]; simp [Quantity.d, List.getD, hk]
    have eo : q.o k = if dims[k] ∈ HORIZONTAL_DIMS then s.nHalo else 0 := by
      rw [← hq]; simp [Quantity.o, List.getD, hk]
    have ee : q.e k = pointsOf dims[k] ((s.cellsAlong dims[k]).getD 0) := by
      rw [← hq]; simp [Quantity.e, List.getD, hk]
    have en : q.n k = ((shapeOf s dims[k] ((s.cellsAlong dims[k]).getD 0)).toNat : Int) := by
      rw [← hq]; simp [Quantity.n, List.getD, hk]
    have m := List.getElem_mem hk
    have := c0 _ m
    have := hs.nHalo
    rw [ed]
    refine ⟨hc _ m, c0 _ m, ?_, ee, ?_⟩
    · rw [eo]; simp only [horizontal_iff]
    · rw [en]
      unfold shapeOf
      split
      · omega
      · split <;> omega
  refine ⟨⟨⟨?_, ?_, ?_⟩, ?_⟩, ?_, fun k hk => ⟨_, ax k hk⟩⟩
  · rw [← hq]; simp [Quantity.ndim]
  · rw [← hq]; simp [Quantity.ndim]
  · rw [← hq]; simp [Quantity.ndim]
  · intro k hk
    obtain ⟨-, h0, h1, h2, h3⟩ := ax k hk
    have := hs.nHalo
    rw [h1, h2, h3]
    unfold pointsOf
    generalize hdk : q.d k = d at *
    cases d <;> simp [IsX, IsY] <;> omega
  · intro idx; rw [← hq]

/-- **C32**: cell centre and interface arrays have one shape. -/
theorem C32_one_shape (s : GridSizer) (hs : s.Valid) (fill : List Nat → α) (dims dims' : List Dim)
    (u u' : String) (q q' : Quantity α) (h : s.allocate fill dims u = .ok q)
    (h' : s.allocate fill dims' u' = .ok q') (k : Nat) (hk : k < q.ndim) (hk' : k < q'.ndim)
    (same : (IsX (q.d k) ∧ IsX (q'.d k)) ∨ (IsY (q.d k) ∧ IsY (q'.d k)) ∨
      ((q.d k = .z ∨ q.d k = .zI) ∧ (q'.d k = .z ∨ q'.d k = .zI))) :
    q.n k = q'.n k := by
  have known : ∀ {dims : List Dim} {u : String} {q : Quantity α}, s.allocate fill dims u = .ok q →
      ∀ d ∈ dims, s.cellsAlong d ≠ none := by
    intro dims u q h d hd hn
    unfold GridSizer.allocate GridSizer.getExtent at h
    rw [lookupAll_missing ⟨d, hd, by rw [dimExtents_get, hn]; rfl⟩] at h
    cases h
  obtain ⟨p, e, -, -, -, -, ax⟩ := C32_allocate s hs fill dims u (known h)
  obtain ⟨p', e', -, -, -, -, ax'⟩ := C32_allocate s hs fill dims' u' (known h')
  obtain rfl := Except.ok.inj (h.symm.trans e)
  obtain rfl := Except.ok.inj (h'.symm.trans e')
  obtain ⟨c, hc, -, -, -, hn⟩ := ax k hk
  obtain ⟨c', hc', -, -, -, hn'⟩ := ax' k hk'
  rw [hn, hn']
  unfold GridSizer.cellsAlong at hc hc'
  rcases same with ⟨a, b⟩ | ⟨a, b⟩ | ⟨a, b⟩
  · rw [if_pos a] at hc; rw [if_pos b] at hc'
    have e1 := Option.some.inj hc
    have e2 := Option.some.inj hc'
    simp only [a, b, true_or, if_true]; omega
  · have na : ¬ IsX (q.d k) := by rcases a with a | a <;> rw [a] <;> simp [IsX]
    have nb : ¬ IsX (q'.d k) := by rcases b with a | a <;> rw [a] <;> simp [IsX]
    rw [if_neg na, if_pos a] at hc; rw [if_neg nb, if_pos b] at hc'
    have e1 := Option.some.inj hc
    have e2 := Option.some.inj hc'
    simp only [a, b, or_true, if_true]; omega
  · have na : ¬ IsX (q.d k) ∧ ¬ IsY (q.d k) := by rcases a with a | a <;> rw [a] <;> simp [IsX, IsY]
    have nb : ¬ IsX (q'.d k) ∧ ¬ IsY (q'.d k) := by rcases b with a | a <;> rw [a] <;> simp [IsX, IsY]
    rw [if_neg na.1, if_neg na.2, if_pos a] at hc; rw [if_neg nb.1, if_neg nb.2, if_pos b] at hc'
    have e1 := Option.some.inj hc
    have e2 := Option.some.inj hc'
    simp only [na, nb, a, b, or_self, if_false, if_true]; omega

/-- **C32**: a dimension which is neither of the grid nor given raises KeyError. -/
theorem C32_unknown_dim (s : GridSizer) (fill : List Nat → α) (dims : List Dim) (units : String)
    (h : ∃ d ∈ dims, s.cellsAlong d = none) : s.allocate fill dims units = .error .keyError := by
  obtain ⟨d, hd, hn⟩ := h
  unfold GridSizer.allocate GridSizer.getExtent
  rw [lookupAll_missing ⟨d, hd, by rw [dimExtents_get, hn]; rfl⟩]
  rfl

/-- The sizes along the dimensions of a tile. -/
theorem tileParams_tileOf {l : Layout} {nx ny : Int} (hx : 0 ≤ nx) (hy : 0 ≤ ny) (bx : nx * l.x < 2 ^ 51)
    (bY : ny * l.y < 2 ^ 51) : TileOf l [.y, .x] [ny, nx] [ny * l.y, nx * l.x] := by
  refine ⟨rfl, rfl, fun k d c t hd hc ht => ?_⟩
  match k, hd, hc, ht with
  | 0, hd, hc, ht =>
    simp at hd hc ht; subst hd hc ht
    exact ⟨hy, by simp [ranksAlong, IsY]; omega, by simp [ranksAlong, IsY, pointsOf]⟩
  | 1, hd, hc, ht =>
    simp at hd hc ht; subst hd hc ht
    exact ⟨hx, by simp [ranksAlong, IsY, IsX]; omega, by simp [ranksAlong, IsY, IsX, pointsOf]⟩
  | k + 2, hd, hc, ht => simp at hd

/-- **C32**: from the sizes of a tile divided evenly by the layout, `from_tile_params` gets the sizes of
its ranks, on each rank. -/
theorem C32_from_tile_params (l : Layout) (hl : FloatSafe l) (nx ny nz nHalo : Int) (extra : Dict Dim Int)
    (hx : 0 ≤ nx) (hy : 0 ≤ ny) (bx : nx * l.x < 2 ^ 51) (bY : ny * l.y < 2 ^ 51) (rank : Int) :
    GridSizer.fromTileParams (nx * l.x) (ny * l.y) nz nHalo extra l none rank = ⟨nx, ny, nz, nHalo, extra⟩ ∧
    ∀ l', GridSizer.fromTileParams (nx * l.x) (ny * l.y) nz nHalo extra l' (some l) rank =
      ⟨nx, ny, nz, nHalo, extra⟩ := by
  have T := tileParams_tileOf hx hy bx bY
  have h0 := subtileSlice_get hl T (subtileIndex l rank) true (k := 0) rfl rfl rfl
  have h1 := subtileSlice_get hl T (subtileIndex l rank) true (k := 1) rfl rfl rfl
  have hlen := subtileSlice_length [.y, .x] [ny * l.y, nx * l.x] l (subtileIndex l rank) true rfl
  have key : ∀ l', GridSizer.fromTileParams (nx * l.x) (ny * l.y) nz nHalo extra l' (some l) rank =
      ⟨nx, ny, nz, nHalo, extra⟩ := by
    intro l'
    unfold GridSizer.fromTileParams Tile.subtileSlice
    simp only [Option.getD_some]
    match hm : FV3.subtileSlice [.y, .x] [ny * l.y, nx * l.x] l (subtileIndex l rank) true, hlen with
    | [a, b], _ =>
      rw [hm] at h0 h1
      simp only [List.getElem?_cons_zero, List.getElem?_cons_succ, Option.some.injEq, or_true, if_true] at h0 h1
      have e1 : nShared Dim.y = 0 := by decide
      have e2 : nShared Dim.x = 0 := by decide
      simp only [h0, h1, e1, e2]
      congr 1 <;> omega
  exact ⟨key l, key⟩

/-- **C32**: a namelist gives the numbers of interfaces of a tile in `npx` and `npy` and of levels in `npz`;
when the layout divides the cells evenly, `from_namelist` gets the sizes of the ranks, with three halo points
and no further dimensions. -/
theorem C32_from_namelist (l : Layout) (hl : FloatSafe l) (nx ny nz : Int)
    (hx : 0 ≤ nx) (hy : 0 ≤ ny) (bx : nx * l.x < 2 ^ 51) (bY : ny * l.y < 2 ^ 51) (rank : Int) :
    GridSizer.fromNamelist ⟨l, nx * l.x + 1, ny * l.y + 1, nz⟩ none rank = ⟨nx, ny, nz, 3, []⟩ := by
  have := (C32_from_tile_params l hl nx ny nz 3 [] hx hy bx bY rank).1
  unfold GridSizer.fromNamelist
  simp only [Int.add_sub_cancel]
  exact this

/-- **C32**: the extents of the quantities are the extents which the partitioner gives the ranks of the
tile whose sizes were given, and the tile extents computed from the quantities are those of the tile. -/
theorem C32_extents (l : Layout) (hl : FloatSafe l) (nx ny nz nHalo : Int) (extra : Dict Dim Int)
    (hs : (⟨nx, ny, nz, nHalo, extra⟩ : GridSizer).Valid) (bx : nx * l.x < 2 ^ 51) (bY : ny * l.y < 2 ^ 51)
    (rank : Int) (fill : List Nat → α) (dims : List Dim) (units : String)
    (hd : ∀ d ∈ dims, (⟨nx, ny, nz, nHalo, extra⟩ : GridSizer).cellsAlong d ≠ none)
    (hb : ∀ d ∈ dims, ∀ c, (⟨nx, ny, nz, nHalo, extra⟩ : GridSizer).cellsAlong d = some c → c < 2 ^ 51)
    (tile : List Int) (ht : tile.length = dims.length)
    (htile : ∀ (k : Nat) d t c, dims[k]? = some d → tile[k]? = some t →
      (⟨nx, ny, nz, nHalo, extra⟩ : GridSizer).cellsAlong d = some c → t = pointsOf d (c * ranksAlong l d)) :
    ∃ q, (GridSizer.fromTileParams (nx * l.x) (ny * l.y) nz nHalo extra l none rank).allocate fill dims units = .ok q ∧
      Tile.subtileExtent l dims tile = q.extent ∧ Tile.globalExtent l dims q.extent = tile := by
  rw [(C32_from_tile_params l hl nx ny nz nHalo extra hs.nx hs.ny bx bY rank).1]
  obtain ⟨q, e, hq, -, wf, -, ax⟩ := C32_allocate _ hs fill dims units hd
  refine ⟨q, e, ?_⟩
  have hnd : q.ndim = dims.length := by unfold Quantity.ndim; rw [hq]
  have hdk : ∀ (k : Nat) d, dims[k]? = some d → q.d k = d := by
    intro k d h; unfold Quantity.d; rw [hq, List.getD, h]; rfl
  let cells := dims.map fun d => ((⟨nx, ny, nz, nHalo, extra⟩ : GridSizer).cellsAlong d).getD 0
  have cget : ∀ (k : Nat) d c, dims[k]? = some d → cells[k]? = some c →
      (⟨nx, ny, nz, nHalo, extra⟩ : GridSizer).cellsAlong d = some c ∧ 0 ≤ c := by
    intro k d c h1 h2
    simp only [cells, List.getElem?_map, h1, Option.map_some, Option.some.injEq] at h2
    have hk : k < q.ndim := by rw [hnd]; exact (List.getElem?_eq_some_iff.1 h1).1
    obtain ⟨c', hc', h0, -⟩ := ax k hk
    rw [hdk k d h1] at hc'
    rw [hc'] at h2
    simp at h2
    subst h2
    exact ⟨hc', h0⟩
  have T : TileOf l dims cells tile := by
    refine ⟨by simp [cells], ht, fun k d c t h1 h2 h3 => ?_⟩
    obtain ⟨hc, h0⟩ := cget k d c h1 h2
    refine ⟨h0, ?_, htile k d t c h1 h3 hc⟩
    have hm : d ∈ dims := List.mem_of_getElem? h1
    have := hb d hm c hc
    unfold GridSizer.cellsAlong at hc
    unfold ranksAlong
    by_cases y : IsY d
    · have nx : ¬ IsX d := by rcases y with a | a <;> rw [a] <;> simp [IsX]
      rw [if_neg nx, if_pos y] at hc
      have := Option.some.inj hc
      rw [if_pos y, ← this]; exact bY
    · by_cases x : IsX d
      · rw [if_pos x] at hc
        have := Option.some.inj hc
        rw [if_neg y, if_pos x, ← this]; exact bx
      · rw [if_neg y, if_neg x]; omega
  obtain ⟨R, G⟩ := C05_global_of_subtile_partial l hl dims cells tile T
  have E : Tile.subtileExtent l dims tile = q.extent := by
    have el : q.extent.length = dims.length := by rw [wf.extent, hnd]
    apply List.ext_getElem (by rw [R.2.1, el])
    intro k k1 k2
    have kd : k < dims.length := by omega
    have h1 : dims[k]? = some dims[k] := List.getElem?_eq_getElem kd
    have h2 : cells[k]? = some (cells[k]'(by simpa [cells] using kd)) := List.getElem?_eq_getElem _
    obtain ⟨-, h3⟩ := R.2.2 k _ _ _ h1 h2 (List.getElem?_eq_getElem k1)
    rw [h3]
    obtain ⟨c, hc, -, -, he, -⟩ := ax k (by rw [hnd]; exact kd)
    rw [hdk k _ h1] at hc he
    have := (cget k _ _ h1 h2).1
    rw [hc] at this
    rw [← Option.some.inj this, ← he]
    simp [Quantity.e, List.getD, k2]
  exact ⟨E, by rw [← E]; exact G⟩

/-- **C32**: the quantities have room for `n_halo` halo points. -/
theorem C32_halo_ready (s : GridSizer) (hs : s.Valid) (sq : s.ny = s.nx) (fill : List Nat → α)
    (dims : List Dim) (units : String) (ky kx : Nat) (hax : HAxes dims ky kx)
    (hd : ∀ d ∈ dims, s.cellsAlong d ≠ none) :
    ∃ q, s.allocate fill dims units = .ok q ∧ HaloReady q ky kx s.nx s.nHalo := by
  obtain ⟨q, e, hq, -, wf, -, ax⟩ := C32_allocate s hs fill dims units hd
  have hnd : q.ndim = dims.length := by unfold Quantity.ndim; rw [hq]
  have hgx : dims[kx]? = some (q.d kx) := by
    unfold Quantity.d; rw [hq]; simp [List.getD, hax.xlt]
  have hgy : dims[ky]? = some (q.d ky) := by
    unfold Quantity.d; rw [hq]; simp [List.getD, hax.ylt]
  have isX : IsX (q.d kx) := (hax.x kx _ hgx).2 rfl
  have isY : IsY (q.d ky) := (hax.y ky _ hgy).2 rfl
  have nX : ¬ IsX (q.d ky) := by rcases isY with a | a <;> rw [a] <;> simp [IsX]
  obtain ⟨cx, hcx, -, ox, ex, nx⟩ := ax kx (by rw [hnd]; exact hax.xlt)
  obtain ⟨cy, hcy, -, oy, ey, ny⟩ := ax ky (by rw [hnd]; exact hax.ylt)
  unfold GridSizer.cellsAlong at hcx hcy
  rw [if_pos isX] at hcx
  rw [if_neg nX, if_pos isY] at hcy
  have e1 := Option.some.inj hcx
  have e2 := Option.some.inj hcy
  simp only [isX, isY, true_or, or_true, if_true] at ox oy nx ny
  have px : pointsOf (q.d kx) cx = cx + overlapOf (q.d kx) := by
    unfold pointsOf overlapOf; split <;> omega
  have py : pointsOf (q.d ky) cy = cy + overlapOf (q.d ky) := by
    unfold pointsOf overlapOf; split <;> omega
  have bx := overlapOf_01 (q.d kx)
  have bY := overlapOf_01 (q.d ky)
  refine ⟨q, e, wf, by rw [hq]; exact hax, ?_, ?_, ?_, ?_⟩
  · rw [ey, py, ← e2, sq]
  · rw [ex, px, ← e1]
  · rw [oy, ey, py, ny]; omega
  · rw [ox, ex, px, nx]; omega

/-- **C32**: when all ranks allocate a quantity, with both horizontal axes at cell centres or both at
interfaces, halo updates of up to `n_halo` points complete and fill the halos. -/
theorem C32_halo_update [Neg α] (l : Layout) (hx : 0 < l.x) (hsq : l.y = l.x) (s : GridSizer) (hs : s.Valid)
    (sq : s.ny = s.nx) (dims : List Dim) (units : String) (ky kx : Nat)
    (hax : HAxes dims ky kx) (hd : ∀ d ∈ dims, s.cellsAlong d ≠ none)
    (hst : (Dim.xI ∈ dims ↔ Dim.yI ∈ dims)) (m : Int → Mem α) (q : Nat)
    (hm : ∀ r ∈ allRanks l, ∃ fill, s.allocate fill dims units = .ok (m r q))
    (h : Int) (h0 : 0 < h) (h1 : h ≤ s.nHalo) (hn : h ≤ s.nx) (buf : Buffering) :
    ∃ m' : Int → Mem α,
      ((callNet l [.haloUpdate q h] m).Completes buf fun r =>
        (.ok (), ⟨m' r, if r ∈ allRanks l then 1 else 0, []⟩)) ∧
      HaloFilled l q ky kx s.nx h m m' := by
  have dm : ∀ r ∈ allRanks l, (m r q).dims = dims := by
    intro r hr
    obtain ⟨fill, e⟩ := hm r hr
    obtain ⟨p, e', hp, -⟩ := C32_allocate s hs fill dims units hd
    obtain rfl := Except.ok.inj (e.symm.trans e')
    exact hp
  have ext : ∀ r ∈ allRanks l, ∀ k, k < (m r q).ndim → (m r q).e k =
      pointsOf ((m r q).d k) ((s.cellsAlong ((m r q).d k)).getD 0) := by
    intro r hr k hk
    obtain ⟨fill, e⟩ := hm r hr
    obtain ⟨p, e', hp, -, -, -, ax⟩ := C32_allocate s hs fill dims units hd
    obtain rfl := Except.ok.inj (e.symm.trans e')
    obtain ⟨c, hc, -, -, he, -⟩ := ax k hk
    rw [he, hc]; rfl
  apply C15_halo_update hx hsq h0 hn
  refine ⟨fun r hr => ?_, fun r hr r' hr' => by rw [dm r hr, dm r' hr'], fun r hr r' hr' k hk _ _ => ?_, fun r hr => ?_⟩
  · obtain ⟨fill, e⟩ := hm r hr
    obtain ⟨p, e', R⟩ := C32_halo_ready s hs sq fill dims units ky kx hax hd
    obtain rfl := Except.ok.inj (e.symm.trans e')
    have a := R.haloY
    have b := R.haloX
    exact ⟨R.wf, R.axes, R.ey, R.ex, by omega, by omega⟩
  · have hd' : (m r' q).d k = (m r q).d k := by unfold Quantity.d; rw [dm r hr, dm r' hr']
    have hk' : k < (m r' q).ndim := by unfold Quantity.ndim at hk ⊢; rwa [dm r' hr', ← dm r hr]
    rw [ext r hr k hk, ext r' hr' k hk', hd']
  · have hgx : dims[kx]? = some ((m r q).d kx) := by
      unfold Quantity.d; rw [dm r hr]; simp [List.getD, hax.xlt]
    have hgy : dims[ky]? = some ((m r q).d ky) := by
      unfold Quantity.d; rw [dm r hr]; simp [List.getD, hax.ylt]
    have isX : IsX ((m r q).d kx) := (hax.x kx _ hgx).2 rfl
    have isY : IsY ((m r q).d ky) := (hax.y ky _ hgy).2 rfl
    have a : Dim.xI ∈ dims ↔ (m r q).d kx = .xI := by
      constructor
      · intro hm
        obtain ⟨k, hk⟩ := List.mem_iff_getElem?.1 hm
        have := (hax.x k _ hk).1 (Or.inr rfl)
        rw [this] at hk
        exact Option.some.inj (hgx.symm.trans hk)
      · intro e; rw [← e]; exact List.mem_of_getElem? hgx
    have b : Dim.yI ∈ dims ↔ (m r q).d ky = .yI := by
      constructor
      · intro hm
        obtain ⟨k, hk⟩ := List.mem_iff_getElem?.1 hm
        have := (hax.y k _ hk).1 (Or.inr rfl)
        rw [this] at hk
        exact Option.some.inj (hgy.symm.trans hk)
      · intro e; rw [← e]; exact List.mem_of_getElem? hgy
    have c : (m r q).d kx = .xI ↔ (m r q).d ky = .yI := a.symm.trans (hst.trans b)
    rcases isX with x | x <;> rcases isY with y | y <;> rw [x, y] at c ⊢ <;> simp_all [overlapOf]

/-! ### A concrete case -/

/-- A tile of 48 × 48 cells on 2 × 2 ranks, 79 levels, 3 halo points and a tracer dimension. -/
def exSizer : GridSizer := .fromTileParams 48 48 79 3 [(.other "tracer", 8)] ⟨2, 2⟩

example : exSizer = ⟨24, 24, 79, 3, [(.other "tracer", 8)]⟩ :=
  (C32_from_tile_params ⟨2, 2⟩ (C05_safe_up_to_48 _ (by decide) (by decide) (by decide) (by decide))
    24 24 79 3 _ (by decide) (by decide) (by decide) (by decide) 0).1

example : exSizer.nx = 24 := by decide +kernel

theorem exSizer_valid : (⟨24, 24, 79, 3, [(.other "tracer", 8)]⟩ : GridSizer).Valid := by
  refine ⟨by decide, by decide, by decide, by decide, fun d v h => ?_⟩
  simp only [Dict.get?] at h
  split at h
  · cases h; decide
  · cases h

example : ∃ q : Quantity Nat, exSizer.allocate (fun _ => 0) [.zI, .yI, .x, .other "tracer"] "m" = .ok q ∧
    q.origin = [0, 3, 3, 0] ∧ q.extent = [80, 25, 24, 8] ∧ q.data.shape = [80, 31, 31, 8] := by
  refine ⟨_, rfl, ?_, ?_, ?_⟩ <;> decide +kernel

example : exSizer.allocate (fun _ => 0) [.zI, .yI, .x, .other "land"] "m" = .error .keyError := by
  have : exSizer = ⟨24, 24, 79, 3, [(.other "tracer", 8)]⟩ :=
    (C32_from_tile_params ⟨2, 2⟩ (C05_safe_up_to_48 _ (by decide) (by decide) (by decide) (by decide))
      24 24 79 3 _ (by decide) (by decide) (by decide) (by decide) 0).1
  rw [this]
  exact C32_unknown_dim _ _ _ _ ⟨.other "land", by simp, by decide⟩

/-- A network of ranks which all allocate a quantity, as in `C32_halo_update`. -/
example (buf : Buffering) : ∃ m m' : Int → Mem Int,
    (∀ r ∈ allRanks ⟨2, 2⟩, ∃ fill, exSizer.allocate fill [.y, .x, .z] "m" = .ok (m r 0)) ∧
    ((callNet ⟨2, 2⟩ [.haloUpdate 0 3] m).Completes buf fun r =>
      (.ok (), ⟨m' r, if r ∈ allRanks ⟨2, 2⟩ then 1 else 0, []⟩)) ∧
    HaloFilled ⟨2, 2⟩ 0 0 1 24 3 m m' := by
  have e : exSizer = ⟨24, 24, 79, 3, [(.other "tracer", 8)]⟩ :=
    (C32_from_tile_params ⟨2, 2⟩ (C05_safe_up_to_48 _ (by decide) (by decide) (by decide) (by decide))
      24 24 79 3 _ (by decide) (by decide) (by decide) (by decide) 0).1
  have hd : ∀ d ∈ [Dim.y, .x, .z], (⟨24, 24, 79, 3, [(.other "tracer", 8)]⟩ : GridSizer).cellsAlong d ≠ none := by
    decide
  have al : ∀ r : Int, ∃ q : Quantity Int, (⟨24, 24, 79, 3, [(.other "tracer", 8)]⟩ : GridSizer).allocate
      (fun _ => r) [.y, .x, .z] "m" = .ok q := fun r =>
    let ⟨q, h, _⟩ := C32_allocate _ exSizer_valid (fun _ => r) _ "m" hd
    ⟨q, h⟩
  choose q hq using al
  have hm : ∀ r ∈ allRanks ⟨2, 2⟩, ∃ fill,
      (⟨24, 24, 79, 3, [(.other "tracer", 8)]⟩ : GridSizer).allocate fill [.y, .x, .z] "m" = .ok (q r) :=
    fun r _ => ⟨_, hq r⟩
  obtain ⟨m', h1, h2⟩ := C32_halo_update ⟨2, 2⟩ (by decide) rfl _ exSizer_valid rfl [.y, .x, .z] "m" 0 1
    exQ_axes hd (by decide) (fun r _ => q r) 0 hm 3 (by decide) (by decide) (by decide) buf
  rw [e]
  exact ⟨_, m', hm, h1, h2⟩

/-- A namelist's `npx`, `npy` count interfaces. -/
example : (GridSizer.fromNamelist ⟨⟨2, 2⟩, 49, 49, 79⟩).nx = 24 := by decide +kernel

end FV3
