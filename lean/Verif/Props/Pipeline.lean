import Verif.Props.OpenRestart
import Verif.Props.Zarr
import Verif.Props.TileSession

/-!
# C69: restart files, gathered quantities and recordings fit together
-/

namespace FV3
variable {α : Type}

theorem rankShaped_shape {q : Quantity α} {dims : List Dim} {cells : List Int} (h : q.RankShaped dims cells) :
    q.computeArr.shape = rankShape dims cells := rankOf_shape h.extent

theorem cube_rank {l : Layout} (hl : FloatSafe l) {r : Int} (hr : r ∈ (Comm.cube l).ranks) :
    0 ≤ r / l.tileRanks ∧ r / l.tileRanks < 6 ∧ r % l.tileRanks ∈ (Comm.tile l).ranks ∧
      r = r / l.tileRanks * l.tileRanks + r % l.tileRanks := by
  have hn : 0 < l.tileRanks := tileRanks_pos hl.ypos hl.xpos
  have h1 := (mem_ranks (.cube l) r).1 hr
  have h2 : r < 6 * l.tileRanks := h1.2
  have h3 := Int.emod_nonneg r (show l.tileRanks ≠ 0 by omega)
  have h4 := Int.emod_lt_of_pos r hn
  refine ⟨Int.ediv_nonneg h1.1 (by omega), Int.ediv_lt_of_lt_mul hn h2,
    (mem_ranks (.tile l) _).2 ⟨h3, h4⟩, ?_⟩
  rw [Int.mul_comm]
  exact (Int.mul_ediv_add_emod r l.tileRanks).symm

/-- Two points at the same place, each of the highest rank there, are the same point. -/
theorem highest_unique {l : Layout} (hl : FloatSafe l) {dims : List Dim} {cells : List Int} {r r' : Int}
    {rel rel' : List Nat} (hc : ∀ k, k < dims.length → 0 ≤ cells.getD k 0)
    (h : HighestAt (.cube l) dims cells (rankShape dims cells) r rel)
    (h' : HighestAt (.cube l) dims cells (rankShape dims cells) r' rel')
    (he : (Comm.cube l).place dims cells r rel = (Comm.cube l).place dims cells r' rel') : r = r' ∧ rel = rel' := by
  have e : r = r' := by
    have := h.2.2 r' h'.1 rel' h'.2.1 he.symm
    have := h'.2.2 r h.1 rel h.2.1 he
    omega
  subst e
  refine ⟨rfl, ?_⟩
  obtain ⟨-, -, h3, h4⟩ := cube_rank hl h.1
  have h3 := (mem_ranks (.tile l) _).1 h3
  rw [h4, place_of_tile hl dims cells h3.1 h3.2, place_of_tile hl dims cells h3.1 h3.2] at he
  exact place_same_rank hl h.2.1 h'.2.1 hc (List.cons.inj he).2

/-- If all ranks have their parts of the quantities `f t` of the tiles, the highest rank at a place has the value of the
quantity of that tile there. -/
theorem tile_part {l : Layout} (hl : FloatSafe l) {dims : List Dim} {cells : List Int} {send f : Int → Quantity α}
    (hsh : ∀ r ∈ (Comm.cube l).ranks, (send r).RankShaped dims cells)
    (hpart : ∀ r ∈ (Comm.cube l).ranks, IsPart (.tile l) dims cells (f (r / l.tileRanks)) (send r) (r % l.tileRanks))
    {r : Int} {rel : List Nat} (hr : r ∈ (Comm.cube l).ranks) (hrel : InB (rankShape dims cells) rel) {T : Nat} {p : List Nat}
    (hp : (Comm.cube l).place dims cells r rel = T :: p) :
    (send r).computeArr.get rel = (f T).computeArr.get p := by
  obtain ⟨h1, h2, h3, h4⟩ := cube_rank hl hr
  have h3' := (mem_ranks (.tile l) _).1 h3
  rw [hpart r hr rel (by rw [rankShaped_shape (hsh r hr)]; exact hrel)]
  rw [h4, place_of_tile hl dims cells h3'.1 h3'.2] at hp
  obtain ⟨e1, e2⟩ := List.cons.inj hp
  rw [e2, ← e1, Int.toNat_of_nonneg h1]

/-- **C69**: what a `ZarrMonitor` holds of a variable at a step is what `gather` gives for the quantities of that step. -/
theorem C69_recorded_is_gathered {l : Layout} {enc : Int → α} {junk junk' : List Nat → α} {spec : String → Zarr.VarSpec}
    {q : String → Nat → Int → Quantity α} {tm : Nat → Zarr.ZTime} {k : Nat} {vars : List String}
    {st : Nat → Int → Zarr.State α} (buf : Nat → Bool) (buf' : Buffering)
    (hrec : Zarr.Recording l k vars spec q tm st) (hv : vars.Nodup) (hk : 0 < k) :
    ∃ S : Zarr.Store α,
      (Zarr.World.start (Zarr.recordAll l enc junk k st) Zarr.Store.empty).Completes buf (Comm.cube l).ranks
        (fun _ => .ok ()) S ∧
      ∀ name ∈ vars, ∀ t, t < k → ∃ root : Quantity α,
        (Comm.cube l).Returns buf' (fun r => gather (.cube l) junk' r (q name t r) none)
          (fun r => .ok (if r = 0 then some root else none)) ∧
        root.GlobalShaped (.cube l) (spec name).dims (spec name).cells ∧
        (∃ chunks attrs, S.infos name = some ⟨k :: root.computeArr.shape, chunks, attrs⟩) ∧
        ∀ idx, InB root.computeArr.shape idx → S.read name (t :: idx) = some (root.computeArr.get idx) := by
  have h0 : (0 : Int) ∈ (Comm.cube l).ranks := (mem_ranks (.cube l) 0).2 ⟨by omega, comm_size_pos (c := .cube l) hrec.safe⟩
  obtain ⟨S, h1, h2, -⟩ := Zarr.C39_recording (enc := enc) (junk := junk) buf hrec hv hk
  refine ⟨S, h1, fun name hn t ht => ?_⟩
  obtain ⟨⟨chunks, h3⟩, h4⟩ := h2 name hn
  have hG := hrec.good name hn
  have hsh : ∀ r ∈ (Comm.cube l).ranks, (q name t r).RankShaped (spec name).dims (spec name).cells :=
    fun r hr => (hrec.qty t r ht hr name hn).2.1
  obtain ⟨root, g1, g2, -, -, g5⟩ := C26_gather buf' (.cube l) hrec.safe junk' (spec name).dims (spec name).cells
    (spec name).ky (spec name).kx hG.axes (fun k hk => (tileOf_getD hG.tile hk).2.1) (q name t) (fun _ => none) hsh
    (fun _ h => by cases h) (fun _ => (hrec.qty t 0 ht h0 name hn).2.2)
  have hext : root.extent = 6 :: (spec name).tile :=
    globalExtent_unique g2.extent (show (Comm.cube l).GlobalExtent _ _ _ from ⟨_, rfl, hG.tile⟩)
  have hshape : root.computeArr.shape = 6 :: (spec name).tile.map Int.toNat := by
    show root.extent.map Int.toNat = _
    rw [hext]; rfl
  refine ⟨root, g1, g2, ⟨chunks, _, by rw [hshape]; exact h3⟩, fun idx hi => ?_⟩
  obtain ⟨r, rel, e1, e2, e3⟩ := g5 idx hi
  rw [hshape] at hi
  cases idx with
  | nil => exact absurd hi id
  | cons T p =>
    obtain ⟨r', rel', f1, f2, f3⟩ := h4 t ht T hi.1 p hi.2
    rw [rankShaped_shape (hsh 0 h0)] at e1
    obtain ⟨rfl, rfl⟩ := highest_unique hrec.safe (fun k hk => Int.le_of_lt (hG.cells k hk)) e1 f1 (by rw [e2, f2])
    rw [f3, e3]

section
open Restart

/-- **C69**: what `open_restart` loads on the ranks is, gathered, the stack of the six tiles' variable: entry `T` is what
the files of tile `T` have. -/
theorem C69_restart_gathered (buf buf' : Buffering) (l : Layout) (hl : FloatSafe l) (fs : FileSys α)
    (tok : DataArray α → Int)
    (construct : Coupler.Calendar → Int → Int → Int → Int → Int → Int → Py Int) (builtin : Table) (a : Args)
    (junk junk' : List Nat → α)
    (s : Int → CState α) (hload : ∀ t, 0 ≤ t → t < 6 → loadTile fs tok construct builtin a t = .ok (s t))
    (hnd : ∀ t, 0 ≤ t → t < 6 → (s t).keys.Nodup)
    (time : Int → Option Int) (htime : ∀ t, 0 ≤ t → t < 6 → (s t).get? "time" = (time t).map .time)
    (vdims : String → List Dim) (vcells : String → List Int) (vqty : Int → String → Quantity α)
    (haxes : ∀ v, ∃ ky kx, HAxes (vdims v) ky kx)
    (hs : ∀ t, 0 ≤ t → t < 6 → ∀ v ∈ (s t).keys, v ≠ "time" → (s t).get? v = some (.qty (vqty t v)) ∧
      (vqty t v).GlobalShaped (.tile l) (vdims v) (vcells v)) :
    ∃ out : Int → CState α,
      TilesReturn buf l (fun r => openRestartIn fs tok construct builtin a junk l none r) (fun r => .ok (out r)) ∧
      ∀ v ≠ "time", (∀ t, 0 ≤ t → t < 6 → v ∈ (s t).keys) → ∃ (q : Int → Quantity α) (root : Quantity α),
        (∀ r ∈ (Comm.cube l).ranks, (out r).get? v = some (.qty (q r))) ∧
        (Comm.cube l).Returns buf' (fun r => gather (.cube l) junk' r (q r) none)
          (fun r => .ok (if r = 0 then some root else none)) ∧
        ∀ T : Nat, T < 6 → root.computeArr.shape = 6 :: (vqty T v).computeArr.shape ∧
          ∀ p, InB (vqty T v).computeArr.shape p → root.computeArr.get (T :: p) = (vqty T v).computeArr.get p := by
  obtain ⟨out, h1, h2⟩ := C52_open_restart buf l hl fs tok construct builtin a junk (fun _ => none) s hload hnd time htime
    (fun _ => vdims) (fun _ => vcells) vqty
    (fun t t0 t6 v hv hne => by
      obtain ⟨ky, kx, ha⟩ := haxes v
      exact ⟨(hs t t0 t6 v hv hne).1, by have := ha.ylt; omega, (hs t t0 t6 v hv hne).2⟩)
    (fun _ _ _ _ h => by cases h)
  refine ⟨out, h1, fun v hne hv => ?_⟩
  obtain ⟨ky, kx, ha⟩ := haxes v
  have h3 : ∀ r ∈ (Comm.cube l).ranks, ∃ q', (out r).get? v = some (.qty q') ∧ q'.RankShaped (vdims v) (vcells v) ∧
      IsPart (.tile l) (vdims v) (vcells v) (vqty (r / l.tileRanks) v) q' (r % l.tileRanks) ∧
      FreshPart q' (vdims v) (vcells v) (vqty (r / l.tileRanks) v).units := by
    intro r hr
    have hr' := (mem_ranks (.cube l) r).1 hr
    obtain ⟨t0, t6, -, -⟩ := cube_rank hl hr
    obtain ⟨q', e1, e2, e3, -, e5⟩ := (h2 r hr'.1 hr'.2).2.2 v (hv _ t0 t6) hne
    exact ⟨q', e1, e2, e3, e5 rfl⟩
  have : ∀ r, ∃ q', r ∈ (Comm.cube l).ranks → (out r).get? v = some (.qty q') ∧ q'.RankShaped (vdims v) (vcells v) ∧
      IsPart (.tile l) (vdims v) (vcells v) (vqty (r / l.tileRanks) v) q' (r % l.tileRanks) ∧
      FreshPart q' (vdims v) (vcells v) (vqty (r / l.tileRanks) v).units := by
    intro r
    by_cases hr : r ∈ (Comm.cube l).ranks
    · obtain ⟨q', h⟩ := h3 r hr
      exact ⟨q', fun _ => h⟩
    · exact ⟨vqty 0 v, fun h => absurd h hr⟩
  choose q hq using this
  have h0 : (0 : Int) ∈ (Comm.cube l).ranks := (mem_ranks (.cube l) 0).2 ⟨by omega, comm_size_pos (c := .cube l) hl⟩
  have hT : ∀ t, 0 ≤ t → t < 6 → TileOf l (vdims v) (vcells v) (vqty t v).extent :=
    fun t t0 t6 => (hs t t0 t6 v (hv t t0 t6) hne).2.extent
  obtain ⟨root, g1, g2, -, -, g5⟩ := C26_gather buf' (.cube l) hl junk' (vdims v) (vcells v) ky kx ha
    (fun k hk => (tileOf_getD (hT 0 (by decide) (by decide)) hk).2.1) q (fun _ => none) (fun r hr => (hq r hr).2.1)
    (fun _ h => by cases h) (fun _ => (hq 0 h0).2.2.2.names)
  refine ⟨q, root, fun r hr => (hq r hr).1, g1, fun T hT6 => ?_⟩
  have hext : root.extent = 6 :: (vqty T v).extent :=
    globalExtent_unique g2.extent
      (show (Comm.cube l).GlobalExtent _ _ _ from ⟨_, rfl, hT T (by omega) (by omega)⟩)
  have hshape : root.computeArr.shape = 6 :: (vqty T v).computeArr.shape := by
    show root.extent.map Int.toNat = _
    rw [hext]; rfl
  refine ⟨hshape, fun p hp => ?_⟩
  obtain ⟨r, rel, e1, e2, e3⟩ := g5 (T :: p) (by rw [hshape]; exact ⟨hT6, hp⟩)
  rw [rankShaped_shape (hq 0 h0).2.1] at e1
  rw [e3]
  exact tile_part hl (fun r hr => (hq r hr).2.1) (f := fun t => vqty t v) (fun r hr => (hq r hr).2.2.1) e1.1 e1.2.1 e2

/-- **C69**: if the quantities that the ranks loaded with `open_restart` are stored by the `ZarrMonitor`s of the ranks (in
any step of a recording), the array has at that step, for each tile, what the files of the tile have. -/
theorem C69_restart_recorded (buf : Buffering) (zbuf : Nat → Bool) (l : Layout) (hl : FloatSafe l) (fs : FileSys α)
    (tok : DataArray α → Int)
    (construct : Coupler.Calendar → Int → Int → Int → Int → Int → Int → Py Int) (builtin : Table) (a : Args)
    (junk zjunk : List Nat → α) (enc : Int → α)
    (s : Int → CState α) (hload : ∀ t, 0 ≤ t → t < 6 → loadTile fs tok construct builtin a t = .ok (s t))
    (hnd : ∀ t, 0 ≤ t → t < 6 → (s t).keys.Nodup)
    (time : Int → Option Int) (htime : ∀ t, 0 ≤ t → t < 6 → (s t).get? "time" = (time t).map .time)
    (spec : String → Zarr.VarSpec) (vqty : Int → String → Quantity α)
    (haxes : ∀ v, HAxes (spec v).dims (spec v).ky (spec v).kx)
    (hs : ∀ t, 0 ≤ t → t < 6 → ∀ v ∈ (s t).keys, v ≠ "time" → (s t).get? v = some (.qty (vqty t v)) ∧
      (vqty t v).GlobalShaped (.tile l) (spec v).dims (spec v).cells) :
    ∃ out : Int → CState α,
      TilesReturn buf l (fun r => openRestartIn fs tok construct builtin a junk l none r) (fun r => .ok (out r)) ∧
      (∀ v ≠ "time", (∀ t, 0 ≤ t → t < 6 → v ∈ (s t).keys) → ∀ r ∈ (Comm.cube l).ranks, ∃ q',
        (out r).get? v = some (.qty q') ∧ q'.RankShaped (spec v).dims (spec v).cells ∧ q'.dims = (spec v).dims ∧
          q'.units = (vqty (r / l.tileRanks) v).units) ∧
      ∀ (k : Nat) (vars : List String) (q : String → Nat → Int → Quantity α) (tm : Nat → Zarr.ZTime)
        (st : Nat → Int → Zarr.State α), Zarr.Recording l k vars spec q tm st → vars.Nodup → 0 < k →
      ∃ S : Zarr.Store α,
        (Zarr.World.start (Zarr.recordAll l enc zjunk k st) Zarr.Store.empty).Completes zbuf (Comm.cube l).ranks
          (fun _ => .ok ()) S ∧
        ∀ v ∈ vars, (∀ t, 0 ≤ t → t < 6 → v ∈ (s t).keys) → ∀ n, n < k →
          (∀ r ∈ (Comm.cube l).ranks, (out r).get? v = some (.qty (q v n r))) →
          ∀ T : Nat, T < 6 → ∀ p, InB (vqty T v).computeArr.shape p →
            S.read v (n :: T :: p) = some ((vqty T v).computeArr.get p) := by
  obtain ⟨out, h1, h2⟩ := C52_open_restart buf l hl fs tok construct builtin a junk (fun _ => none) s hload hnd time htime
    (fun _ v => (spec v).dims) (fun _ v => (spec v).cells) vqty
    (fun t t0 t6 v hv hne => ⟨(hs t t0 t6 v hv hne).1, by have := (haxes v).ylt; omega, (hs t t0 t6 v hv hne).2⟩)
    (fun _ _ _ _ h => by cases h)
  refine ⟨out, h1, fun v hne hv r hr => ?_, fun k vars q tm st hrec hv hk => ?_⟩
  · have hr' := (mem_ranks (.cube l) r).1 hr
    obtain ⟨t0, t6, -, -⟩ := cube_rank hl hr
    obtain ⟨q', f1, f2, -, -, f5⟩ := (h2 r hr'.1 hr'.2).2.2 v (hv _ t0 t6) hne
    exact ⟨q', f1, f2, (f5 rfl).names, (f5 rfl).units⟩
  obtain ⟨S, g1, g2, -⟩ := Zarr.C39_recording (enc := enc) (junk := zjunk) zbuf hrec hv hk
  refine ⟨S, g1, fun v hvars hkeys n hn hout T hT6 p hp => ?_⟩
  have hne : v ≠ "time" := fun h => hrec.notime (h ▸ hvars)
  have hG := hrec.good v hvars
  have hT : TileOf l (spec v).dims (spec v).cells (vqty T v).extent :=
    (hs T (by omega) (by omega) v (hkeys T (by omega) (by omega)) hne).2.extent
  have hext : (vqty T v).extent = (spec v).tile :=
    globalExtent_unique (c := .tile l) (dims := (spec v).dims) (cells := (spec v).cells) hT hG.tile
  obtain ⟨r, rel, e1, e2, e3⟩ := (g2 v hvars).2 n hn T hT6 p (by
    have : (vqty T v).computeArr.shape = (vqty T v).extent.map Int.toNat := rfl
    rw [← hext, ← this]; exact hp)
  rw [e3]
  congr 1
  refine tile_part hl (send := q v n) (fun r hr => (hrec.qty n r hn hr v hvars).2.1) (f := fun t => vqty t v) (fun r hr => ?_)
    e1.1 e1.2.1 e2
  have hr' := (mem_ranks (.cube l) r).1 hr
  obtain ⟨t0, t6, -, -⟩ := cube_rank hl hr
  obtain ⟨q', f1, -, f3, -⟩ := (h2 r hr'.1 hr'.2).2.2 v (hkeys _ t0 t6) hne
  rw [hout r hr] at f1
  cases f1
  exact f3

/-! ### Concrete cases -/

/-- C69 for the recording of Props/Zarr: 12 ranks, three steps, two variables, one on interfaces. -/
example (buf : Nat → Bool) (buf' : Buffering) : ∃ S : Zarr.Store Nat,
    (Zarr.World.start (Zarr.recordAll ⟨1, 2⟩ Int.toNat (fun _ => 0) 3 Zarr.exState) Zarr.Store.empty).Completes buf
      (Comm.cube ⟨1, 2⟩).ranks (fun _ => .ok ()) S ∧
    ∃ root : Quantity Nat,
      (Comm.cube ⟨1, 2⟩).Returns buf' (fun r => gather (.cube ⟨1, 2⟩) (fun _ => 9) r (Zarr.exVar "u" 2 r) none)
        (fun r => .ok (if r = 0 then some root else none)) ∧
      ∀ idx, InB root.computeArr.shape idx → S.read "u" (2 :: idx) = some (root.computeArr.get idx) := by
  obtain ⟨S, h1, h2⟩ := C69_recorded_is_gathered (enc := Int.toNat) (junk := fun _ => 0) (junk' := fun _ => 9) buf buf'
    (Zarr.exRecording 3) (by decide) (by decide)
  obtain ⟨root, g1, -, -, g4⟩ := h2 "u" (by decide) 2 (by decide)
  exact ⟨S, h1, root, g1, g4⟩

theorem exTile_cases {P : Int → Prop} (h : P 0 ∧ P 1 ∧ P 2 ∧ P 3 ∧ P 4 ∧ P 5) : ∀ t, 0 ≤ t → t < 6 → P t := by
  intro t h0 h6
  have : t = 0 ∨ t = 1 ∨ t = 2 ∨ t = 3 ∨ t = 4 ∨ t = 5 := by omega
  obtain ⟨a, b, c, d, e, f⟩ := h
  rcases this with rfl | rfl | rfl | rfl | rfl | rfl <;> assumption

theorem exLoaded_keys : ∀ t : Int, 0 ≤ t → t < 6 → (exLoaded t).keys = ["air_temperature"] :=
  exTile_cases (by decide +kernel)

theorem exLoaded_qty : ∀ t : Int, 0 ≤ t → t < 6 → ∀ v ∈ (exLoaded t).keys, v ≠ "time" →
    (exLoaded t).get? v = some (.qty (exQty t v)) ∧ (exQty t v).GlobalShaped (.tile ⟨1, 2⟩) [.y, .x] [2, 2] := by
  intro t h0 h6 v hv _
  rw [exLoaded_keys t h0 h6] at hv
  obtain rfl : v = "air_temperature" := by simpa using hv
  have hdim : (exQty t "air_temperature").dims = [.y, .x] ∧
      (exQty t "air_temperature").data.shape = [2, 4] ∧ (exQty t "air_temperature").origin = [0, 0] ∧
      (exQty t "air_temperature").extent = [2, 4] := by
    revert t
    exact fun t h0 h6 => exTile_cases (P := fun t => (exQty t "air_temperature").dims = [.y, .x] ∧
      (exQty t "air_temperature").data.shape = [2, 4] ∧ (exQty t "air_temperature").origin = [0, 0] ∧
      (exQty t "air_temperature").extent = [2, 4]) (by decide +kernel) t h0 h6
  have hget : (exLoaded t).get? "air_temperature" = some (.qty (exQty t "air_temperature")) :=
    exTile_cases (P := fun t => (exLoaded t).get? "air_temperature" = some (.qty (exQty t "air_temperature")))
      ⟨rfl, rfl, rfl, rfl, rfl, rfl⟩ t h0 h6
  obtain ⟨d1, d2, d3, d4⟩ := hdim
  refine ⟨hget, ?_, d1, ?_⟩
  · have hn : (exQty t "air_temperature").ndim = 2 := by unfold Quantity.ndim; rw [d1]; rfl
    refine ⟨⟨by rw [hn, d2]; rfl, by rw [hn, d3]; rfl, by rw [hn, d4]; rfl⟩, ?_⟩
    rw [hn]
    unfold Quantity.o Quantity.e Quantity.n
    rw [d2, d3, d4]; decide
  · rw [d4]
    refine ⟨rfl, rfl, ?_⟩
    intro k d c t hd hc ht
    match k with
    | 0 => simp at hd hc ht; subst hd hc ht; decide
    | 1 => simp at hd hc ht; subst hd hc ht; decide
    | k + 2 => simp at hd

theorem exLoaded_time : ∀ t : Int, 0 ≤ t → t < 6 → (exLoaded t).get? "time" = ((fun _ => none : Int → Option Int) t).map .time := by
  intro t h0 h6
  rw [(Dict.get?_eq_none_iff _ _).2 (by rw [exLoaded_keys t h0 h6]; decide)]; rfl

/-- Twelve ranks load the restart files of Props/OpenRestart and gather: the value of tile 2 is that of
phy_data.tile3.nc. -/
example (buf buf' : Buffering) : ∃ out : Int → CState Nat,
    TilesReturn buf ⟨1, 2⟩ (fun r => openRestartIn exFs (fun _ => 0) exConstruct exTable exArgs (fun _ => 0) ⟨1, 2⟩ none r)
      (fun r => .ok (out r)) ∧
    ∃ (q : Int → Quantity Nat) (root : Quantity Nat),
      (∀ r ∈ (Comm.cube ⟨1, 2⟩).ranks, (out r).get? "air_temperature" = some (.qty (q r))) ∧
      (Comm.cube ⟨1, 2⟩).Returns buf' (fun r => gather (.cube ⟨1, 2⟩) (fun _ => 0) r (q r) none)
        (fun r => .ok (if r = 0 then some root else none)) ∧ root.computeArr.get [2, 1, 3] = 7 + 300 + 25 := by
  have hl : FloatSafe ⟨1, 2⟩ := C05_safe_up_to_48 _ (by decide) (by decide) (by decide) (by decide)
  obtain ⟨out, h1, h2⟩ := C69_restart_gathered buf buf' ⟨1, 2⟩ hl exFs (fun _ => 0) exConstruct exTable exArgs (fun _ => 0)
    (fun _ => 0) exLoaded (fun t => exTile_cases (P := fun t => exLoad t = .ok (exLoaded t)) ⟨rfl, rfl, rfl, rfl, rfl, rfl⟩ t)
    (by intro t h0 h6; rw [exLoaded_keys t h0 h6]; decide) (fun _ => none) exLoaded_time (fun _ => [.y, .x])
    (fun _ => [2, 2]) exQty (fun _ => ⟨0, 1, Zarr.exAxes2 _ (.inl rfl)⟩) exLoaded_qty
  obtain ⟨q, root, g1, g2, g3⟩ := h2 "air_temperature" (by decide)
    (by intro t h0 h6; rw [exLoaded_keys t h0 h6]; decide)
  refine ⟨out, h1, q, root, g1, g2, ?_⟩
  rw [(g3 2 (by decide)).2 [1, 3] (by decide +kernel)]
  decide +kernel

/-- The same ranks store what they loaded with a `ZarrMonitor`. -/
example (buf : Buffering) (zbuf : Nat → Bool) : ∃ out : Int → CState Nat,
    TilesReturn buf ⟨1, 2⟩ (fun r => openRestartIn exFs (fun _ => 0) exConstruct exTable exArgs (fun _ => 0) ⟨1, 2⟩ none r)
      (fun r => .ok (out r)) ∧
    ∃ (q : Int → Quantity Nat) (S : Zarr.Store Nat),
      (∀ r ∈ (Comm.cube ⟨1, 2⟩).ranks, (out r).get? "air_temperature" = some (.qty (q r))) ∧
      (Zarr.World.start (Zarr.recordAll ⟨1, 2⟩ Int.toNat (fun _ => 0) 1 fun _ r =>
        [("air_temperature", .qty (q r)), ("time", .time ⟨"noleap", 0⟩)]) Zarr.Store.empty).Completes zbuf
        (Comm.cube ⟨1, 2⟩).ranks (fun _ => .ok ()) S ∧
      S.read "air_temperature" [0, 2, 1, 3] = some (7 + 300 + 25) := by
  have hl : FloatSafe ⟨1, 2⟩ := C05_safe_up_to_48 _ (by decide) (by decide) (by decide) (by decide)
  have hk : ∀ t, 0 ≤ t → t < 6 → "air_temperature" ∈ (exLoaded t).keys := by
    intro t h0 h6; rw [exLoaded_keys t h0 h6]; decide
  obtain ⟨out, h1, h2, h3⟩ := C69_restart_recorded buf zbuf ⟨1, 2⟩ hl exFs (fun _ => 0) exConstruct exTable exArgs (fun _ => 0)
    (fun _ => 0) Int.toNat exLoaded
    (fun t => exTile_cases (P := fun t => exLoad t = .ok (exLoaded t)) ⟨rfl, rfl, rfl, rfl, rfl, rfl⟩ t)
    (by intro t h0 h6; rw [exLoaded_keys t h0 h6]; decide) (fun _ => none) exLoaded_time
    (fun _ => ⟨[.y, .x], [2, 2], [2, 4], 0, 1⟩) exQty (fun _ => Zarr.exAxes2 _ (.inl rfl)) exLoaded_qty
  have : ∀ r, ∃ q', r ∈ (Comm.cube ⟨1, 2⟩).ranks → (out r).get? "air_temperature" = some (.qty q') ∧
      q'.RankShaped [.y, .x] [2, 2] ∧ q'.dims = [.y, .x] := by
    intro r
    by_cases hr : r ∈ (Comm.cube ⟨1, 2⟩).ranks
    · obtain ⟨q', a, b, c, -⟩ := h2 "air_temperature" (by decide) hk r hr
      exact ⟨q', fun _ => ⟨a, b, c⟩⟩
    · exact ⟨exPart, fun h => absurd h hr⟩
  choose q hq using this
  obtain ⟨S, g1, g2⟩ := h3 1 ["air_temperature"] (fun _ _ => q) (fun _ => ⟨"noleap", 0⟩) (fun _ r =>
    [("air_temperature", .qty (q r)), ("time", .time ⟨"noleap", 0⟩)])
    ⟨hl, by
      intro name hn
      refine ⟨Zarr.exAxes2 _ (.inl rfl), ⟨rfl, rfl, ?_⟩, by decide⟩
      intro k d c t hd hc ht
      match k with
      | 0 => simp at hd hc ht; subst hd hc ht; decide
      | 1 => simp at hd hc ht; subst hd hc ht; decide
      | k + 2 => simp at hd, by decide, fun _ _ _ _ => by simp [Dict.keys], fun _ _ _ _ name => by simp [Dict.keys]; tauto, by
      intro t r _ hr name hn
      obtain rfl : name = "air_temperature" := by simpa using hn
      exact ⟨rfl, (hq r hr).2⟩, fun _ _ _ _ => rfl, fun _ _ _ _ => rfl, fun _ _ => rfl⟩ (by decide) (by decide)
  refine ⟨out, h1, q, S, fun r hr => (hq r hr).1, g1, ?_⟩
  rw [g2 "air_temperature" (by decide) hk 0 (by decide) (fun r hr => (hq r hr).1) 2 (by decide) [1, 3] (by decide +kernel)]
  decide +kernel

end

end FV3
