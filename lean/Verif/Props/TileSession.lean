import Verif.Proofs.TileSession
import Verif.Props.StateSession

/-!
# C67: sessions with tile communicators
-/

namespace FV3
variable {α : Type} [Neg α]

/-- **C67**: any sequence of calls of one cubed-sphere communicator (halo updates, interface synchronisations, `scatter`,
`gather`, `scatter_state`, `gather_state`) and of its tile communicators (`scatter`, `gather`, `scatter_state`,
`gather_state`), the tiles each making calls of their own or none, ends on all ranks, whatever the schedule and the
buffering of MPI, and has the effect of performing the calls one after the other: those of the cubed sphere on all ranks,
those of a tile on the ranks of the tile, numbered from 0. -/
theorem C67_tiles {l : Layout} (hl : FloatSafe l) (hsq : l.y = l.x) (buf : Buffering) (junk tjunk : Nat → List Nat → α)
    (mem : Int → Mem α) (glob : Int → Nat → Option (Quantity α)) (time gtime : Int → Nat → Option Int)
    (tglob : Int → Nat → Option (Quantity α)) (tgtime : Int → Nat → Option Int)
    (parts : Nat → Parts) (tparts : Int → Nat → Parts) (filled : List Nat) (tfilled : Int → List Nat)
    (hglob : ∀ g v, glob 0 g = some v → v.GlobalShaped (.cube l) (parts g).dims (parts g).cells)
    (hfilled : ∀ g ∈ filled, ∃ v, glob 0 g = some v)
    (htglob : ∀ t, 0 ≤ t → t < 6 → ∀ g v, tglob (t * l.tileRanks) g = some v →
      v.GlobalShaped (.tile l) (tparts t g).dims (tparts t g).cells)
    (htfilled : ∀ t, 0 ≤ t → t < 6 → ∀ g ∈ tfilled t, ∃ v, tglob (t * l.tileRanks) g = some v)
    (ops : List (UOp α)) (hops : TilesValid l mem parts tparts filled tfilled ops) :
    ∃ fin : Int → TileState α,
      (tileSessionNet l junk tjunk ops mem glob time gtime tglob tgtime).Completes buf (fun r =>
        if r ∈ allRanks l then some (.ok (fin r)) else none) ∧
      TilesRun l parts tparts ops
        ⟨⟨mem, glob 0, time, gtime 0⟩, fun t => tglob (t * l.tileRanks), fun t => tgtime (t * l.tileRanks)⟩
        ⟨⟨fun r => (fin r).base.s.mem, (fin 0).base.s.glob, fun r => (fin r).base.time, (fin 0).base.gtime⟩,
          fun t => (fin (t * l.tileRanks)).tglob, fun t => (fin (t * l.tileRanks)).tgtime⟩ ∧
      ∀ r ∈ allRanks l, MetaIs mem r (fin r).base.s.mem :=
  tiles_from (k := 0) (n := 0) (tn := fun _ => 0)
    (s := fun r => ⟨⟨⟨mem r, glob r, 0, 0⟩, time r, gtime r⟩, tglob r, tgtime r, 0⟩) hl hsq buf junk tjunk
    ⟨⟨fun _ _ _ => SameMeta.refl _, fun _ _ => rfl, fun _ _ => rfl, hglob, hfilled⟩,
      fun t t0 t6 => ⟨fun _ _ _ => SameMeta.refl _, fun _ _ => rfl,
        by simpa only [TileState.view, Int.add_zero] using htglob t t0 t6,
        by simpa only [TileState.view, Int.add_zero] using htfilled t t0 t6⟩⟩ hops
    ⟨fun _ _ _ _ => rfl, fun _ _ _ _ => rfl⟩

theorem tilesRun_append {l : Layout} {parts : Nat → Parts} {tparts : Int → Nat → Parts} {a b : List (UOp α)}
    {S S' : CubeSnap α} (h : TilesRun l parts tparts (a ++ b) S S') :
    ∃ S1, TilesRun l parts tparts a S S1 ∧ TilesRun l parts tparts b S1 S' := by
  induction a generalizing S with
  | nil => exact ⟨S, ⟨⟨fun _ _ => rfl, rfl, fun _ _ => rfl, rfl⟩, fun _ _ _ => ⟨rfl, rfl⟩⟩, h⟩
  | cons op a ih =>
    obtain ⟨S1, h1, h2⟩ := h
    obtain ⟨S2, h3, h4⟩ := ih h2
    exact ⟨S2, ⟨S1, h1, h3⟩, h4⟩

/-- The call gathers into global quantity `g`. -/
def COp.GathersTo (g : Nat) : COp → Prop
  | .gather _ g' => g' = g
  | .gatherState _ _ vars => ∃ v ∈ vars, v.g = g
  | _ => False

/-- The call gathers into global state `j`. -/
def COp.GathersState (j : Nat) : COp → Prop
  | .gatherState _ j' _ => j' = j
  | _ => False

/-- Quantity `g` of tile `t` is only changed by calls of the tile's communicator that gather into it. -/
theorem tilesRun_tglob {l : Layout} {parts : Nat → Parts} {tparts : Int → Nat → Parts} {ops : List (UOp α)}
    {S S' : CubeSnap α} (h : TilesRun l parts tparts ops S S') {t : Int} (t0 : 0 ≤ t) (t6 : t < 6) {g : Nat}
    (hno : ∀ o, UOp.tiles o ∈ ops → ∀ a, o t = some a → ¬ a.GathersTo g) : S'.tglob t g = S.tglob t g := by
  induction ops generalizing S with
  | nil => rw [(h.2 t t0 t6).1]
  | cons op ops ih =>
    obtain ⟨S1, h1, h2⟩ := h
    rw [ih h2 fun o ho => hno o (List.mem_cons_of_mem _ ho)]
    cases op with
    | op o => rw [(h1.2 t t0 t6).1]
    | tiles o =>
      have h1 := h1.2.2 t t0 t6
      have hno := hno o (List.mem_cons_self ..)
      cases ho : o t with
      | none => rw [ho] at h1; exact congrFun h1.glob g
      | some a =>
        rw [ho] at h1
        have hno := hno a ho
        cases a with
        | scatter q g' => exact congrFun h1.1 g
        | gather q g' => exact h1.2.2.1 g fun e => hno e.symm
        | scatterState i j vars => exact congrFun h1.1 g
        | gatherState i j vars => exact h1.2.2.2.1 g fun v hv e => hno ⟨v, hv, e⟩

/-- The time of state `j` of tile `t` is only changed by calls of the tile's communicator that gather into it. -/
theorem tilesRun_tgtime {l : Layout} {parts : Nat → Parts} {tparts : Int → Nat → Parts} {ops : List (UOp α)}
    {S S' : CubeSnap α} (h : TilesRun l parts tparts ops S S') {t : Int} (t0 : 0 ≤ t) (t6 : t < 6) {j : Nat}
    (hno : ∀ o, UOp.tiles o ∈ ops → ∀ a, o t = some a → ¬ a.GathersState j) : S'.tgtime t j = S.tgtime t j := by
  induction ops generalizing S with
  | nil => rw [(h.2 t t0 t6).2]
  | cons op ops ih =>
    obtain ⟨S1, h1, h2⟩ := h
    rw [ih h2 fun o ho => hno o (List.mem_cons_of_mem _ ho)]
    cases op with
    | op o => rw [(h1.2 t t0 t6).2]
    | tiles o =>
      have h1 := h1.2.2 t t0 t6
      have hno := hno o (List.mem_cons_self ..)
      cases ho : o t with
      | none => rw [ho] at h1; exact congrFun h1.gtime j
      | some a =>
        rw [ho] at h1
        have hno := hno a ho
        cases a with
        | scatter q g' => exact congrFun h1.2.1 j
        | gather q g' => exact congrFun h1.2.1 j
        | scatterState i j' vars => exact congrFun h1.2.1 j
        | gatherState i j' vars => exact h1.2.2.1 j fun e => hno e.symm

/-- **C67**: a checkpoint of the state of one tile: if the ranks of tile `t` gather a state with their tile communicator
and later scatter it, every rank of the tile has the values of the compute domains of all variables back, and the time of
the tile's root, whatever calls the cubed-sphere communicator and the other tile communicators made before, meanwhile and
after (`o`, `o'` for other tiles), and the tile's own communicator made meanwhile (that do not gather into the same
quantities or state).  Only the ranks of the tile have to agree about shared points. -/
theorem C67_checkpoint {l : Layout} (hl : FloatSafe l) (hsq : l.y = l.x) (buf : Buffering)
    (junk tjunk : Nat → List Nat → α)
    (mem : Int → Mem α) (glob : Int → Nat → Option (Quantity α)) (time gtime : Int → Nat → Option Int)
    (tglob : Int → Nat → Option (Quantity α)) (tgtime : Int → Nat → Option Int)
    (parts : Nat → Parts) (tparts : Int → Nat → Parts) (filled : List Nat) (tfilled : Int → List Nat)
    (hglob : ∀ g v, glob 0 g = some v → v.GlobalShaped (.cube l) (parts g).dims (parts g).cells)
    (hfilled : ∀ g ∈ filled, ∃ v, glob 0 g = some v)
    (htglob : ∀ t, 0 ≤ t → t < 6 → ∀ g v, tglob (t * l.tileRanks) g = some v →
      v.GlobalShaped (.tile l) (tparts t g).dims (tparts t g).cells)
    (htfilled : ∀ t, 0 ≤ t → t < 6 → ∀ g ∈ tfilled t, ∃ v, tglob (t * l.tileRanks) g = some v)
    (t : Int) (t0 : 0 ≤ t) (t6 : t < 6) (i j : Nat) (vars : List StateVar) (o o' : Int → Option COp)
    (ho : o t = some (.gatherState i j vars)) (ho' : o' t = some (.scatterState i j vars)) (ops : List (UOp α))
    (hops : TilesValid l mem parts tparts filled tfilled (.tiles o :: ops ++ [.tiles o']))
    (hno : ∀ o, UOp.tiles o ∈ ops → ∀ a, o t = some a → ¬ a.GathersState j ∧ ∀ v ∈ vars, ¬ a.GathersTo v.g)
    (hagree : ∀ v ∈ vars, ∀ r ∈ (Comm.tile l).ranks, ∀ r' ∈ (Comm.tile l).ranks, ∀ rel rel',
      InB (mem (t * l.tileRanks + r) v.q).computeArr.shape rel →
      InB (mem (t * l.tileRanks + r') v.q).computeArr.shape rel' →
      (Comm.tile l).place (tparts t v.g).dims (tparts t v.g).cells r rel =
        (Comm.tile l).place (tparts t v.g).dims (tparts t v.g).cells r' rel' →
      (mem (t * l.tileRanks + r) v.q).computeArr.get rel = (mem (t * l.tileRanks + r') v.q).computeArr.get rel') :
    ∃ fin : Int → TileState α,
      (tileSessionNet l junk tjunk (.tiles o :: ops ++ [.tiles o']) mem glob time gtime tglob tgtime).Completes buf
        (fun r => if r ∈ allRanks l then some (.ok (fin r)) else none) ∧
      ∀ r ∈ allRanks l, r / l.tileRanks = t →
        (fin r).base.time i = (time (t * l.tileRanks) i).or (tgtime (t * l.tileRanks) j) ∧
        ∀ v ∈ vars, ((fin r).base.s.mem v.q).computeArr.Eqv (mem r v.q).computeArr := by
  obtain ⟨fin, h1, h2, h3⟩ := C67_tiles hl hsq buf junk tjunk mem glob time gtime tglob tgtime parts tparts filled tfilled
    hglob hfilled htglob htfilled _ hops
  refine ⟨fin, h1, fun r hr ht => ?_⟩
  have hn : 0 < l.tileRanks := tileRanks_pos hl.ypos hl.xpos
  have hp : ∀ v ∈ vars, PartsOn (.tile l) (fun i => mem (t * l.tileRanks + i)) v.q (tparts t v.g) :=
    (hops.1 t t0 t6 _ ho).2.2
  have hm : r % l.tileRanks ∈ (Comm.tile l).ranks :=
    (mem_ranks (.tile l) _).2 ⟨Int.emod_nonneg _ (by omega), Int.emod_lt_of_pos _ hn⟩
  have he : t * l.tileRanks + r % l.tileRanks = r := by
    have := Int.emod_add_mul_ediv r l.tileRanks
    rw [Int.mul_comm, ht] at this
    omega
  obtain ⟨S1, ⟨-, -, g⟩, h4⟩ := h2
  have g := g t t0 t6
  rw [ho] at g
  obtain ⟨-, g1, -, -, g2⟩ := g
  obtain ⟨S2, h5, S3, ⟨-, -, s⟩, ⟨s4, -⟩⟩ := tilesRun_append h4
  have s := s t t0 t6
  rw [ho'] at s
  obtain ⟨-, -, s3⟩ := s
  have hG := fun v (hv : v ∈ vars) => tilesRun_tglob (g := v.g) h5 t0 t6 fun o ho a ha => (hno o ho a ha).2 v hv
  have hT := tilesRun_tgtime (j := j) h5 t0 t6 fun o ho a ha => (hno o ho a ha).1
  obtain ⟨t1, -, t2, -⟩ := s3 _ hm
  have hrc := (cube_ranks l r).2 hr
  refine ⟨?_, fun v hv => ?_⟩
  · have : (fin r).base.time i = S3.cube.time r i := congrFun (s4.time r hrc) i
    rw [this]
    have t1 : S3.cube.time (t * l.tileRanks + r % l.tileRanks) i = S2.tgtime t j := t1
    rw [he] at t1
    rw [t1, hT]
    have g1 : S1.tgtime t j = (time (t * l.tileRanks + 0) i).or (tgtime (t * l.tileRanks) j) := g1
    rw [g1, Int.add_zero]
  · obtain ⟨w, w1, w2, w3, -⟩ := g2 v hv
    obtain ⟨w', x1, x2, -⟩ := t2 v hv
    have x1 : S2.tglob t v.g = some w' := x1
    have w1 : S1.tglob t v.g = some w := w1
    have e : w = w' := by
      have := hG v hv
      rw [x1, w1] at this
      exact (Option.some.inj this).symm
    subst e
    have hfin : (fin r).base.s.mem v.q = S3.cube.mem r v.q := congrFun (s4.mem r hrc) v.q
    have key := part_of_gathered (c := .tile l) hl (send := fun i => mem (t * l.tileRanks + i) v.q)
      (fun i hi => (hp v hv).shaped i hi) w2 w3 hm x2 (by
        show (S3.cube.mem (t * l.tileRanks + r % l.tileRanks) v.q).extent = _
        rw [he, ← hfin]
        exact (h3 r hr v.q).extent) (hagree v hv)
    have key : (S3.cube.mem (t * l.tileRanks + r % l.tileRanks) v.q).computeArr.Eqv
      (mem (t * l.tileRanks + r % l.tileRanks) v.q).computeArr := key
    rw [he, ← hfin] at key
    exact key

/-- The place of a point in the cubed sphere is its tile and the place in the tile. -/
theorem place_of_tile {l : Layout} (hl : FloatSafe l) (dims : List Dim) (cells : List Int) {t i : Int}
    (i0 : 0 ≤ i) (i1 : i < l.tileRanks) (rel : List Nat) :
    (Comm.cube l).place dims cells (t * l.tileRanks + i) rel = t.toNat :: (Comm.tile l).place dims cells i rel := by
  have hn : 0 < l.tileRanks := tileRanks_pos hl.ypos hl.xpos
  obtain ⟨e1, e2⟩ := group_div (g := t) hn i0 i1
  unfold Comm.place Comm.layout
  dsimp only
  rw [subtileIndex_eq hl.ypos hl.xpos, subtileIndex_eq hl.ypos hl.xpos]
  have hN : l.y * l.x = l.tileRanks := rfl
  rw [hN, e1, e2, Int.emod_eq_of_lt i0 i1]

/-- A rank has different points at different places. -/
theorem place_same_rank {l : Layout} (hl : FloatSafe l) {dims : List Dim} {cells : List Int} {i : Int} {rel rel' : List Nat}
    (h : InB (rankShape dims cells) rel) (h' : InB (rankShape dims cells) rel') (hc : ∀ k, k < dims.length → 0 ≤ cells.getD k 0)
    (he : (Comm.tile l).place dims cells i rel = (Comm.tile l).place dims cells i rel') : rel = rel' := by
  have hlen : (rankShape dims cells).length = dims.length := by simp [rankShape, tab]
  obtain ⟨n1, -⟩ := (inB_iff _ _).1 h
  obtain ⟨n2, -⟩ := (inB_iff _ _).1 h'
  apply ext_getD 0
  · omega
  · intro k hk
    have hk' : k < dims.length := by omega
    have e := congrArg (fun v => v.getD k 0) he
    unfold Comm.place at e
    simp only [getD_tab _ _ hk'] at e
    have := Int.mul_nonneg (coordAlong_range hl i (dims.getD k .x)).1 (hc k hk')
    have : 0 ≤ coordAlong (subtileIndex (Comm.tile l).layout i) (dims.getD k .x) * cells.getD k 0 := this
    omega

/-- What the tile's root gathers is the tile's part of what the root of the cubed sphere gathers. -/
theorem gathered_on_tile {l : Layout} (hl : FloatSafe l) {p : Parts} {send : Int → Quantity α} {w v : Quantity α}
    (hsh : ∀ r ∈ allRanks l, (send r).RankShaped p.dims p.cells)
    (hw : w.GlobalShaped (.cube l) p.dims p.cells) (hg : GatheredFrom (.cube l) p.dims p.cells send w)
    {t : Int} (t0 : 0 ≤ t) (t6 : t < 6)
    (hv : v.GlobalShaped (.tile l) p.dims p.cells)
    (hg' : GatheredFrom (.tile l) p.dims p.cells (fun i => send (t * l.tileRanks + i)) v) :
    w.computeArr.shape = 6 :: v.computeArr.shape ∧
    ∀ idx, InB v.computeArr.shape idx → w.computeArr.get (t.toNat :: idx) = v.computeArr.get idx := by
  have hn : 0 < l.tileRanks := tileRanks_pos hl.ypos hl.xpos
  obtain ⟨T, hT, hT'⟩ := hw.extent
  have hv' : TileOf l p.dims p.cells v.extent := hv.extent
  have hT2 : T = v.extent := by
    apply List.ext_getElem?
    intro k
    by_cases hk : k < p.dims.length
    · have a1 := hT'.2.2 k _ _ _ (List.getElem?_eq_getElem hk) (List.getElem?_eq_getElem (by rw [hT'.1]; exact hk))
        (List.getElem?_eq_getElem (by rw [hT'.2.1]; exact hk))
      have a2 := hv'.2.2 k _ _ _ (List.getElem?_eq_getElem hk) (List.getElem?_eq_getElem (by rw [hT'.1]; exact hk))
        (List.getElem?_eq_getElem (by rw [hv'.2.1]; exact hk))
      rw [List.getElem?_eq_getElem (by rw [hT'.2.1]; exact hk), List.getElem?_eq_getElem (by rw [hv'.2.1]; exact hk),
        a1.2.2, a2.2.2]
    · rw [List.getElem?_eq_none (by rw [hT'.2.1]; omega), List.getElem?_eq_none (by rw [hv'.2.1]; omega)]
  have hshape : w.computeArr.shape = 6 :: v.computeArr.shape := by
    show w.extent.map Int.toNat = 6 :: v.extent.map Int.toNat
    rw [hT, hT2]
    rfl
  have hc : ∀ k, k < p.dims.length → 0 ≤ p.cells.getD k 0 := by
    intro k hk
    have hk' : k < p.cells.length := by rw [hT'.1]; exact hk
    have := (hT'.2.2 k _ _ _ (List.getElem?_eq_getElem hk) (List.getElem?_eq_getElem hk')
        (List.getElem?_eq_getElem (by rw [hT'.2.1]; exact hk))).1
    rw [List.getD_eq_getElem?_getD, List.getElem?_eq_getElem hk']
    exact this
  have hrs : ∀ r ∈ allRanks l, (send r).computeArr.shape = rankShape p.dims p.cells :=
    fun r hr => rankOf_shape (hsh r hr).extent
  have hin : ∀ i, i ∈ (Comm.tile l).ranks → (0 ≤ i ∧ i < l.tileRanks) ∧ t * l.tileRanks + i ∈ allRanks l := by
    intro i hi
    have hi : 0 ≤ i ∧ i < l.tileRanks := (mem_ranks (.tile l) i).1 hi
    refine ⟨hi, mem_allRanks.2 ⟨?_, ?_⟩⟩
    · have := Int.mul_nonneg t0 (Int.le_of_lt hn)
      omega
    · have := Int.mul_le_mul_of_nonneg_right (show t ≤ 5 by omega) (Int.le_of_lt hn)
      have e1 : l.cubeRanks = 6 * l.tileRanks := rfl
      omega
  have h0 : (0 : Int) ∈ allRanks l := (cube_ranks l 0).1 ((mem_ranks _ 0).2 ⟨by omega, comm_size_pos (c := .cube l) hl⟩)
  have h0' : (0 : Int) ∈ (Comm.tile l).ranks := (mem_ranks _ 0).2 ⟨by omega, comm_size_pos (c := .tile l) hl⟩
  refine ⟨hshape, fun idx hidx => ?_⟩
  obtain ⟨i, rel, ⟨hi, hrel, hH⟩, hpl, hval⟩ := hg' idx hidx
  obtain ⟨r, rel', ⟨hr, hrel', hH'⟩, hpl', hval'⟩ := hg (t.toNat :: idx) (by
    rw [hshape]
    exact ⟨by omega, hidx⟩)
  rw [hrs _ (hin 0 h0').2] at hrel hH
  rw [hrs _ h0] at hrel' hH'
  obtain ⟨⟨i0, i1⟩, hti⟩ := hin i hi
  -- the rank of the cubed sphere is on tile `t`
  have hr' := (mem_ranks (.cube l) r).1 hr
  have hr'' : 0 ≤ r ∧ r < 6 * l.tileRanks := hr'
  have hd := div_range hn hr''.1 hr''.2
  have hm0 := Int.emod_nonneg r (show l.tileRanks ≠ 0 by omega)
  have hm1 := Int.emod_lt_of_pos r hn
  have he : r / l.tileRanks * l.tileRanks + r % l.tileRanks = r := by
    have := Int.emod_add_mul_ediv r l.tileRanks
    rw [Int.mul_comm] at this
    omega
  rw [← he, place_of_tile hl _ _ hm0 hm1] at hpl'
  injection hpl' with e1 e2
  have ht : r / l.tileRanks = t := by omega
  rw [ht] at he
  -- it is the highest on the tile
  have le1 : r % l.tileRanks ≤ i := hH _ ((mem_ranks (.tile l) _).2 ⟨hm0, hm1⟩) rel' hrel' (e2.trans hpl.symm)
  have le2 : t * l.tileRanks + i ≤ r := hH' _ ((cube_ranks l _).2 hti) rel hrel (by
    rw [← he, place_of_tile hl _ _ i0 i1, place_of_tile hl _ _ hm0 hm1, hpl, e2])
  have hri : r % l.tileRanks = i := by omega
  rw [hri] at e2 he
  have := place_same_rank hl hrel hrel' hc (hpl.trans e2.symm)
  rw [hval', hval, this, ← he]

theorem tilesValid_append {l : Layout} {mem : Int → Mem α} {parts : Nat → Parts} {tparts : Int → Nat → Parts}
    {filled : List Nat} {tfilled : Int → List Nat} {a b : List (UOp α)}
    (h : TilesValid l mem parts tparts filled tfilled (a ++ b)) :
    ∃ filled' tfilled', TilesValid l mem parts tparts filled' tfilled' b := by
  induction a generalizing filled tfilled with
  | nil => exact ⟨_, _, h⟩
  | cons op a ih => exact ih h.2

/-- **C67**: at any point of a session, the quantity that the ranks of a tile gather with their tile communicator is the
tile's part of the global quantity that all ranks gather with the cubed-sphere communicator (also where ranks disagree
about points they share). -/
theorem C67_gather {l : Layout} (hl : FloatSafe l) (hsq : l.y = l.x) (buf : Buffering) (junk tjunk : Nat → List Nat → α)
    (mem : Int → Mem α) (glob : Int → Nat → Option (Quantity α)) (time gtime : Int → Nat → Option Int)
    (tglob : Int → Nat → Option (Quantity α)) (tgtime : Int → Nat → Option Int)
    (parts : Nat → Parts) (tparts : Int → Nat → Parts) (filled : List Nat) (tfilled : Int → List Nat)
    (hglob : ∀ g v, glob 0 g = some v → v.GlobalShaped (.cube l) (parts g).dims (parts g).cells)
    (hfilled : ∀ g ∈ filled, ∃ v, glob 0 g = some v)
    (htglob : ∀ t, 0 ≤ t → t < 6 → ∀ g v, tglob (t * l.tileRanks) g = some v →
      v.GlobalShaped (.tile l) (tparts t g).dims (tparts t g).cells)
    (htfilled : ∀ t, 0 ≤ t → t < 6 → ∀ g ∈ tfilled t, ∃ v, tglob (t * l.tileRanks) g = some v)
    (t : Int) (t0 : 0 ≤ t) (t6 : t < 6) (q g g' : Nat) (o : Int → Option COp) (ho : o t = some (.gather q g'))
    (hparts : tparts t g' = parts g) (ops : List (UOp α))
    (hops : TilesValid l mem parts tparts filled tfilled (ops ++ [.tiles o, .op (.op (.gather q g))])) :
    ∃ fin : Int → TileState α,
      (tileSessionNet l junk tjunk (ops ++ [.tiles o, .op (.op (.gather q g))]) mem glob time gtime tglob tgtime).Completes
        buf (fun r => if r ∈ allRanks l then some (.ok (fin r)) else none) ∧
      ∃ w v, (fin 0).base.s.glob g = some w ∧ (fin (t * l.tileRanks)).tglob g' = some v ∧
        w.computeArr.shape = 6 :: v.computeArr.shape ∧
        ∀ idx, InB v.computeArr.shape idx → w.computeArr.get (t.toNat :: idx) = v.computeArr.get idx := by
  obtain ⟨fin, h1, h2, h3⟩ := C67_tiles hl hsq buf junk tjunk mem glob time gtime tglob tgtime parts tparts filled tfilled
    hglob hfilled htglob htfilled _ hops
  refine ⟨fin, h1, ?_⟩
  have hn : 0 < l.tileRanks := tileRanks_pos hl.ypos hl.xpos
  obtain ⟨f', tf', -, hv, -⟩ := tilesValid_append hops
  have hp : HasParts l mem q (parts g) := hv
  obtain ⟨S, -, S1, ⟨-, -, s1⟩, S2, ⟨⟨⟨a1, a2, w, a3, a4, a5, -⟩, -⟩, a6⟩, b1, b2⟩ := tilesRun_append h2
  have s1 := s1 t t0 t6
  rw [ho] at s1
  obtain ⟨c1, -, -, v, c3, c4, c5, -⟩ := s1
  rw [hparts] at c4 c5
  have hin : ∀ i, i ∈ (Comm.tile l).ranks → t * l.tileRanks + i ∈ allRanks l := by
    intro i hi
    have hi : 0 ≤ i ∧ i < l.tileRanks := (mem_ranks (.tile l) i).1 hi
    refine mem_allRanks.2 ⟨?_, ?_⟩
    · have := Int.mul_nonneg t0 (Int.le_of_lt hn)
      omega
    · have := Int.mul_le_mul_of_nonneg_right (show t ≤ 5 by omega) (Int.le_of_lt hn)
      have e1 : l.cubeRanks = 6 * l.tileRanks := rfl
      omega
  have h0' : (0 : Int) ∈ (Comm.tile l).ranks := (mem_ranks _ 0).2 ⟨by omega, comm_size_pos (c := .tile l) hl⟩
  have hmem : ∀ r ∈ allRanks l, S1.cube.mem r = (fin r).base.s.mem := fun r hr =>
    (a1 r hr).symm.trans (b1.mem r ((cube_ranks l r).2 hr)).symm
  have htile : ∀ i ∈ (Comm.tile l).ranks, S.cube.mem (t * l.tileRanks + i) q = S1.cube.mem (t * l.tileRanks + i) q :=
    fun i hi => (congrFun (c1 i hi).1 q).symm
  have c5' : GatheredFrom (.tile l) (parts g).dims (parts g).cells (fun i => S1.cube.mem (t * l.tileRanks + i) q) v := by
    intro p hp
    obtain ⟨r, rel, d1, d2, d3⟩ := c5 p hp
    refine ⟨r, rel, ?_, d2, ?_⟩
    · dsimp only
      rw [← htile 0 h0']
      exact d1
    · dsimp only
      rw [← htile r d1.1]
      exact d3
  refine ⟨w, v, ?_, ?_, gathered_on_tile hl (send := fun r => S1.cube.mem r q) (fun r hr => ?_) a4 a5 t0 t6 c4 c5'⟩
  · exact (congrFun b1.glob g).trans a3
  · exact (congrFun (b2 t t0 t6).1 g').trans ((congrFun (a6 t t0 t6).1 g').trans c3)
  · have := hp.shaped r hr
    rw [hmem r hr]
    exact rankShaped_of (h3 r hr) this

/-- The ranks of a tile share no points of quantities without interface dimensions. -/
theorem place_tile_injective {l : Layout} (hl : FloatSafe l) {dims : List Dim} {cells : List Int} {ky kx : Nat}
    (ha : HAxes dims ky kx) (hc : ∀ d ∈ dims, d ≠ .xI ∧ d ≠ .yI ∧ d ≠ .zI) {r r' : Int} (hr : r ∈ (Comm.tile l).ranks)
    (hr' : r' ∈ (Comm.tile l).ranks) {rel rel' : List Nat} (h : InB (rankShape dims cells) rel)
    (h' : InB (rankShape dims cells) rel')
    (he : (Comm.tile l).place dims cells r rel = (Comm.tile l).place dims cells r' rel') : r = r' ∧ rel = rel' := by
  have hn : 0 < l.tileRanks := tileRanks_pos hl.ypos hl.xpos
  have h1 : 0 ≤ r ∧ r < l.tileRanks := (mem_ranks (.tile l) r).1 hr
  have h2 : 0 ≤ r' ∧ r' < l.tileRanks := (mem_ranks (.tile l) r').1 hr'
  have e1 : l.cubeRanks = 6 * l.tileRanks := rfl
  refine place_injective hl ha hc (mem_allRanks.2 ⟨h1.1, by omega⟩) (mem_allRanks.2 ⟨h2.1, by omega⟩) h h' ?_
  have a := place_of_tile hl dims cells (t := 0) h1.1 h1.2 rel
  have b := place_of_tile hl dims cells (t := 0) h2.1 h2.2 rel'
  rw [Int.zero_mul, Int.zero_add] at a b
  rw [a, b, he]

/-- **C67**: `C67_checkpoint` for states without interface dimensions: any values of the ranks. -/
theorem C67_checkpoint_cells {l : Layout} (hl : FloatSafe l) (hsq : l.y = l.x) (buf : Buffering)
    (junk tjunk : Nat → List Nat → α)
    (mem : Int → Mem α) (glob : Int → Nat → Option (Quantity α)) (time gtime : Int → Nat → Option Int)
    (tglob : Int → Nat → Option (Quantity α)) (tgtime : Int → Nat → Option Int)
    (parts : Nat → Parts) (tparts : Int → Nat → Parts) (filled : List Nat) (tfilled : Int → List Nat)
    (hglob : ∀ g v, glob 0 g = some v → v.GlobalShaped (.cube l) (parts g).dims (parts g).cells)
    (hfilled : ∀ g ∈ filled, ∃ v, glob 0 g = some v)
    (htglob : ∀ t, 0 ≤ t → t < 6 → ∀ g v, tglob (t * l.tileRanks) g = some v →
      v.GlobalShaped (.tile l) (tparts t g).dims (tparts t g).cells)
    (htfilled : ∀ t, 0 ≤ t → t < 6 → ∀ g ∈ tfilled t, ∃ v, tglob (t * l.tileRanks) g = some v)
    (t : Int) (t0 : 0 ≤ t) (t6 : t < 6) (i j : Nat) (vars : List StateVar) (o o' : Int → Option COp)
    (ho : o t = some (.gatherState i j vars)) (ho' : o' t = some (.scatterState i j vars)) (ops : List (UOp α))
    (hops : TilesValid l mem parts tparts filled tfilled (.tiles o :: ops ++ [.tiles o']))
    (hno : ∀ o, UOp.tiles o ∈ ops → ∀ a, o t = some a → ¬ a.GathersState j ∧ ∀ v ∈ vars, ¬ a.GathersTo v.g)
    (hcells : ∀ v ∈ vars, ∀ d ∈ (tparts t v.g).dims, d ≠ .xI ∧ d ≠ .yI ∧ d ≠ .zI) :
    ∃ fin : Int → TileState α,
      (tileSessionNet l junk tjunk (.tiles o :: ops ++ [.tiles o']) mem glob time gtime tglob tgtime).Completes buf
        (fun r => if r ∈ allRanks l then some (.ok (fin r)) else none) ∧
      ∀ r ∈ allRanks l, r / l.tileRanks = t →
        (fin r).base.time i = (time (t * l.tileRanks) i).or (tgtime (t * l.tileRanks) j) ∧
        ∀ v ∈ vars, ((fin r).base.s.mem v.q).computeArr.Eqv (mem r v.q).computeArr := by
  refine C67_checkpoint hl hsq buf junk tjunk mem glob time gtime tglob tgtime parts tparts filled tfilled hglob hfilled
    htglob htfilled t t0 t6 i j vars o o' ho ho' ops hops hno ?_
  intro v hv
  have hp : PartsOn (.tile l) (fun i => mem (t * l.tileRanks + i)) v.q (tparts t v.g) :=
    (hops.1 t t0 t6 _ ho).2.2 v hv
  obtain ⟨ky, kx, ha⟩ := hp.axes
  intro r hr r' hr' rel rel' h h' he
  obtain ⟨rfl, rfl⟩ := place_tile_injective hl ha (hcells v hv) hr hr'
    (by rw [← rankOf_shape (hp.shaped r hr).extent]; exact h)
    (by rw [← rankOf_shape (hp.shaped r' hr').extent]; exact h') he
  rfl

/-! ### A concrete case -/

/-- First calls of the tiles: tile 3 gathers a state, tile 4 a quantity, the others do nothing. -/
def exTilesA : Int → Option COp := fun t =>
  if t = 3 then some (.gatherState 0 0 exVars) else if t = 4 then some (.gather 1 0) else none

/-- Tile 3 gathers another quantity, tile 4 scatters the one it has, tile 5 gathers a state. -/
def exTilesB : Int → Option COp := fun t =>
  if t = 3 then some (.gather 0 9) else if t = 4 then some (.scatter 2 0)
  else if t = 5 then some (.gatherState 1 1 [⟨"pressure", 0, 5⟩]) else none

/-- Tile 3 scatters its state. -/
def exTilesC : Int → Option COp := fun t => if t = 3 then some (.scatterState 0 0 exVars) else none

/-- The calls between the first and the last. -/
def exTilesOps : List (UOp α) :=
  [.op (.op (.call (.compute exNext))), .op (.op (.call (.haloUpdate 0 1))), .tiles exTilesB, .op (.op (.gather 0 3))]

theorem exAny_onTile (z : α) (F : Int → Nat → List Nat → α) {t : Int} (t0 : 0 ≤ t) (t6 : t < 6) (q g : Nat) :
    PartsOn (.tile ⟨2, 2⟩) (fun i => exAnyMem z F (t * (⟨2, 2⟩ : Layout).tileRanks + i)) q (exParts g) := by
  have h := exAny_parts z F q g
  have hin : ∀ i ∈ (Comm.tile ⟨2, 2⟩).ranks, t * (⟨2, 2⟩ : Layout).tileRanks + i ∈ allRanks ⟨2, 2⟩ := by
    intro i hi
    have hi : 0 ≤ i ∧ i < 4 := (mem_ranks (.tile ⟨2, 2⟩) i).1 hi
    have e : (⟨2, 2⟩ : Layout).tileRanks = 4 := rfl
    rw [e]
    exact mem_allRanks.2 ⟨by omega, by have : (⟨2, 2⟩ : Layout).cubeRanks = 24 := rfl; omega⟩
  exact ⟨h.axes, h.small, fun i hi => h.names _ (hin i hi), fun i hi => h.shaped _ (hin i hi)⟩

/-- 24 ranks with any values and times: tile 3 gathers a state and tile 4 a quantity; all compute and update halos; the
tiles 3, 4 and 5 call their communicators; all ranks gather a quantity; tile 3 scatters the state.  The ranks of tile 3
(12, ..., 15) have the variables of the state and the time of rank 12. -/
example (buf : Buffering) (z : α) (F : Int → Nat → List Nat → α) (T : Int → Int) :
    ∃ fin : Int → TileState α,
      (tileSessionNet ⟨2, 2⟩ (fun _ _ => z) (fun _ _ => z) (.tiles exTilesA :: exTilesOps ++ [.tiles exTilesC])
        (exAnyMem z F) (fun _ _ => none) (fun r i => if i = 0 then some (T r) else none) (fun _ _ => none)
        (fun _ _ => none) (fun _ _ => none)).Completes buf
        (fun r => if r ∈ allRanks ⟨2, 2⟩ then some (.ok (fin r)) else none) ∧
      ∀ r, 12 ≤ r → r < 16 → (fin r).base.time 0 = some (T 12) ∧
        ((fin r).base.s.mem 0).computeArr.Eqv (exAnyMem z F r 0).computeArr ∧
        ((fin r).base.s.mem 2).computeArr.Eqv (exAnyMem z F r 2).computeArr := by
  have s2 : FloatSafe ⟨2, 2⟩ := C05_safe_up_to_48 _ (by decide) (by decide) (by decide) (by decide)
  have hp := exAny_parts z F
  have ht : ∀ t, 0 ≤ t → t < 6 → ∀ q g, PartsOn (.tile ⟨2, 2⟩)
      (fun i => exAnyMem z F (t * (⟨2, 2⟩ : Layout).tileRanks + i)) q (exParts g) := fun t t0 t6 => exAny_onTile z F t0 t6
  have hv : TilesValid ⟨2, 2⟩ (exAnyMem z F) exParts (fun _ => exParts) [] (fun _ => [])
      (.tiles exTilesA :: exTilesOps ++ [.tiles exTilesC]) := by
    refine ⟨fun t t0 t6 a ha => ?_, ?_, ?_, fun t t0 t6 a ha => ?_, hp _ _, fun t t0 t6 a ha => ?_, trivial⟩
    · unfold exTilesA at ha
      split at ha
      · cases ha
        exact ⟨exVars_good, by decide, fun v _ => ht t t0 t6 _ _⟩
      · split at ha
        · cases ha
          exact ht t t0 t6 _ _
        · cases ha
    · exact fun r _ mem hm q' => ⟨(hm q').shape, (hm q').dims, (hm q').units, (hm q').origin, (hm q').extent⟩
    · intro op ho
      cases ho
      have R := (exSession_run z (fun _ _ => z) 0).field
      refine ⟨0, 1, 3, by decide, by decide, fun r hr => ?_, R.2, R.3, R.4⟩
      have h := R.1 r hr
      exact ⟨⟨⟨rfl, rfl, rfl⟩, h.wf.2⟩, h.2, h.3, h.4, h.5, h.6⟩
    · unfold exTilesB at ha
      split at ha
      · cases ha
        exact ht t t0 t6 _ _
      · split at ha
        · cases ha
          next h => subst h; exact ⟨(by decide : (0 : Nat) ∈ [0]), ht _ t0 t6 _ _⟩
        · split at ha
          · cases ha
            exact ⟨⟨by decide, by decide⟩, by decide, fun v _ => ht t t0 t6 _ _⟩
          · cases ha
    · unfold exTilesC at ha
      split at ha
      · cases ha
        next h =>
          subst h
          exact ⟨exVars_good, by decide, fun v hv => ⟨(by decide : ∀ v ∈ exVars, v.g ∈ [9, 3, 4]) v hv, ht _ t0 t6 _ _⟩⟩
      · cases ha
  obtain ⟨fin, h1, h2⟩ := C67_checkpoint_cells s2 rfl buf (fun _ _ => z) (fun _ _ => z) (exAnyMem z F) (fun _ _ => none)
    (fun r i => if i = 0 then some (T r) else none) (fun _ _ => none) (fun _ _ => none) (fun _ _ => none) exParts
    (fun _ => exParts) [] (fun _ => []) (fun _ _ h => by cases h) (fun _ h => by cases h) (fun _ _ _ _ _ h => by cases h)
    (fun _ _ _ _ h => by cases h) 3 (by decide) (by decide) 0 0 exVars exTilesA exTilesC rfl rfl exTilesOps hv
    (by
      intro o ho a ha
      simp only [exTilesOps, List.mem_cons, reduceCtorEq, UOp.tiles.injEq, List.not_mem_nil, or_false, false_or] at ho
      subst ho
      cases ha
      exact ⟨fun h => h, (by decide : ∀ v ∈ exVars, ¬ 9 = v.g)⟩)
    (fun v _ => (by decide : ∀ d ∈ [Dim.y, Dim.x], d ≠ .xI ∧ d ≠ .yI ∧ d ≠ .zI))
  refine ⟨fin, h1, fun r r0 r1 => ?_⟩
  have e : (⟨2, 2⟩ : Layout).tileRanks = 4 := rfl
  obtain ⟨h3, h4⟩ := h2 r (mem_allRanks.2 ⟨by omega, by have : (⟨2, 2⟩ : Layout).cubeRanks = 24 := rfl; omega⟩)
    (by rw [e]; omega)
  exact ⟨h3, h4 ⟨"pressure", 0, 3⟩ (by simp [exVars]), h4 ⟨"height", 2, 4⟩ (by simp [exVars])⟩

/-- 24 ranks, all tiles gather a quantity after a computation, then all ranks gather it: the entries with first index 4 of
the latter are the array on rank 16. -/
example (buf : Buffering) (z : α) (F : Int → Nat → List Nat → α) :
    ∃ fin : Int → TileState α,
      (tileSessionNet ⟨2, 2⟩ (fun _ _ => z) (fun _ _ => z)
        ([.op (.op (.call (.compute exNext)))] ++ [.tiles fun _ => some (.gather 1 0), .op (.op (.gather 1 5))])
        (exAnyMem z F) (fun _ _ => none) (fun _ _ => none) (fun _ _ => none) (fun _ _ => none)
        (fun _ _ => none)).Completes buf (fun r => if r ∈ allRanks ⟨2, 2⟩ then some (.ok (fin r)) else none) ∧
      ∃ w v, (fin 0).base.s.glob 5 = some w ∧ (fin 16).tglob 0 = some v ∧
        w.computeArr.shape = 6 :: v.computeArr.shape ∧
        ∀ idx, InB v.computeArr.shape idx → w.computeArr.get (4 :: idx) = v.computeArr.get idx :=
  C67_gather (C05_safe_up_to_48 _ (by decide) (by decide) (by decide) (by decide)) rfl buf _ _ _ _ _ _ _ _ exParts
    (fun _ => exParts) [] (fun _ => []) (fun _ _ h => by cases h) (fun _ h => by cases h) (fun _ _ _ _ _ h => by cases h)
    (fun _ _ _ _ h => by cases h) 4 (by decide) (by decide) 1 5 0 _ rfl rfl _
    ⟨fun _ _ _ hm q' => ⟨(hm q').shape, (hm q').dims, (hm q').units, (hm q').origin, (hm q').extent⟩,
      fun t t0 t6 a ha => by cases ha; exact exAny_onTile z F t0 t6 _ _, exAny_parts z F _ _, trivial⟩

end FV3
