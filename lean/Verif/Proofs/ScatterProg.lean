import Verif.Proofs.ScatterView
import Verif.Proofs.Coll
import Verif.Proofs.Cover

/-!
# The programs `scatter` and `gather`
-/

namespace FV3
variable {α : Type}

theorem ranks_getD {β : Type} (c : Comm) (f : Int → β) (d : β) {r : Int} (h0 : 0 ≤ r) (h1 : r < c.size) :
    (c.ranks.map f).getD r.toNat d = f r := by
  unfold Comm.ranks
  rw [List.map_map, List.getD_eq_getElem?_getD, List.getElem?_map, List.getElem?_range (by omega)]
  show f ((r.toNat : Nat) : Int) = f r
  congr 1; omega

theorem subtileExtent_ok {c : Comm} (hl : FloatSafe c.layout) {dims : List Dim} {cells ext : List Int}
    (hG : c.GlobalExtent dims cells ext) :
    ∃ e, c.subtileExtent (c.globalDims dims) ext = .ok e ∧ RankOf dims cells e := by
  cases c with
  | tile l => exact ⟨_, rfl, rankExtent_rankOf hl hG⟩
  | cube l =>
    obtain ⟨t, rfl, ht⟩ := hG
    refine ⟨rankExtentFromTileMetadata dims t l, ?_, rankExtent_rankOf hl ht⟩
    simp [Comm.subtileExtent, Comm.globalDims, Cube.subtileExtent]

theorem mk?_fresh (data : NDArray α) (dims : List Dim) (cells shape : List Int) (units : String)
    (hs : RankOf dims cells shape) (hd : data.shape = shape.map Int.toNat) :
    ∃ q, Quantity.mk? data dims units none none = .ok q ∧ q.WF ∧ q.dims = dims ∧ q.units = units ∧
      (∀ k, q.o k = 0) ∧ q.extent = shape ∧ q.data = data := by
  have hlen : data.shape.length = dims.length := by rw [hd, List.length_map, hs.2.1]
  have hext : List.zipWith (fun (length : Nat) (start : Int) => (length : Int) - start) data.shape
      (List.replicate dims.length 0) = shape := by
    apply ext_getD 0
    · simp [hlen, hs.2.1]
    · intro k hk
      have hk' : k < dims.length := by simpa [hlen] using hk
      have h := rankOf_getD hs hk'
      have h' := nShared_range (dims.getD k .x)
      have e := toNat_of_getD (tile := shape) (k := k) (by rw [hs.2.1]; exact hk') (by omega)
      rw [← hd, getD_lt _ (by omega)] at e
      rw [getD_lt _ hk, List.getElem_zipWith, List.getElem_replicate, e]
      omega
  refine ⟨⟨data, dims, units, List.replicate dims.length 0, shape⟩, ?_, ?_, rfl, rfl, ?_, rfl, rfl⟩
  · unfold Quantity.mk?
    simp only [Option.getD_none, hext]
    unfold validateLengths
    rw [if_neg (by simpa using hlen.symm), if_neg (by simpa using hlen.symm), if_neg (by rw [hs.2.1, hlen]; simp)]
    rfl
  · refine ⟨⟨hlen, by simp [Quantity.ndim], hs.2.1⟩, ?_⟩
    intro k hk
    have hk' : k < dims.length := hk
    have h := rankOf_getD hs hk'
    have h' := nShared_range (dims.getD k .x)
    have e := toNat_of_getD (tile := shape) (k := k) (by rw [hs.2.1]; exact hk') (by omega)
    unfold Quantity.o Quantity.e Quantity.n
    dsimp only
    rw [hd, e, getD_lt _ (by simpa using hk'), List.getElem_replicate]
    omega
  · intro k
    unfold Quantity.o
    dsimp only
    by_cases hk : k < dims.length
    · rw [getD_lt _ (by simpa using hk), List.getElem_replicate]
    · rw [getD_ge _ (by simpa using hk)]

theorem rankOf_nonneg {dims : List Dim} {cells shape : List Int} (hs : RankOf dims cells shape) :
    (shape.all fun n => decide (0 ≤ n)) = true := by
  rw [List.all_eq_true]
  intro x hx
  obtain ⟨k, hk, rfl⟩ := List.getElem_of_mem hx
  have hk' : k < dims.length := by rw [← hs.2.1]; exact hk
  have h := rankOf_getD hs hk'
  have h' := nShared_range (dims.getD k .x)
  rw [getD_lt (l := shape) _ hk] at h
  simp only [decide_eq_true_eq]
  omega

theorem scatterRecv_fresh (c : Comm) (junk : List Nat → α) {dims : List Dim} {cells shape : List Int}
    (hs : RankOf dims cells shape) (md : QMeta) (hd : md.dims = c.globalDims dims) :
    ∃ q, c.scatterRecvQuantity junk shape md = .ok q ∧ q.WF ∧ FreshPart q dims cells md.units := by
  obtain ⟨q, h1, h2, h3, h4, h5, h6, h7⟩ := mk?_fresh (⟨shape.map Int.toNat, junk⟩ : NDArray α) dims cells shape
    md.units hs rfl
  refine ⟨q, ?_, h2, h3, h4, h5, by rw [h6]; exact hs, by rw [h7, h6]⟩
  unfold Comm.scatterRecvQuantity npFull
  rw [if_pos (rankOf_nonneg hs)]
  simp only [bind, Except.bind]
  cases c with
  | tile l => simp only [hd, Comm.globalDims]; exact h1
  | cube l => simp only [hd, Comm.globalDims, List.tail_cons]; exact h1

theorem FreshPart.refilled {q q' : Quantity α} {dims : List Dim} {cells : List Int} {units : String}
    (h : FreshPart q dims cells units) (hr : q.Refilled q') : FreshPart q' dims cells units := by
  refine ⟨hr.dims.trans h.names, hr.units.trans h.units, ?_, by rw [hr.extent]; exact h.extent,
    by rw [hr.shape, hr.extent]; exact h.shape⟩
  intro k
  unfold Quantity.o
  rw [hr.origin]
  exact h.origin k

theorem rankShaped_ndim {q : Quantity α} {dims : List Dim} {cells : List Int} (h : q.RankShaped dims cells) :
    q.ndim = dims.length := by rw [← h.wf.extent, h.extent.2.1]

/-- What rank `r` has after a scatter. -/
structure ScatterOut (c : Comm) (dims : List Dim) (cells : List Int) (g : Quantity α) (recv : Option (Quantity α))
    (r : Int) (q' : Quantity α) : Prop where
  part : IsPart c dims cells g q' r
  shaped : q'.RankShaped dims cells
  given : ∀ q, recv = some q → q.Refilled q'
  fresh : recv = none → FreshPart q' dims cells g.units

theorem scatter_does (buf : Buffering) {c : Comm} (hl : FloatSafe c.layout) (junk : List Nat → α)
    {dims : List Dim} {cells : List Int} (hpos : 0 < dims.length) {g : Quantity α} (hg : g.GlobalShaped c dims cells)
    (send recv : Int → Option (Quantity α)) (hsend : send 0 = some g)
    (hrecv : ∀ r ∈ c.ranks, ∀ q, recv r = some q → q.RankShaped dims cells) (n : Nat) :
    ∃ out : Int → Quantity α, AllDo buf c (fun r => scatter c junk r (send r) (recv r)) n (n + 2) (fun r => .ok (out r)) ∧
      ∀ r ∈ c.ranks, ScatterOut c dims cells g (recv r) r (out r) := by
  have hsize := comm_size_pos hl
  obtain ⟨shape, hsh, hs⟩ := subtileExtent_ok hl hg.extent
  rw [← hg.names] at hsh
  -- the receive quantities
  have hrq : ∀ r, ∃ q, r ∈ c.ranks → recvOrNew (recv r) (c.scatterRecvQuantity junk shape g.metadata) = .ok q ∧ q.RankShaped dims cells ∧
        (∀ p, recv r = some p → p = q) ∧ (recv r = none → FreshPart q dims cells g.units) := by
    intro r
    cases h : recv r with
    | some q => exact ⟨q, fun hr => ⟨rfl, hrecv r hr q h, fun p hp => by cases hp; rfl, by simp⟩⟩
    | none =>
      obtain ⟨q, h1, h2, h3⟩ := scatterRecv_fresh c junk hs g.metadata hg.names
      exact ⟨q, fun _ => ⟨h1, ⟨h2, h3.extent⟩, by simp, fun _ => h3⟩⟩
  choose rq hrq using hrq
  have hout : ∀ r, ∃ q', r ∈ c.ranks → (rq r).fillView (partOf c dims cells g r) = .ok q' ∧
      ScatterOut c dims cells g (recv r) r q' := by
    intro r
    by_cases hr : r ∈ c.ranks
    · obtain ⟨h1, h2, h3, h4⟩ := hrq r hr
      have hshape : (rq r).computeArr.shape = rankShape dims cells := rankOf_shape h2.extent
      obtain ⟨q', f1, f2, f3⟩ := fillView_ok (rq r) h2.wf (by rw [rankShaped_ndim h2]; exact hpos)
        (partOf c dims cells g r) hshape.symm
      refine ⟨q', fun _ => ⟨f1, ?_, f2.rankShaped h2, ?_, fun h => (h4 h).refilled f2⟩⟩
      · intro rel hrel
        have : q'.computeArr.shape = (rq r).computeArr.shape := by
          show q'.extent.map _ = (rq r).extent.map _
          rw [f2.extent]
        rw [f3 rel (by rw [← this]; exact hrel)]
        rfl
      · intro q hq
        rw [h3 q hq]; exact f2
    · exact ⟨rq r, fun h => absurd h hr⟩
  choose out hout using hout
  refine ⟨out, ?_, fun r hr => (hout r hr).2⟩
  have hparts : ∀ r, 0 ≤ r → r < c.size → (partOf c dims cells g 0 :: (clients c.size).map (partOf c dims cells g)).getD r.toNat
      (partOf c dims cells g 0) = partOf c dims cells g r := by
    intro r h0 h1
    have := ranks_getD c (partOf c dims cells g) (partOf c dims cells g 0) h0 h1
    rwa [ranks_cons c hsize, List.map_cons] at this
  refine ⟨fun r => distPlan c.size n (fun _ => Msg.metadata g.metadata) r ++
    distPlan c.size (n + 1) (fun r => Msg.data ((partOf c dims cells g 0 ::
      (clients c.size).map (partOf c dims cells g)).getD r.toNat (partOf c dims cells g 0))) r,
    (distPlan_seg buf c hsize n _).append (distPlan_seg buf c hsize (n + 1) _), ?_⟩
  intro r hr
  have hr' := (mem_ranks c r).1 hr
  obtain ⟨h1, -⟩ := hrq r hr
  obtain ⟨h2, -⟩ := hout r hr
  unfold scatter
  beta_reduce
  by_cases h0 : r = 0
  · subst h0
    rw [if_pos (show (0 : Int) = ROOT_RANK from rfl)]
    simp only [hsend]
    refine RealC.bind (bcast_real c.size (fun _ => Msg.metadata g.metadata) n 0 hr') ?_
    refine RealC.lift_bind (a := g.metadata) rfl ?_
    refine RealC.lift_bind (a := shape) hsh ?_
    refine RealC.lift_bind (a := rq 0) h1 ?_
    refine RealC.lift_bind (a := partOf c dims cells g 0 :: (clients c.size).map (partOf c dims cells g)) ?_ ?_
    · rw [scatterBlocks_ok hl hpos hg hs _ (fun _ h => h), ranks_cons c hsize]; rfl
    · refine RealC.bind_end (rootSends_real c.size (fun r => Msg.data ((partOf c dims cells g 0 ::
          (clients c.size).map (partOf c dims cells g)).getD r.toNat (partOf c dims cells g 0))) (n + 1)) ?_
      rw [← h2]
      exact RealC.lift _ _
  · rw [if_neg (show ¬ r = ROOT_RANK from h0)]
    refine RealC.bind (a := Msg.metadata g.metadata) ?_ ?_ (c' := n + 1)
    · have := bcast_real c.size (fun r => if r = 0 then Msg.metadata g.metadata else (Msg.time none : Msg α)) n r hr'
      simp only [if_neg h0, if_true] at this
      exact this
    refine RealC.lift_bind (a := g.metadata) rfl ?_
    refine RealC.lift_bind (a := shape) hsh ?_
    refine RealC.lift_bind (a := rq r) h1 ?_
    refine RealC.bind_end (clientRecvs_real c.size (fun r => Msg.data ((partOf c dims cells g 0 ::
          (clients c.size).map (partOf c dims cells g)).getD r.toNat (partOf c dims cells g 0))) (n + 1) r (by omega)) ?_
    refine RealC.lift_bind (a := partOf c dims cells g r) ?_ ?_
    · simp only [Msg.asData]
      rw [hparts r hr'.1 hr'.2]
    · rw [← h2]
      exact RealC.lift _ _

/-! ### gather -/

theorem dataOfShape_ok (shape : List Nat) (blocks : List (NDArray α)) (h : ∀ a ∈ blocks, a.shape = shape) :
    dataOfShape shape (blocks.map Msg.data) = .ok blocks := by
  induction blocks with
  | nil => rfl
  | cons a bs ih =>
    simp only [List.map_cons, dataOfShape, Msg.asData, bind, Except.bind]
    rw [if_pos (h a List.mem_cons_self), ih (fun b hb => h b (List.mem_cons_of_mem _ hb))]
    rfl

theorem Quantity.Refilled.globalShaped {q q' : Quantity α} {c : Comm} {dims : List Dim} {cells : List Int}
    (h : q.Refilled q') (hq : q.GlobalShaped c dims cells) : q'.GlobalShaped c dims cells :=
  ⟨h.wf hq.wf, by rw [h.dims]; exact hq.names, by rw [h.extent]; exact hq.extent⟩

theorem Quantity.Refilled.computeShape {q q' : Quantity α} (h : q.Refilled q') :
    q'.computeArr.shape = q.computeArr.shape := by
  show q'.extent.map _ = q.extent.map _
  rw [h.extent]

theorem gatherStore_ok {c : Comm} (hl : FloatSafe c.layout) {dims : List Dim} {cells : List Int} (hpos : 0 < dims.length)
    (blocks : List (Int × NDArray α)) (hb : ∀ p ∈ blocks, p.1 ∈ c.ranks ∧ p.2.shape = rankShape dims cells)
    (hord : blocks.Pairwise fun a b => a.1 < b.1) (q : Quantity α) (hq : q.GlobalShaped c dims cells) :
    ∃ q', gatherStore c blocks q = .ok q' ∧ q.Refilled q' ∧
      (∀ g, InB q.computeArr.shape g → (∀ p ∈ blocks, ∀ rel, InB (rankShape dims cells) rel →
        c.place dims cells p.1 rel ≠ g) → q'.computeArr.get g = q.computeArr.get g) ∧
      (∀ p ∈ blocks, ∀ rel, InB (rankShape dims cells) rel →
        (∀ p' ∈ blocks, ∀ rel', InB (rankShape dims cells) rel' →
          c.place dims cells p'.1 rel' = c.place dims cells p.1 rel → p'.1 ≤ p.1) →
        q'.computeArr.get (c.place dims cells p.1 rel) = p.2.get rel) := by
  induction blocks generalizing q with
  | nil => exact ⟨q, rfl, .refl q, fun _ _ _ => rfl, by simp⟩
  | cons p bs ih =>
    obtain ⟨r, a⟩ := p
    obtain ⟨hr, ha⟩ := hb (r, a) List.mem_cons_self
    obtain ⟨ix, q1, h1, h2, h3, h4, h5⟩ := viewSet_place hl hq hr a ha
    rw [List.pairwise_cons] at hord
    obtain ⟨q', g1, g2, g3, g4⟩ := ih (fun p hp => hb p (List.mem_cons_of_mem _ hp)) hord.2 q1 (h3.globalShaped hq)
    refine ⟨q', ?_, h3.trans g2, ?_, ?_⟩
    · unfold gatherStore
      rw [h1]
      simp only [bind, Except.bind, h2]
      rw [if_neg (by rw [ha]; unfold rankShape; rw [length_tab]; omega)]
      exact g1
    · intro g hg hno
      rw [g3 g (by rw [h3.computeShape]; exact hg) (fun p hp => hno p (List.mem_cons_of_mem _ hp))]
      exact h5 g hg (hno (r, a) List.mem_cons_self)
    · intro p hp rel hrel hmax
      rcases List.mem_cons.1 hp with rfl | hp
      · have hr' := (mem_ranks c r).1 hr
        have hin : InB q.computeArr.shape (c.place dims cells r rel) := place_inB hl hq.extent hr'.1 hr'.2 hrel
        rw [g3 _ (by rw [h3.computeShape]; exact hin)]
        · exact h4 rel hrel hin
        · intro p' hp' rel' hrel' he
          have := hmax p' (List.mem_cons_of_mem _ hp') rel' hrel' he
          have := hord.1 p' hp'
          simp only at *
          omega
      · exact g4 p hp rel hrel (fun p' hp' => hmax p' (List.mem_cons_of_mem _ hp'))

theorem ranks_pairwise (c : Comm) : c.ranks.Pairwise (· < ·) := by
  unfold Comm.ranks
  rw [List.pairwise_map]
  refine List.Pairwise.imp ?_ List.pairwise_lt_range
  intro a b h
  show (a : Int) < (b : Int)
  omega

theorem zip_map_self {A B : Type} (l : List A) (f : A → B) : l.zip (l.map f) = l.map fun x => (x, f x) := by
  induction l with
  | nil => rfl
  | cons a l ih => simp [ih]

theorem mk?_global (data : NDArray α) (dims : List Dim) (ext : List Int) (units : String)
    (hd : ext.length = dims.length) (hn : ∀ k, k < ext.length → 0 ≤ ext.getD k 0)
    (hs : data.shape = ext.map Int.toNat) (origin : List Int) (ho : origin = dims.map fun _ => 0) :
    ∃ q, Quantity.mk? data dims units (some origin) (some ext) = .ok q ∧ q.WF ∧ q.dims = dims ∧ q.units = units ∧
      (∀ k, q.o k = 0) ∧ q.extent = ext ∧ q.data = data := by
  have hlen : data.shape.length = dims.length := by rw [hs, List.length_map, hd]
  have hlo : origin.length = dims.length := by rw [ho, List.length_map]
  have hz : ∀ k, origin.getD k 0 = 0 := by
    intro k
    rw [ho]
    by_cases hk : k < dims.length
    · rw [getD_lt _ (by simpa using hk)]; simp
    · rw [getD_ge _ (by simpa using hk)]
  refine ⟨⟨data, dims, units, origin, ext⟩, ?_, ⟨⟨hlen, hlo, hd⟩, ?_⟩, rfl, rfl, hz, rfl, rfl⟩
  · unfold Quantity.mk? validateLengths
    simp only [Option.getD_some]
    rw [if_neg (by simpa using hlen.symm), if_neg (by rw [hlo, hlen]; simp), if_neg (by rw [hd, hlen]; simp)]
    rfl
  · intro k hk
    have hk' : k < ext.length := by rw [hd]; exact hk
    have h := hn k hk'
    have e := toNat_of_getD (tile := ext) hk' h
    unfold Quantity.o Quantity.e Quantity.n
    dsimp only
    rw [hs, e, hz k]
    omega

theorem globalExtent_ok {c : Comm} {dims : List Dim} {cells ext : List Int}
    (hR : RankOf dims cells ext) (hb : ∀ k, k < dims.length → cells.getD k 0 * ranksAlong c.layout (dims.getD k .x) < 2 ^ 51) :
    c.GlobalExtent dims cells (c.globalExtent dims ext) := by
  have key : ∀ l : Layout, (∀ k, k < dims.length → cells.getD k 0 * ranksAlong l (dims.getD k .x) < 2 ^ 51) →
      TileOf l dims cells (tileExtentFromRankMetadata dims ext l) := by
    intro l hb
    refine ⟨hR.1, tileExtent_length _ _ _ hR.2.1, ?_⟩
    intro k d x t hd hc ht
    have hk : k < dims.length := (List.getElem?_eq_some_iff.1 hd).1
    have h1 := rankOf_getD hR hk
    have h2 := tileExtent_get dims ext l k _ _ (get?_of_lt dims .x hk) (get?_of_lt ext 0 (by rw [hR.2.1]; exact hk))
    have ed : dims.getD k .x = d := by rw [List.getD_eq_getElem?_getD, hd]; rfl
    have ec : cells.getD k 0 = x := by rw [List.getD_eq_getElem?_getD, hc]; rfl
    have hb' := hb k hk
    rw [ht] at h2
    injection h2 with h2
    rw [ed, ec] at h1 hb'
    rw [h1.2, ed] at h2
    refine ⟨h1.1, hb', ?_⟩
    rw [h2, pointsOf_eq]
    congr 2
    omega
  cases c with
  | tile l => exact key l hb
  | cube l => exact ⟨_, rfl, key l hb⟩

theorem globalExtent_shape {c : Comm} (hl : FloatSafe c.layout) {dims : List Dim} {cells ext : List Int}
    (h : c.GlobalExtent dims cells ext) :
    ext.length = (c.globalDims dims).length ∧ ∀ k, k < ext.length → 0 ≤ ext.getD k 0 := by
  have key : ∀ (l : Layout) (_ : FloatSafe l) (ext : List Int), TileOf l dims cells ext →
      ext.length = dims.length ∧ ∀ k, k < ext.length → 0 ≤ ext.getD k 0 := by
    intro l hl ext h
    refine ⟨h.2.1, fun k hk => ?_⟩
    obtain ⟨h1, h2, h3⟩ := tileOf_getD h (by rw [← h.2.1]; exact hk)
    rw [h3]
    have := nShared_range (dims.getD k .x)
    have := Int.mul_nonneg h1 (Int.le_of_lt (ranksAlong_pos hl (dims.getD k .x)))
    omega
  cases c with
  | tile l => exact key l hl ext h
  | cube l =>
    obtain ⟨t, rfl, ht⟩ := h
    obtain ⟨h1, h2⟩ := key l hl t ht
    refine ⟨by simp [Comm.globalDims, h1], ?_⟩
    intro k hk
    cases k with
    | zero => simp
    | succ k => simpa using h2 k (by simpa using hk)

theorem gatherRecv_fresh {c : Comm} (hl : FloatSafe c.layout) (junk : List Nat → α) {dims : List Dim}
    {cells ext : List Int} (hG : c.GlobalExtent dims cells ext) (md : QMeta) (hd : md.dims = dims) :
    ∃ q, c.gatherRecvQuantity junk ext md = .ok q ∧ FreshGlobal c q dims cells md.units ∧ q.extent = ext := by
  obtain ⟨e1, e2⟩ := globalExtent_shape hl hG
  have hall : (ext.all fun n => decide (0 ≤ n)) = true := by
    rw [List.all_eq_true]
    intro x hx
    obtain ⟨k, hk, rfl⟩ := List.getElem_of_mem hx
    have := e2 k hk
    rw [getD_lt _ hk] at this
    simpa using this
  obtain ⟨q, h1, h2, h3, h4, h5, h6, h7⟩ := mk?_global (⟨ext.map Int.toNat, junk⟩ : NDArray α) (c.globalDims dims) ext
    md.units e1 e2 rfl ((c.globalDims dims).map fun _ => 0) rfl
  refine ⟨q, ?_, ⟨⟨h2, h3, by rw [h6]; exact hG⟩, h4, h5, by rw [h7, h6]⟩, h6⟩
  unfold Comm.gatherRecvQuantity npFull
  rw [if_pos hall]
  simp only [bind, Except.bind]
  cases c with
  | tile l => simp only [hd]; exact h1
  | cube l => simp only [hd]; exact h1

/-- What root has after a gather. -/
structure GatherOut (c : Comm) (dims : List Dim) (cells : List Int) (send : Int → Quantity α)
    (recv : Option (Quantity α)) (q' : Quantity α) : Prop where
  shaped : q'.GlobalShaped c dims cells
  value : ∀ r rel, HighestAt c dims cells (rankShape dims cells) r rel →
    q'.computeArr.get (c.place dims cells r rel) = (send r).computeArr.get rel
  given : ∀ q, recv = some q → q.Refilled q'
  fresh : recv = none → FreshGlobal c q' dims cells (send 0).units ∧
    q'.extent = c.globalExtent (send 0).dims (send 0).extent

theorem gather_does (buf : Buffering) {c : Comm} (hl : FloatSafe c.layout) (junk : List Nat → α)
    {dims : List Dim} {cells : List Int} (hpos : 0 < dims.length)
    (hb : ∀ k, k < dims.length → cells.getD k 0 * ranksAlong c.layout (dims.getD k .x) < 2 ^ 51)
    (send : Int → Quantity α) (recv : Int → Option (Quantity α))
    (hsend : ∀ r ∈ c.ranks, (send r).RankShaped dims cells)
    (hrecv : ∀ q, recv 0 = some q → q.GlobalShaped c dims cells)
    (hdims : recv 0 = none → (send 0).dims = dims) (n : Nat) :
    ∃ root : Quantity α, AllDo buf c (fun r => gather c junk r (send r) (recv r)) n (n + 1)
        (fun r => .ok (if r = 0 then some root else none)) ∧
      GatherOut c dims cells send (recv 0) root := by
  have hsize := comm_size_pos hl
  have h0mem : (0 : Int) ∈ c.ranks := (mem_ranks c 0).2 ⟨by omega, hsize⟩
  have hblk : ∀ r, ∃ a : NDArray α, r ∈ c.ranks → (send r).viewGet (.one (.slice .full)) = .ok a ∧
      a.shape = rankShape dims cells ∧ ∀ rel, InB (rankShape dims cells) rel → a.get rel = (send r).computeArr.get rel := by
    intro r
    by_cases hr : r ∈ c.ranks
    · have h := hsend r hr
      obtain ⟨a, h1, h2, h3⟩ := C29_view_all (send r) h.wf (by rw [rankShaped_ndim h]; exact hpos)
      have h2' : a.shape = rankShape dims cells := h2.trans (rankOf_shape h.extent)
      exact ⟨a, fun _ => ⟨h1, h2', fun rel hrel => h3 rel (by rw [h2']; exact hrel)⟩⟩
    · exact ⟨(send r).computeArr, fun h => absurd h hr⟩
  choose blk hblk using hblk
  have hrq : ∃ rq : Quantity α, recvOrNew (recv 0) (c.gatherRecvQuantity junk (c.globalExtent (send 0).dims (send 0).extent) (send 0).metadata) = .ok rq ∧
      rq.GlobalShaped c dims cells ∧ (∀ q, recv 0 = some q → q = rq) ∧
      (recv 0 = none → FreshGlobal c rq dims cells (send 0).units ∧
        rq.extent = c.globalExtent (send 0).dims (send 0).extent) := by
    cases h : recv 0 with
    | some q => exact ⟨q, rfl, hrecv q h, fun p hp => by cases hp; rfl, by simp⟩
    | none =>
      have hd := hdims h
      obtain ⟨q, h1, h2, h3⟩ := gatherRecv_fresh hl junk
        (globalExtent_ok (c := c) (hsend 0 h0mem).extent hb) (send 0).metadata hd
      rw [hd]
      exact ⟨q, h1, h2.shaped, by simp, fun _ => ⟨h2, h3⟩⟩
  obtain ⟨rq, hrq1, hrq2, hrq3, hrq4⟩ := hrq
  obtain ⟨root, s1, s2, -, s4⟩ := gatherStore_ok hl hpos (c.ranks.map fun r => (r, blk r)) (by
      intro p hp
      obtain ⟨r, hr, rfl⟩ := List.mem_map.1 hp
      exact ⟨hr, (hblk r hr).2.1⟩)
    (by rw [List.pairwise_map]; exact ranks_pairwise c) rq hrq2
  refine ⟨root, ?_, s2.globalShaped hrq2, ?_, ?_, ?_⟩
  · refine ⟨collectPlan c.size n fun r => Msg.data (blk r), collectPlan_seg buf c hsize n _, ?_⟩
    intro r hr
    have hr' := (mem_ranks c r).1 hr
    obtain ⟨b1, b2, -⟩ := hblk r hr
    unfold gather
    beta_reduce
    by_cases h0 : r = 0
    · subst h0
      rw [if_pos (show (0 : Int) = ROOT_RANK from rfl)]
      refine RealC.lift_bind b1 ?_
      refine RealC.bind_end (rootRecvs_real c.size (fun r => Msg.data (blk r)) n) ?_
      refine RealC.lift_bind (a := c.ranks.map blk) ?_ ?_
      · have := dataOfShape_ok (rankShape dims cells) (c.ranks.map blk) (by
          intro a ha
          obtain ⟨r, hr, rfl⟩ := List.mem_map.1 ha
          exact (hblk r hr).2.1)
        rw [rankOf_shape (hsend 0 h0mem).extent, ← this, ranks_cons c hsize]
        simp only [List.map_cons, List.map_map]
        rfl
      · refine RealC.lift_bind hrq1 ?_
        refine RealC.lift_bind (a := root) ?_ (RealC.pure (some root) _)
        rw [zip_map_self]; exact s1
    · rw [if_neg (show ¬ r = ROOT_RANK from h0), if_neg h0]
      refine RealC.lift_bind b1 ?_
      exact RealC.map_pure (f := fun _ => none) (clientSends_real c.size (fun r => Msg.data (blk r)) n r (by omega))
  · intro r rel hH
    obtain ⟨hr, hrel, hmax⟩ := hH
    have := s4 (r, blk r) (List.mem_map.2 ⟨r, hr, rfl⟩) rel hrel (by
      intro p' hp' rel' hrel' he
      obtain ⟨r', hr', rfl⟩ := List.mem_map.1 hp'
      exact hmax r' hr' rel' hrel' he)
    simp only at this
    rw [this, (hblk r hr).2.2 rel hrel]
  · intro q hq
    rw [hrq3 q hq]; exact s2
  · intro h
    obtain ⟨h1, h2⟩ := hrq4 h
    refine ⟨⟨s2.globalShaped hrq2, s2.units.trans h1.units, ?_, by rw [s2.shape, s2.extent]; exact h1.shape⟩,
      s2.extent.trans h2⟩
    intro k
    unfold Quantity.o
    rw [s2.origin]; exact h1.origin k

end FV3
