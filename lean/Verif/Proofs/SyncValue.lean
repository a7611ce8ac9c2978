import Verif.Proofs.Sync

/-!
# Synchronising shared edges: exchange and result
-/

namespace FV3
variable {α : Type}
variable {l : Layout} {m m' : Int → Mem α} {x y : Nat} {ky kx : Nat} {n : Int}

section
variable {r : Int} {mem : Mem α}

/-- Per-rank readiness, also after changes of the values. -/
theorem SyncField.compOK (S : SyncField l m x y ky kx n) (hr : r ∈ allRanks l) (g : MetaIs m r mem)
    (d : Bool) : CompOK (mem (comp x y d)) d ky kx n := by
  cases d with
  | true =>
    have gx := g x
    refine ⟨gx.wf (S.wfX r hr), S.cells, S.lead, HAxes.edgeX (q := mem x) ?_ ?_ ?_, ?_, ?_⟩
    · rw [gx.dims]; exact S.axesX r hr
    · rw [gx.d]; exact (S.dimsX r hr).1
    · rw [gx.d]; exact (S.dimsX r hr).2
    · show (mem x).e ky = _; rw [gx.e]; exact (S.extX r hr).1
    · show (mem x).e kx = _; rw [gx.e]; exact (S.extX r hr).2
  | false =>
    have gy := g y
    refine ⟨gy.wf (S.wfY r hr), S.cells, S.lead, HAxes.edgeY (q := mem y) ?_ ?_ ?_, ?_, ?_⟩
    · rw [gy.dims]; exact S.axesY r hr
    · rw [gy.d]; exact (S.dimsY r hr).1
    · rw [gy.d]; exact (S.dimsY r hr).2
    · show (mem y).e kx = _; rw [gy.e]; exact (S.extY r hr).2
    · show (mem y).e ky = _; rw [gy.e]; exact (S.extY r hr).1

theorem SyncField.same (S : SyncField l m x y ky kx n) {r r' : Int} (hr : r ∈ allRanks l)
    (hr' : r' ∈ allRanks l) {mem mem' : Mem α} (g : MetaIs m r mem) (g' : MetaIs m r' mem') (d s : Bool) :
    (mem' (comp x y s)).ndim = (mem (comp x y d)).ndim ∧
    ∀ k, k < (mem (comp x y d)).ndim → 2 ≤ k →
      (mem' (comp x y s)).e k = (mem (comp x y d)).e k := by
  have hlead := S.lead
  have n1 := S.ndim r hr r' hr'
  have n2 := S.ndim r hr r hr
  have n3 := S.ndim r' hr' r hr
  have n4 := S.ndim r' hr' r' hr'
  have key : ∀ k, 2 ≤ k → k < (m r x).ndim → (m r' y).e k = (m r x).e k ∧ (m r y).e k = (m r x).e k ∧
      (m r' x).e k = (m r x).e k := by
    intro k h2 hk
    have e1 := S.other r hr r' hr' k hk (by omega) (by omega)
    have e2 := S.other r hr r hr k hk (by omega) (by omega)
    have e3 := S.other r' hr' r hr k (by omega) (by omega) (by omega)
    exact ⟨e1, e2, by rw [← e3, e2]⟩
  cases d <;> cases s <;> simp only [FV3.comp, (g x).ndim, (g y).ndim, (g' x).ndim, (g' y).ndim,
    (g x).e, (g y).e, (g' x).e, (g' y).e] <;> refine ⟨by omega, fun k hk h2 => ?_⟩ <;>
    obtain ⟨k1, k2, k3⟩ := key k h2 (by omega) <;> omega

theorem SyncField.cgrid (S : SyncField l m x y ky kx n) (hr : r ∈ allRanks l) (g : MetaIs m r mem) :
    onCGrid (mem x).dims (mem y).dims = true := by
  have mem_of : ∀ (q : Quantity α) (k : Nat) (d : Dim), k < q.dims.length → q.d k = d → d ∈ q.dims := by
    intro q k d hk e
    unfold Quantity.d at e
    rw [getD_lt _ hk] at e
    rw [← e]; exact List.getElem_mem hk
  have ax := S.axesX r hr
  have ay := S.axesY r hr
  have dx := S.dimsX r hr
  have dy := S.dimsY r hr
  rw [(g x).dims, (g y).dims]
  unfold onCGrid
  simp [mem_of _ _ _ ax.ylt dx.1, mem_of _ _ _ ax.xlt dx.2, mem_of _ _ _ ay.ylt dy.1,
    mem_of _ _ _ ay.xlt dy.2]

variable [Neg α]

/-- Arrays packed: the south and west edges. -/
theorem sync_out (hx : 0 < l.x) (hsq : l.y = l.x) (S : SyncField l m x y ky kx n)
    (hr : r ∈ allRanks l) (g : MetaIs m r mem) :
    ∃ C : Bool → Boundary, (∀ s, Cube.boundary l (sendT s) r = .ok (some (C s))) ∧
      syncOut l x y r mem = .ok
        [⟨(C true).toRank, 0, edgeArr (loEdge (mem x) ky kx true) (C true).rotations⟩,
         ⟨(C false).toRank, 0, edgeArr (loEdge (mem y) ky kx false) (C false).rotations⟩] := by
  obtain ⟨Cs, hs⟩ := edge_exists hx hsq hr (sendT true) (by decide)
  obtain ⟨Cw, hw⟩ := edge_exists hx hsq hr (sendT false) (by decide)
  refine ⟨fun s => if s then Cs else Cw, fun s => by cases s <;> simpa, ?_⟩
  have h1 := (edge_back hx hsq hr true hs).1
  have h2 := (edge_back hx hsq hr false hw).1
  have e1 := boundaryAt_ok hx hsq hr hs
  have e2 := boundaryAt_ok hx hsq hr hw
  have e3 := (S.compOK hr g true).south (C := Cs) (by simpa using h1)
  have e4 := (S.compOK hr g false).west (C := Cw) (by simpa using h2)
  simp only [sendT] at e1 e2
  simp only [FV3.comp] at e3 e4
  unfold syncOut
  rw [e1, e2]
  simp only [Bind.bind, Except.bind, e3, e4]
  rfl

omit [Neg α] in
/-- Arrays expected: for the north and east edges. -/
theorem sync_in (hx : 0 < l.x) (hsq : l.y = l.x) (S : SyncField l m x y ky kx n)
    (hr : r ∈ allRanks l) (g : MetaIs m r mem) :
    ∃ (B : Bool → Boundary) (ix : Bool → List Ix),
      (∀ d, Cube.boundary l (recvT d) r = .ok (some (B d))) ∧
      (∀ d, resolveAll (ix d) (mem (comp x y d)).data.shape =
        .ok (edgeRs (mem (comp x y d)) (pax ky kx d) (hiPos (mem (comp x y d)) ky kx d))) ∧
      syncIn l x y r mem = .ok
        [⟨(B true).toRank, 0, x, ix true⟩, ⟨(B false).toRank, 0, y, ix false⟩] := by
  obtain ⟨Bn, hn⟩ := edge_exists hx hsq hr (recvT true) (by decide)
  obtain ⟨Be, he⟩ := edge_exists hx hsq hr (recvT false) (by decide)
  obtain ⟨i1, p1, p2⟩ := (S.compOK hr g true).hi
  obtain ⟨i2, q1, q2⟩ := (S.compOK hr g false).hi
  refine ⟨fun d => if d then Bn else Be, fun d => if d then i1 else i2,
    fun s => by cases s <;> simpa, fun s => by cases s <;> simpa, ?_⟩
  have e1 := boundaryAt_ok hx hsq hr hn
  have e2 := boundaryAt_ok hx hsq hr he
  simp only [recvT] at e1 e2
  simp only [FV3.comp, hiC, dimI, dimC] at p1 q1
  unfold syncIn
  rw [e1, e2]
  simp only [Bind.bind, Except.bind, p1, q1]
  rfl

end

variable [Neg α]

/-- What is received over the north or east boundary. -/
theorem sync_link (hx : 0 < l.x) (hsq : l.y = l.x) (S : SyncField l m x y ky kx n) {r : Int}
    (hr : r ∈ allRanks l) (d : Bool) {B : Boundary} (hB : Cube.boundary l (recvT d) r = .ok (some B)) :
    ∃ s C, EdgeLink l r n d s B C ∧ B.toRank ∈ allRanks l ∧
      ∀ mem' o, MetaIs m B.toRank mem' → syncOut l x y B.toRank mem' = .ok o →
        (∃ z ∈ o, z.dst = r ∧ z.off = 0) ∧ ∀ z ∈ o, z.dst = r →
          z.off = 0 ∧ z.a = edgeArr (loEdge (mem' (comp x y s)) ky kx s) C.rotations := by
  obtain ⟨s, B', C, L⟩ := edge_link hx hsq hr n d
  have e := L.recv
  rw [hB] at e
  simp only [Except.ok.injEq, Option.some.injEq] at e
  subst e
  have hr' := boundary_toRank hx hsq hB
  refine ⟨s, C, L, hr', fun mem' o g' ho => ?_⟩
  obtain ⟨D, hD, ho'⟩ := sync_out hx hsq S hr' g'
  rw [ho'] at ho
  simp only [Except.ok.injEq] at ho
  subst ho
  have hDC : D s = C := by
    have := hD s
    rw [L.send] at this
    simpa using this.symm
  have hne : (D (!s)).toRank ≠ r := by
    rw [← L.back]
    exact edge_distinct hx hsq hr' (by cases s <;> decide) (hD (!s)) L.send
  cases s with
  | true =>
    refine ⟨⟨_, List.mem_cons_self, by rw [hDC]; exact L.back, rfl⟩, ?_⟩
    intro z hz hzr
    simp only [List.mem_cons, List.not_mem_nil, or_false] at hz
    rcases hz with rfl | rfl
    · exact ⟨rfl, by rw [hDC]; rfl⟩
    · exact absurd hzr hne
  | false =>
    refine ⟨⟨_, List.mem_cons_of_mem _ List.mem_cons_self, by rw [hDC]; exact L.back, rfl⟩, ?_⟩
    intro z hz hzr
    simp only [List.mem_cons, List.not_mem_nil, or_false] at hz
    rcases hz with rfl | rfl
    · exact absurd hzr hne
    · exact ⟨rfl, by rw [hDC]; rfl⟩

omit [Neg α] in
/-- All edges have the same shape. -/
theorem sync_shape (S : SyncField l m x y ky kx n) {r r' : Int} (hr : r ∈ allRanks l)
    (hr' : r' ∈ allRanks l) {mem mem' : Mem α} (g : MetaIs m r mem) (g' : MetaIs m r' mem') (d s : Bool)
    (c c' : Nat) :
    viewShape (edgeRs (mem (comp x y d)) (pax ky kx d) c) =
      viewShape (edgeRs (mem' (comp x y s)) (pax ky kx s) c') := by
  obtain ⟨e1, e2⟩ := S.same hr hr' g g' d s
  have := (S.compOK hr g d).nd
  rw [(S.compOK hr g d).shape, (S.compOK hr' g' s).shape, e1]
  congr 1
  apply tab_congr
  intro k hk
  rw [e2 (k + 2) (by omega) (by omega)]

omit [Neg α] in
theorem SameMeta.edgeRs {q q' : Quantity α} (h : SameMeta q q') (p c : Nat) :
    FV3.edgeRs q' p c = FV3.edgeRs q p c := by
  unfold FV3.edgeRs
  rw [h.ndim]
  apply tab_congr
  intro k _
  rw [h.o, h.e]

omit [Neg α] in
theorem SameMeta.hiPos {q q' : Quantity α} (h : SameMeta q q') (ky kx : Nat) (d : Bool) :
    FV3.hiPos q' ky kx d = FV3.hiPos q ky kx d := by
  unfold FV3.hiPos
  rw [h.o, h.e]

/-- Shared edges can be exchanged. -/
theorem sync_sound (hx : 0 < l.x) (hsq : l.y = l.x) (S : SyncField l m x y ky kx n) :
    StartSound l (MetaIs m) (.sync x y : Op α) := by
  have eo : ∀ r ∈ allRanks l, ∀ mem, MetaIs m r mem →
      (Op.sync x y : Op α).out l r mem = syncOut l x y r mem := fun r hr mem g => by
    simp only [Op.out]; rw [if_neg (by rw [S.cgrid hr g]; decide)]
  have ei : ∀ r mem, (Op.sync x y : Op α).inn l r mem = syncIn l x y r mem := fun r mem => rfl
  constructor
  · rfl
  · intro r hr mem g
    obtain ⟨C, -, h1⟩ := sync_out hx hsq S hr g
    obtain ⟨B, ix, -, -, h2⟩ := sync_in hx hsq S hr g
    exact ⟨_, _, by rw [eo r hr mem g, h1], by rw [ei, h2]⟩
  · intro r hr mem o g ho
    obtain ⟨C, hC, h1⟩ := sync_out hx hsq S hr g
    rw [eo r hr mem g, h1] at ho
    simp only [Except.ok.injEq] at ho
    subst ho
    have := edge_distinct hx hsq hr (by decide) (hC true) (hC false)
    constructor
    · simp [this]
    · intro z hz
      simp only [List.mem_cons, List.not_mem_nil, or_false] at hz
      rcases hz with rfl | rfl <;> simp [Op.nTags]
  · intro r hr mem i g hi
    obtain ⟨B, ix, hB, -, h2⟩ := sync_in hx hsq S hr g
    rw [ei, h2] at hi
    simp only [Except.ok.injEq] at hi
    subst hi
    have := edge_distinct hx hsq hr (by decide) (hB true) (hB false)
    constructor
    · simp [this]
    · intro z hz
      simp only [List.mem_cons, List.not_mem_nil, or_false] at hz
      rcases hz with rfl | rfl <;> simp [Op.nTags]
  · intro r hr mem i g hi z hz
    obtain ⟨B, ix, hB, hix, h2⟩ := sync_in hx hsq S hr g
    rw [ei, h2] at hi
    simp only [Except.ok.injEq] at hi
    subst hi
    have key : ∀ d, z = ⟨(B d).toRank, 0, comp x y d, ix d⟩ → z.src ∈ allRanks l ∧
        ∀ mem' o, MetaIs m z.src mem' → (Op.sync x y : Op α).out l z.src mem' = .ok o →
          ∃ y' ∈ o, y'.dst = r ∧ y'.off = z.off ∧
            ∀ mem'', MetaIs m r mem'' → ∃ m1, storeInto mem'' z.q z.ix y'.a = .ok m1 ∧ MetaIs m r m1 := by
      rintro d rfl
      obtain ⟨s, C, L, hr', hL⟩ := sync_link hx hsq S hr d (hB d)
      refine ⟨hr', fun mem' o g' ho => ?_⟩
      rw [eo _ hr' _ g'] at ho
      obtain ⟨⟨y', hy, y1, y2⟩, hall⟩ := hL mem' o g' ho
      refine ⟨y', hy, y1, y2, fun mem'' g'' => ?_⟩
      have gm : SameMeta (mem (comp x y d)) (mem'' (comp x y d)) := (g _).symm.trans (g'' _)
      have hres := hix d
      rw [← gm.shape] at hres
      have := storeInto_eq (mem := mem'') (q := comp x y d) (a := y'.a) hres (by
        rw [(hall y' hy y1).2, edgeArr_shape]
        exact sync_shape S hr hr' g g' d s _ _)
      exact ⟨_, this, g''.store this⟩
    simp only [List.mem_cons, List.not_mem_nil, or_false] at hz
    rcases hz with hz | hz
    · exact key true hz
    · exact key false hz
  · intro r hr mem o g ho z hz
    obtain ⟨C, hC, h1⟩ := sync_out hx hsq S hr g
    rw [eo r hr mem g, h1] at ho
    simp only [Except.ok.injEq] at ho
    subst ho
    have key : ∀ s, z.dst = (C s).toRank → z.off = 0 → z.dst ∈ allRanks l ∧
        ∀ mem' i, MetaIs m z.dst mem' → (Op.sync x y : Op α).inn l z.dst mem' = .ok i →
          ∃ w ∈ i, w.src = r ∧ w.off = z.off := by
      intro s hd h0
      have hr' := boundary_toRank hx hsq (hC s)
      rw [hd]
      refine ⟨hr', fun mem' i g' hi => ?_⟩
      obtain ⟨-, d, D, hD, hDr⟩ := edge_back hx hsq hr s (hC s)
      obtain ⟨B, ix, hB, -, h2⟩ := sync_in hx hsq S hr' g'
      rw [ei, h2] at hi
      simp only [Except.ok.injEq] at hi
      subst hi
      have : B d = D := by
        have := hB d
        rw [hD] at this
        simpa using this.symm
      cases d with
      | true => exact ⟨_, List.mem_cons_self, by rw [this]; exact hDr, h0.symm⟩
      | false => exact ⟨_, List.mem_cons_of_mem _ List.mem_cons_self, by rw [this]; exact hDr, h0.symm⟩
    simp only [List.mem_cons, List.not_mem_nil, or_false] at hz
    rcases hz with rfl | rfl
    · exact key true rfl rfl
    · exact key false rfl rfl

/-! ### The result -/

/-- Points of the north edge (of x) or of the east edge (of y). -/
def OnHiEdge (q : Quantity α) (p : Nat) (idx : List Nat) : Prop :=
  q.InCompute idx ∧ q.rel idx p = q.e p - 1

/-- An element of the low edge, by its position along the edge and on the other axes. -/
theorem lo_src {q : Quantity α} {d : Bool} (H : CompOK q d ky kx n) (w : Nat) (hw : (w : Int) < n)
    (rest : List Nat) (hrest : ∀ k, 2 ≤ k → k < q.ndim → ((rest.getD (k - 2) 0 : Nat) : Int) < q.e k) :
    ∃ src, (loEdge q ky kx d).get (w :: rest) = q.data.get src ∧ q.InCompute src ∧
      q.rel src (pax ky kx d) = 0 ∧ q.rel src (pax kx ky d) = w ∧
      ∀ k, 2 ≤ k → k < q.ndim → q.rel src k = (rest.getD (k - 2) 0 : Nat) := by
  obtain ⟨h1, h2, h3, h4⟩ := edge_viewIdx q H.lead' H.nd (loPos q ky kx d) w rest
  have hin := H.inside
  have hl := H.lead'
  have i1 := H.wf.inside _ H.axes.plt
  have i2 := H.wf.inside _ H.axes.plt'
  have e1 := H.ext
  have e2 := H.ext'
  refine ⟨_, rfl, ⟨h1, fun k hk => ?_⟩, ?_, ?_, fun k k2 hk => ?_⟩
  · have : k = pax ky kx d ∨ k = pax kx ky d ∨ 2 ≤ k := by omega
    unfold Quantity.InDom at'
    rcases this with rfl | rfl | h
    · rw [h2]; unfold loPos; omega
    · rw [h3]; omega
    · rw [h4 k h hk]
      have := hrest k h hk
      have := H.wf.inside k hk
      omega
  · unfold Quantity.rel at'; rw [h2]; unfold loPos; omega
  · unfold Quantity.rel at'; rw [h3]; omega
  · unfold Quantity.rel at'; rw [h4 k k2 hk]
    have := H.wf.inside k hk
    omega

/-- What waiting for an update stores, element by element: the update was started with quantities `m`, and the
quantities are `p` when its messages are stored. -/
theorem sync_wait_value (hx : 0 < l.x) (hsq : l.y = l.x) (S : SyncField l m x y ky kx n)
    {p p' : Int → Mem α} {r : Int}
    (hp : ∀ q', SameMeta (m r q') (p r q')) (hu : WaitStep l (.sync x y) m p p') (hr : r ∈ allRanks l) :
    (∀ q', SameMeta (p r q') (p' r q')) ∧
    (∀ q', q' ≠ x → q' ≠ y → ∀ idx, (p' r q').data.get idx = (p r q').data.get idx) ∧
    ∀ d idx, idx.length = (m r (comp x y d)).ndim →
      (¬ OnHiEdge (m r (comp x y d)) (pax ky kx d) idx →
        (p' r (comp x y d)).data.get idx = (p r (comp x y d)).data.get idx) ∧
      (OnHiEdge (m r (comp x y d)) (pax ky kx d) idx →
        ∃ s B C, EdgeLink l r n d s B C ∧ B.toRank ∈ allRanks l ∧
          ∃ src, (m B.toRank (comp x y s)).InCompute src ∧
            (m B.toRank (comp x y s)).rel src (pax ky kx s) = 0 ∧
            (m B.toRank (comp x y s)).rel src (pax kx ky s) =
              (if s = d then (m r (comp x y d)).rel idx (pax kx ky d)
                else n - 1 - (m r (comp x y d)).rel idx (pax kx ky d)) ∧
            (∀ k, 2 ≤ k → k < (m r (comp x y d)).ndim →
              (m B.toRank (comp x y s)).rel src k = (m r (comp x y d)).rel idx k) ∧
            (p' r (comp x y d)).data.get idx =
              if s = d then (m B.toRank (comp x y s)).data.get src
                else -(m B.toRank (comp x y s)).data.get src) := by
  have g0 : ∀ r, MetaIs m r (m r) := fun r q => SameMeta.refl _
  obtain ⟨i, hi, hd⟩ := hu r hr
  obtain ⟨B, ix, hB, hix, hin⟩ := sync_in hx hsq S hr (g0 r)
  rw [show (Op.sync x y : Op α).inn l r (m r) = syncIn l x y r (m r) from rfl, hin] at hi
  simp only [Except.ok.injEq] at hi
  subst hi
  obtain ⟨hmeta, hget⟩ := deliver_get hd
  rw [cover_same hp] at hget
  have hxy : x ≠ y := by
    intro e
    subst e
    have h1 := (S.dimsX r hr).1
    have h2 := (S.dimsY r hr).1
    rw [h1] at h2
    exact absurd h2 (by decide)
  refine ⟨hmeta, fun q' h1 h2 idx => ?_, fun d idx hl => ?_⟩
  · rcases hget q' idx with ⟨-, h⟩ | ⟨z, hz, hq, -⟩
    · exact h
    · simp only [List.mem_cons, List.not_mem_nil, or_false] at hz
      rcases hz with rfl | rfl
      · exact absurd hq.symm h1
      · exact absurd hq.symm h2
  · have H := S.compOK hr (g0 r) d
    have hi := H.inside
    have he := H.ext
    have hcov : ∀ z, z = (⟨(B d).toRank, 0, comp x y d, ix d⟩ : Incoming) →
        cover (m r) z idx = unview (edgeRs (m r (comp x y d)) (pax ky kx d)
          (hiPos (m r (comp x y d)) ky kx d)) idx := by
      rintro z rfl
      unfold cover
      rw [hix d]
    have hmem : ⟨(B d).toRank, 0, comp x y d, ix d⟩ ∈
        [(⟨(B true).toRank, 0, x, ix true⟩ : Incoming), ⟨(B false).toRank, 0, y, ix false⟩] := by
      cases d
      · exact List.mem_cons_of_mem _ List.mem_cons_self
      · exact List.mem_cons_self
    have huniq : ∀ z ∈ [(⟨(B true).toRank, 0, x, ix true⟩ : Incoming), ⟨(B false).toRank, 0, y, ix false⟩],
        z.q = comp x y d → z = ⟨(B d).toRank, 0, comp x y d, ix d⟩ := by
      intro z hz hq
      simp only [List.mem_cons, List.not_mem_nil, or_false] at hz
      cases d <;> rcases hz with rfl | rfl
      · exact absurd hq hxy
      · rfl
      · rfl
      · exact absurd hq.symm hxy
    obtain ⟨un1, un2⟩ := edge_unview (m r (comp x y d)) H.wf H.lead' H.nd
      (hiPos (m r (comp x y d)) ky kx d) idx hl (by unfold hiPos; omega) (by unfold hiPos; omega)
    have hiff : OnHiEdge (m r (comp x y d)) (pax ky kx d) idx ↔
        (m r (comp x y d)).InCompute idx ∧ idx.getD (pax ky kx d) 0 = hiPos (m r (comp x y d)) ky kx d := by
      unfold OnHiEdge
      constructor
      · rintro ⟨h1, h2⟩
        have := h1.2 _ H.axes.plt
        unfold Quantity.InDom Quantity.rel at' hiPos at *
        exact ⟨h1, by omega⟩
      · rintro ⟨h1, h2⟩
        have := h1.2 _ H.axes.plt
        unfold Quantity.InDom Quantity.rel at' hiPos at *
        exact ⟨h1, by omega⟩
    constructor
    · intro hno
      rcases hget (comp x y d) idx with ⟨-, h⟩ | ⟨z, hz, hq, rel, a, hc, -⟩
      · exact h
      · rw [hcov z (huniq z hz hq), un2 (by rwa [← hiff])] at hc
        simp at hc
    · intro hyes
      have hun := un1 (hiff.1 hyes)
      rcases hget (comp x y d) idx with ⟨hno, -⟩ | ⟨z, hz, hq, rel, a, hc, ha, hv⟩
      · have := hno _ hmem rfl
        rw [hcov _ rfl, hun] at this
        simp at this
      · have hzd := huniq z hz hq
        rw [hcov z hzd, hun] at hc
        simp only [Option.some.injEq] at hc
        subst hzd
        obtain ⟨s, C, L, hr', hL⟩ := sync_link hx hsq S hr d (hB d)
        refine ⟨s, B d, C, L, hr', ?_⟩
        simp only at ha
        unfold packedFor at ha
        rw [if_pos hr'] at ha
        obtain ⟨o, -, ho, -⟩ := (sync_sound hx hsq S).start _ hr' _ (g0 _)
        rw [ho] at ha
        simp only at ha
        obtain ⟨w, hw, w1, -, rfl⟩ := arrayFor_some ha
        simp only [Op.out] at ho
        rw [if_neg (by rw [S.cgrid hr' (g0 _)]; decide)] at ho
        have hwa := ((hL _ o (g0 _) ho).2 w hw w1).2
        have H' := S.compOK hr' (g0 _) s
        obtain ⟨sm1, sm2⟩ := S.same hr hr' (g0 r) (g0 (B d).toRank) d s
        have hinc := hyes.1
        have relb : ∀ k, k < (m r (comp x y d)).ndim → 0 ≤ (m r (comp x y d)).rel idx k ∧
            (m r (comp x y d)).rel idx k < (m r (comp x y d)).e k := by
          intro k hk
          have := hinc.2 k hk
          unfold Quantity.InDom at this
          unfold Quantity.rel
          omega
        have b' := relb _ H.axes.plt'
        rw [H.ext'] at b'
        have hrest : ∀ k, 2 ≤ k → k < (m (B d).toRank (comp x y s)).ndim →
            (((tab ((m r (comp x y d)).ndim - 2) fun k =>
              ((m r (comp x y d)).rel idx (k + 2)).toNat).getD (k - 2) 0 : Nat) : Int) =
              (m r (comp x y d)).rel idx k := by
          intro k h2 hk
          rw [getD_tab _ _ (by omega)]
          have := (relb k (by omega)).1
          rw [show k - 2 + 2 = k by omega]
          omega
        have hrest' : ∀ k, 2 ≤ k → k < (m (B d).toRank (comp x y s)).ndim →
            (((tab ((m r (comp x y d)).ndim - 2) fun k =>
              ((m r (comp x y d)).rel idx (k + 2)).toNat).getD (k - 2) 0 : Nat) : Int) <
              (m (B d).toRank (comp x y s)).e k := by
          intro k h2 hk
          rw [hrest k h2 hk, sm2 k (by omega) h2]
          exact (relb k (by omega)).2
        have hrot := L.rot
        by_cases hsd : s = d
        · rw [if_pos hsd] at hrot
          obtain ⟨src, s1, s2, s3, s4, s5⟩ := lo_src H' ((m r (comp x y d)).rel idx (pax kx ky d)).toNat
            (by omega) _ hrest'
          refine ⟨src, s2, s3, by rw [if_pos hsd, s4]; omega,
            fun k h2 hk => by rw [s5 k h2 (by omega), hrest k h2 (by omega)], ?_⟩
          rw [hv, hwa, if_pos hsd, hrot, ← s1, ← hc]
          simp [edgeArr]
        · rw [if_neg hsd] at hrot
          obtain ⟨src, s1, s2, s3, s4, s5⟩ := lo_src H' (n - 1 - (m r (comp x y d)).rel idx (pax kx ky d)).toNat
            (by omega) _ hrest'
          refine ⟨src, s2, s3, by rw [if_neg hsd, s4]; omega,
            fun k h2 hk => by rw [s5 k h2 (by omega), hrest k h2 (by omega)], ?_⟩
          have hsh : (loEdge (m (B d).toRank (comp x y s)) ky kx s).shape.getD 0 0 = n.toNat := by
            unfold loEdge NDArray.view
            simp only [H'.shape]
            rfl
          rw [hv, hwa, if_neg hsd, ← s1, ← hc, edgeArr,
            if_neg (by rw [hrot]; cases s <;> decide)]
          simp only [NDArray.map, NDArray.flip, hsh, List.set_cons_zero, List.getD_cons_zero]
          congr 3
          omega

theorem sync_step_value (hx : 0 < l.x) (hsq : l.y = l.x) (S : SyncField l m x y ky kx n)
    (hu : UpdateStep l (.sync x y) m m') {r : Int} (hr : r ∈ allRanks l) :
    (∀ q', SameMeta (m r q') (m' r q')) ∧
    (∀ q', q' ≠ x → q' ≠ y → ∀ idx, (m' r q').data.get idx = (m r q').data.get idx) ∧
    ∀ d idx, idx.length = (m r (comp x y d)).ndim →
      (¬ OnHiEdge (m r (comp x y d)) (pax ky kx d) idx →
        (m' r (comp x y d)).data.get idx = (m r (comp x y d)).data.get idx) ∧
      (OnHiEdge (m r (comp x y d)) (pax ky kx d) idx →
        ∃ s B C, EdgeLink l r n d s B C ∧ B.toRank ∈ allRanks l ∧
          ∃ src, (m B.toRank (comp x y s)).InCompute src ∧
            (m B.toRank (comp x y s)).rel src (pax ky kx s) = 0 ∧
            (m B.toRank (comp x y s)).rel src (pax kx ky s) =
              (if s = d then (m r (comp x y d)).rel idx (pax kx ky d)
                else n - 1 - (m r (comp x y d)).rel idx (pax kx ky d)) ∧
            (∀ k, 2 ≤ k → k < (m r (comp x y d)).ndim →
              (m B.toRank (comp x y s)).rel src k = (m r (comp x y d)).rel idx k) ∧
            (m' r (comp x y d)).data.get idx =
              if s = d then (m B.toRank (comp x y s)).data.get src
                else -(m B.toRank (comp x y s)).data.get src) :=
  sync_wait_value hx hsq S (fun _ => SameMeta.refl _) (fun r hr => (hu r hr).2) hr

end FV3
