import Verif.Proofs.SyncValue
import Verif.Proofs.Bulk
import Verif.Props.VectorHalo

/-!
# C20: synchronising the interfaces of a vector field
-/

namespace FV3
variable {α : Type}

section
variable {l : Layout} {m m' : Int → Mem α} {x y : Nat} {ky kx : Nat} {n : Int}

theorem otherPos_of (q q' : Quantity α) (hlead : ky + kx = 1) (hn : q'.ndim = q.ndim)
    {idx idx' : List Nat} (h : ∀ k, 2 ≤ k → k < q.ndim → q'.rel idx' k = q.rel idx k) :
    q'.otherPos ky kx idx' = q.otherPos ky kx idx := by
  funext k
  unfold Quantity.otherPos
  rw [hn]
  by_cases hk : k < q.ndim ∧ k ≠ ky ∧ k ≠ kx
  · rw [if_pos hk, if_pos hk]
    exact h k (by omega) hk.1
  · rw [if_neg hk, if_neg hk]

/-- Position of an edge point of a component. -/
theorem edge_point (S : SyncField l m x y ky kx n) {r : Int} (hr : r ∈ allRanks l) (d : Bool)
    (idx : List Nat) (hi : Int) (hrel : (m r (comp x y d)).rel idx (pax ky kx d) = hi * n) (t j i : Int) :
    pos (l.x * n) t ((m r (comp x y d)).tilePos n i idx kx) ((m r (comp x y d)).tilePos n j idx ky) =
      edgePos l.x n t j i hi (2 * (m r (comp x y d)).rel idx (pax kx ky d) + 1) d := by
  cases d with
  | true =>
    obtain ⟨h1, h2⟩ := S.dimsX r hr
    simp only [comp, pax] at *
    simp only [edgePos]
    unfold Quantity.tilePos
    rw [h1, h2, hrel]
    congr 1
    · simp [overlapOf]; ring
    · simp [overlapOf]; ring
  | false =>
    obtain ⟨h1, h2⟩ := S.dimsY r hr
    simp only [comp, pax] at *
    simp only [edgePos]
    unfold Quantity.tilePos
    rw [h1, h2, hrel]
    congr 1
    · simp [overlapOf]; ring
    · simp [overlapOf]; ring

variable [Neg α]

/-- Waiting for a synchronisation: nothing else changes. -/
theorem sync_wait_only (hx : 0 < l.x) (hsq : l.y = l.x) (S : SyncField l m x y ky kx n)
    {p p' : Int → Mem α} (hp : ∀ r ∈ allRanks l, ∀ q', SameMeta (m r q') (p r q'))
    (hu : WaitStep l (.sync x y) m p p') : OnlyEdgesChanged l x y ky kx p p' := by
  intro r hr
  obtain ⟨h1, h2, h3⟩ := sync_wait_value hx hsq S (hp r hr) hu hr
  refine ⟨h1, fun q' e1 e2 => quantity_ext (h1 q') (h2 q' e1 e2), ?_, ?_⟩
  · intro idx hl hno
    refine (h3 true idx (by rw [← (hp r hr _).ndim]; exact hl)).1 fun e => hno ?_
    unfold OnHiEdge at e
    rw [← (hp r hr _).inCompute, ← (hp r hr _).rel, ← (hp r hr _).e] at e
    exact e
  · intro idx hl hno
    refine (h3 false idx (by rw [← (hp r hr _).ndim]; exact hl)).1 fun e => hno ?_
    unfold OnHiEdge at e
    rw [← (hp r hr _).inCompute, ← (hp r hr _).rel, ← (hp r hr _).e] at e
    exact e

theorem sync_step_only (hx : 0 < l.x) (hsq : l.y = l.x) (S : SyncField l m x y ky kx n)
    (hu : UpdateStep l (.sync x y) m m') : OnlyEdgesChanged l x y ky kx m m' :=
  sync_wait_only hx hsq S (fun _ _ _ => SameMeta.refl _) fun r hr => (hu r hr).2

/-- The edge received when waiting, for both components. -/
theorem sync_wait_edge (hx : 0 < l.x) (hsq : l.y = l.x) (S : SyncField l m x y ky kx n)
    {p p' : Int → Mem α} (hp : ∀ r ∈ allRanks l, ∀ q', SameMeta (m r q') (p r q'))
    (hu : WaitStep l (.sync x y) m p p') (d : Bool) {r : Int} {idx : List Nat} {t a b : Int}
    (hat : AtTile l m (comp x y d) ky kx n r idx t a b)
    (he : OnHiEdge (m r (comp x y d)) (pax ky kx d) idx) :
    IsEdgeComponentAt l m x y ky kx n (pos (l.x * n) t a b)
      ((m r (comp x y d)).otherPos ky kx idx) (dirOf t d) ((p' r (comp x y d)).data.get idx) := by
  have hr := hat.rank
  have g0 : ∀ r, MetaIs m r (m r) := fun r q => SameMeta.refl _
  obtain ⟨hm, -, hv⟩ := sync_wait_value hx hsq S (hp r hr) hu hr
  obtain ⟨s, B, C, L, hr', src, s1, s2, s3, s4, s5⟩ := (hv d idx he.1.1).2 he
  have H := S.compOK hr (g0 r) d
  obtain ⟨t', j', i', ht', hji', geo1, geo2⟩ := L.geo t _ _ hat.tile (Prod.mk.eta).symm
  have hrel : (m r (comp x y d)).rel idx (pax ky kx d) = 1 * n := by
    rw [he.2, H.ext]; omega
  have hP : pos (l.x * n) t a b = edgePos l.x n t (subtileIndex l r).1 (subtileIndex l r).2 1
      (2 * (m r (comp x y d)).rel idx (pax kx ky d) + 1) d := by
    rw [hat.x, hat.y]
    exact edge_point S hr d idx 1 hrel _ _ _
  have hP' : pos (l.x * n) t' ((m B.toRank (comp x y s)).tilePos n i' src kx)
      ((m B.toRank (comp x y s)).tilePos n j' src ky) =
      edgePos l.x n t' j' i' 0 (2 * (m B.toRank (comp x y s)).rel src (pax kx ky s) + 1) s :=
    edge_point S hr' s src 0 (by rw [s2]; ring) _ _ _
  have hown : Owns l m (comp x y s) ky kx n B.toRank src (pos (l.x * n) t a b)
      ((m r (comp x y d)).otherPos ky kx idx) := by
    refine ⟨s1, ?_, t', _, _, ⟨hr', ht', rfl, rfl⟩, ?_⟩
    · exact otherPos_of _ _ S.lead (S.same hr hr' (g0 _) (g0 _) d s).1 s4
    · rw [hji', hP', hP]
      by_cases hsd : s = d
      · rw [s3, if_pos hsd]
        exact ((geo1 hsd).1 _).symm
      · rw [s3, if_neg hsd, (geo2 hsd).1]
        congr 1
        ring
  have halong : AlongDir (dirOf t d) ((p' r (comp x y d)).data.get idx) (dirOf t' s)
      ((m B.toRank (comp x y s)).data.get src) := by
    rw [s5]
    by_cases hsd : s = d
    · rw [if_pos hsd]; exact Or.inl ⟨(geo1 hsd).2, rfl⟩
    · rw [if_neg hsd]; exact Or.inr ⟨(geo2 hsd).2, rfl⟩
  refine ⟨B.toRank, src, t', ht', ?_⟩
  cases s with
  | true => exact Or.inl ⟨hown, s2, halong⟩
  | false => exact Or.inr ⟨hown, s2, halong⟩

/-- Waiting for a synchronisation: the edges hold what the neighbours had at the start. -/
theorem sync_wait_filled (hx : 0 < l.x) (hsq : l.y = l.x) (S : SyncField l m x y ky kx n)
    {p p' : Int → Mem α} (hp : ∀ r ∈ allRanks l, ∀ q', SameMeta (m r q') (p r q'))
    (hu : WaitStep l (.sync x y) m p p') : EdgesFilled l m p' x y ky kx n :=
  ⟨fun _ _ _ _ _ hat he => sync_wait_edge hx hsq S hp hu true hat he,
   fun _ _ _ _ _ hat he => sync_wait_edge hx hsq S hp hu false hat he⟩

/-- The received edge, for both components. -/
theorem sync_edge (hx : 0 < l.x) (hsq : l.y = l.x) (S : SyncField l m x y ky kx n)
    (hu : UpdateStep l (.sync x y) m m') (d : Bool) {r : Int} {idx : List Nat} {t a b : Int}
    (hat : AtTile l m' (comp x y d) ky kx n r idx t a b)
    (he : OnHiEdge (m' r (comp x y d)) (pax ky kx d) idx) :
    IsEdgeComponentAt l m' x y ky kx n (pos (l.x * n) t a b)
      ((m' r (comp x y d)).otherPos ky kx idx) (dirOf t d) ((m' r (comp x y d)).data.get idx) := by
  have hr := hat.rank
  have g0 : ∀ r, MetaIs m r (m r) := fun r q => SameMeta.refl _
  obtain ⟨hm, -, hv⟩ := sync_step_value hx hsq S hu hr
  have he' : OnHiEdge (m r (comp x y d)) (pax ky kx d) idx := by
    unfold OnHiEdge at he ⊢
    rw [(hm _).inCompute, (hm _).rel, (hm _).e] at he
    exact he
  obtain ⟨s, B, C, L, hr', src, s1, s2, s3, s4, s5⟩ := (hv d idx he'.1.1).2 he'
  obtain ⟨hm', -, hv'⟩ := sync_step_value hx hsq S hu hr'
  have H := S.compOK hr (g0 r) d
  have H' := S.compOK hr' (g0 _) s
  have hcells := H.cells
  obtain ⟨t', j', i', ht', hji', geo1, geo2⟩ := L.geo t _ _ hat.tile (Prod.mk.eta).symm
  have hsame := (hv' s src s1.1).1 (by
    rintro ⟨-, e⟩
    rw [s2, H'.ext] at e
    omega)
  have hrel : (m r (comp x y d)).rel idx (pax ky kx d) = 1 * n := by
    rw [he'.2, H.ext]; omega
  have hP : pos (l.x * n) t a b = edgePos l.x n t (subtileIndex l r).1 (subtileIndex l r).2 1
      (2 * (m r (comp x y d)).rel idx (pax kx ky d) + 1) d := by
    rw [hat.x, hat.y, (hm _).tilePos, (hm _).tilePos]
    exact edge_point S hr d idx 1 hrel _ _ _
  have hP' : pos (l.x * n) t' ((m' B.toRank (comp x y s)).tilePos n i' src kx)
      ((m' B.toRank (comp x y s)).tilePos n j' src ky) =
      edgePos l.x n t' j' i' 0 (2 * (m B.toRank (comp x y s)).rel src (pax kx ky s) + 1) s := by
    rw [(hm' _).tilePos, (hm' _).tilePos]
    exact edge_point S hr' s src 0 (by rw [s2]; ring) _ _ _
  have hown : Owns l m' (comp x y s) ky kx n B.toRank src (pos (l.x * n) t a b)
      ((m' r (comp x y d)).otherPos ky kx idx) := by
    refine ⟨(hm' _).inCompute src |>.2 s1, ?_, t', _, _, ⟨hr', ht', rfl, rfl⟩, ?_⟩
    · apply otherPos_of _ _ S.lead
      · rw [(hm' _).ndim, (hm _).ndim]; exact (S.same hr hr' (g0 _) (g0 _) d s).1
      · intro k h2 hk
        rw [(hm _).ndim] at hk
        rw [(hm' _).rel, (hm _).rel]
        exact s4 k h2 hk
    · rw [hji', hP', hP]
      by_cases hsd : s = d
      · rw [s3, if_pos hsd]
        exact ((geo1 hsd).1 _).symm
      · rw [s3, if_neg hsd, (geo2 hsd).1]
        congr 1
        ring
  have halong : AlongDir (dirOf t d) ((m' r (comp x y d)).data.get idx) (dirOf t' s)
      ((m' B.toRank (comp x y s)).data.get src) := by
    rw [hsame, s5]
    by_cases hsd : s = d
    · rw [if_pos hsd]; exact Or.inl ⟨(geo1 hsd).2, rfl⟩
    · rw [if_neg hsd]; exact Or.inr ⟨(geo2 hsd).2, rfl⟩
  refine ⟨B.toRank, src, t', ht', ?_⟩
  cases s with
  | true => exact Or.inl ⟨hown, by rw [(hm' _).rel]; exact s2, halong⟩
  | false => exact Or.inr ⟨hown, by rw [(hm' _).rel]; exact s2, halong⟩

theorem sync_step_agree (hx : 0 < l.x) (hsq : l.y = l.x) (S : SyncField l m x y ky kx n)
    (hu : UpdateStep l (.sync x y) m m') : EdgesAgree l m' x y ky kx n :=
  ⟨fun r idx _ _ _ hat he => sync_edge hx hsq S hu true hat he,
   fun r idx _ _ _ hat he => sync_edge hx hsq S hu false hat he⟩

/-- **C20**: `synchronize_vector_interfaces`, called by all ranks on a C-grid vector field whose
horizontal axes come first, returns on every rank under every schedule and every kind of sends;
afterwards the values on the north edges of `x` and east edges of `y` are the components along
the rank's own axes of the vectors which the neighbouring ranks have on their south and west edges,
at the same points of the cube, and nothing else is different. -/
theorem C20_synchronize (hx : 0 < l.x) (hsq : l.y = l.x) (S : SyncField l m x y ky kx n)
    (buf : Buffering) :
    ∃ m' : Int → Mem α,
      ((callNet l [.synchronize x y] m).Completes buf fun r =>
        (.ok (), ⟨m' r, if r ∈ allRanks l then 1 else 0, []⟩)) ∧
      EdgesAgree l m' x y ky kx n ∧ OnlyEdgesChanged l x y ky kx m m' := by
  obtain ⟨m', ⟨m1, h1, h2⟩, -, h3⟩ := calls_bulk (l := l) (Good := MetaIs m)
    (calls := [.synchronize x y]) (mem := m) buf (fun r _ q => SameMeta.refl _)
    (fun c hc op ho => by
      rw [List.mem_singleton] at hc
      subst hc
      simp only [Call.start, Option.some.injEq] at ho
      subst ho
      exact sync_sound hx hsq S)
    (fun f hf => by simp at hf)
  have e1 : UpdateStep l (.sync x y) m m' := by
    intro r hr
    rw [h2 r hr]
    exact h1 r hr
  exact ⟨m', h3, sync_step_agree hx hsq S e1, sync_step_only hx hsq S e1⟩

/-- **C20**, wrong grid: on a rank whose quantities are not on the C-grid interfaces the call
raises ValueError before anything is sent or received. -/
theorem C20_not_cgrid (l : Layout) (r : Int) (x y : Nat) (s : RankState α)
    (h : ¬ (.x ∈ (s.mem x).dims ∧ .yI ∈ (s.mem x).dims ∧ .y ∈ (s.mem y).dims ∧ .xI ∈ (s.mem y).dims)) :
    synchronize l r x y s = .ret (.error .valueError, s) := by
  have hc : onCGrid (s.mem x).dims (s.mem y).dims = false := by
    unfold onCGrid
    by_cases h1 : Dim.x ∈ (s.mem x).dims <;> by_cases h2 : Dim.yI ∈ (s.mem x).dims <;>
    by_cases h3 : Dim.y ∈ (s.mem y).dims <;> by_cases h4 : Dim.xI ∈ (s.mem y).dims <;>
    simp_all
  unfold synchronize startSynchronize
  simp only [Bind.bind, CommM.bind, CommM.quantity, Proc.bind, hc, if_true, CommM.raise]

end

/-! ### A concrete case: C-grid winds with `3 × 3` cells per rank and arbitrary values -/

def exEdgeMem (f : Int → Nat → List Nat → α) : Int → Mem α := fun r c =>
  { data := ⟨if c = 0 then [8, 7, 2] else [7, 8, 2], f r c⟩
    dims := if c = 0 then [.yI, .x, .z] else [.y, .xI, .z]
    units := "m/s", origin := [2, 2, 0], extent := if c = 0 then [4, 3, 2] else [3, 4, 2] }

theorem exEdge_axes (c : Nat) : HAxes (if c = 0 then [Dim.yI, .x, .z] else [.y, .xI, .z]) 0 1 := by
  split <;> refine ⟨?_, ?_, by decide, by decide⟩ <;>
  · intro k d h
    match k, h with
    | 0, h => simp at h; subst h; simp [IsX, IsY]
    | 1, h => simp at h; subst h; simp [IsX, IsY]
    | 2, h => simp at h; subst h; simp [IsX, IsY]
    | k + 3, h => simp at h

theorem exEdge_field (l : Layout) (f : Int → Nat → List Nat → α) :
    SyncField l (exEdgeMem f) 0 1 0 1 3 := by
  refine ⟨by decide, rfl, fun r _ => ⟨⟨rfl, rfl, rfl⟩, ?_⟩, fun r _ => ⟨⟨rfl, rfl, rfl⟩, ?_⟩,
    fun r _ => exEdge_axes 0, fun r _ => exEdge_axes 1, fun _ _ => ⟨rfl, rfl⟩, fun _ _ => ⟨rfl, rfl⟩,
    fun _ _ => ⟨rfl, rfl⟩, fun _ _ => ⟨rfl, rfl⟩, fun _ _ _ _ => rfl, ?_⟩
  · show ∀ k, k < 3 → 0 ≤ ([2, 2, 0] : List Int).getD k 0 ∧ 0 ≤ ([4, 3, 2] : List Int).getD k 0 ∧
      ([2, 2, 0] : List Int).getD k 0 + ([4, 3, 2] : List Int).getD k 0 ≤
        (([8, 7, 2] : List Nat).getD k 0 : Nat)
    decide
  · show ∀ k, k < 3 → 0 ≤ ([2, 2, 0] : List Int).getD k 0 ∧ 0 ≤ ([3, 4, 2] : List Int).getD k 0 ∧
      ([2, 2, 0] : List Int).getD k 0 + ([3, 4, 2] : List Int).getD k 0 ≤
        (([7, 8, 2] : List Nat).getD k 0 : Nat)
    decide
  · intro r _ r' _ k hk h1 h2
    have : k < 3 := hk
    have : k = 2 := by omega
    subst this
    rfl

/-- A point of the north edge of tile 0 in the concrete case (on a `2 × 2` layout). -/
example (f : Int → Nat → List Nat → α) : AtTile ⟨2, 2⟩ (exEdgeMem f) 0 0 1 3 2 [5, 3, 1] 0 3 12 ∧
    OnNorthEdge (exEdgeMem f 2 0) 0 [5, 3, 1] := by
  refine ⟨⟨by decide, by decide, rfl, rfl⟩, ⟨rfl, ?_⟩, rfl⟩
  show ∀ k, k < 3 → ([2, 2, 0] : List Int).getD k 0 ≤ (([5, 3, 1] : List Nat).getD k 0 : Nat) ∧
    (([5, 3, 1] : List Nat).getD k 0 : Nat) < ([2, 2, 0] : List Int).getD k 0 + ([4, 3, 2] : List Int).getD k 0
  decide

/-! ### The order of the axes matters -/

/-- Winds with the vertical axis first: one cell per rank, two levels, `1` on the first level and
`2` on the second. -/
def badEdgeMem : Int → Mem Int := fun _ c =>
  { data := ⟨if c = 0 then [2, 2, 1] else [2, 1, 2], fun idx => if idx.getD 0 0 = 0 then 1 else 2⟩
    dims := if c = 0 then [.z, .yI, .x] else [.z, .y, .xI]
    units := "m/s", origin := [0, 0, 0], extent := if c = 0 then [2, 2, 1] else [2, 1, 2] }

/-- The quantities after synchronising. -/
def badEdgeAfter : Int → Mem Int := fun r =>
  match (Op.sync 0 1 : Op Int).inn ⟨1, 1⟩ r (badEdgeMem r) with
  | .ok i =>
    match deliver (packedFor ⟨1, 1⟩ (.sync 0 1) badEdgeMem r) i (badEdgeMem r) with
    | .ok mem => mem
    | .error _ => badEdgeMem r
  | .error _ => badEdgeMem r

def isOk {A : Type} : Py A → Bool
  | .ok _ => true
  | .error _ => false

theorem isOk_iff {A : Type} {p : Py A} : isOk p = true ↔ ∃ a, p = .ok a := by
  cases p <;> simp [isOk]

theorem badEdge_step : UpdateStep ⟨1, 1⟩ (.sync 0 1) badEdgeMem badEdgeAfter := by
  have h1 : ∀ r ∈ allRanks ⟨1, 1⟩, isOk ((Op.sync 0 1 : Op Int).out ⟨1, 1⟩ r (badEdgeMem r)) = true := by
    decide +kernel
  have h2 : ∀ r ∈ allRanks ⟨1, 1⟩, isOk (do
      let i ← (Op.sync 0 1 : Op Int).inn ⟨1, 1⟩ r (badEdgeMem r)
      deliver (packedFor ⟨1, 1⟩ (.sync 0 1) badEdgeMem r) i (badEdgeMem r)) = true := by
    decide +kernel
  intro r hr
  refine ⟨isOk_iff.1 (h1 r hr), ?_⟩
  obtain ⟨mem, hm⟩ := isOk_iff.1 (h2 r hr)
  obtain ⟨i, hi, hd⟩ := bind_ok hm
  refine ⟨i, hi, ?_⟩
  unfold badEdgeAfter
  rw [hi]
  simp only
  rw [hd]

/-- Values after synchronising. -/
theorem badEdge_values : (badEdgeAfter 0 0).data.get [0, 1, 0] = -2 ∧
    ∀ r ∈ allRanks ⟨1, 1⟩, (badEdgeAfter r 0).data.get [0, 0, 0] = 1 ∧
      (badEdgeAfter r 1).data.get [0, 0, 0] = 1 := by
  decide +kernel

/-- With the vertical axis first, an edge value received across an edge of the cube comes from the
wrong level: the synchronised quantities do not agree. -/
theorem C20_axis_order_refuted :
    ∃ m m' : Int → Mem Int, (∀ r, ∀ c, c = 0 ∨ c = 1 → (m r c).WF ∧ HAxes (m r c).dims 1 2) ∧
      UpdateStep ⟨1, 1⟩ (.sync 0 1) m m' ∧ ¬ EdgesAgree ⟨1, 1⟩ m' 0 1 1 2 1 := by
  have hwf : ∀ r, ∀ c, c = 0 ∨ c = 1 → (badEdgeMem r c).WF ∧ HAxes (badEdgeMem r c).dims 1 2 := by
    rintro r c (rfl | rfl)
    · refine ⟨⟨⟨rfl, rfl, rfl⟩, ?_⟩, exWind_axes 0⟩
      show ∀ k, k < 3 → 0 ≤ ([0, 0, 0] : List Int).getD k 0 ∧ 0 ≤ ([2, 2, 1] : List Int).getD k 0 ∧
        ([0, 0, 0] : List Int).getD k 0 + ([2, 2, 1] : List Int).getD k 0 ≤
          (([2, 2, 1] : List Nat).getD k 0 : Nat)
      decide
    · refine ⟨⟨⟨rfl, rfl, rfl⟩, ?_⟩, exWind_axes 1⟩
      show ∀ k, k < 3 → 0 ≤ ([0, 0, 0] : List Int).getD k 0 ∧ 0 ≤ ([2, 1, 2] : List Int).getD k 0 ∧
        ([0, 0, 0] : List Int).getD k 0 + ([2, 1, 2] : List Int).getD k 0 ≤
          (([2, 1, 2] : List Nat).getD k 0 : Nat)
      decide
  refine ⟨badEdgeMem, badEdgeAfter, hwf, badEdge_step, ?_⟩
  obtain ⟨v0, vlo⟩ := badEdge_values
  have hmeta : ∀ r ∈ allRanks ⟨1, 1⟩, ∀ q, SameMeta (badEdgeMem r q) (badEdgeAfter r q) := by
    intro r hr
    obtain ⟨-, i, -, hd⟩ := badEdge_step r hr
    exact (deliver_get hd).1
  have hr0 : (0 : Int) ∈ allRanks ⟨1, 1⟩ := by decide
  rintro ⟨hN, -⟩
  have hN := hN 0 [0, 1, 0] 0 1 2 ⟨hr0, by decide, by rw [(hmeta 0 hr0 0).tilePos]; decide,
    by rw [(hmeta 0 hr0 0).tilePos]; decide⟩ (by
      constructor
      · rw [(hmeta 0 hr0 0).inCompute]
        refine ⟨rfl, ?_⟩
        show ∀ k, k < 3 → ([0, 0, 0] : List Int).getD k 0 ≤ (([0, 1, 0] : List Nat).getD k 0 : Nat) ∧
          (([0, 1, 0] : List Nat).getD k 0 : Nat) < ([0, 0, 0] : List Int).getD k 0 + ([2, 2, 1] : List Int).getD k 0
        decide
      · rw [(hmeta 0 hr0 0).rel, (hmeta 0 hr0 0).e]; decide)
  rw [v0] at hN
  have hother : (badEdgeAfter 0 0).otherPos 1 2 [0, 1, 0] 0 = 0 := by
    unfold Quantity.otherPos
    rw [(hmeta 0 hr0 0).rel]
    split <;> rfl
  -- the source can only be the first element of the first level
  have hsrc : ∀ r src c, r ∈ allRanks ⟨1, 1⟩ → (c = 0 ∨ c = 1) → (badEdgeAfter r c).InCompute src →
      (badEdgeAfter r c).otherPos 1 2 src 0 = 0 → (badEdgeAfter r c).rel src (if c = 0 then 1 else 2) = 0 →
      (badEdgeAfter r c).data.get src = 1 := by
    intro r src c hr hc h1 h2 h3
    have g := hmeta r hr c
    rw [g.inCompute] at h1
    rw [g.rel] at h3
    unfold Quantity.otherPos at h2
    rw [g.ndim, g.rel] at h2
    obtain ⟨e, hk⟩ := h1
    rcases hc with rfl | rfl
    · have e3 : src.length = 3 := e
      match src, e3 with
      | [a, b, c], _ =>
        have k2 : (0 : Int) ≤ (c : Nat) ∧ ((c : Nat) : Int) < 0 + 1 := hk 2 (show 2 < 3 by decide)
        have h2' : ((a : Nat) : Int) - 0 = 0 := h2
        have h3' : ((b : Nat) : Int) - 0 = 0 := h3
        obtain rfl : a = 0 := by omega
        obtain rfl : b = 0 := by omega
        obtain rfl : c = 0 := by omega
        exact (vlo r hr).1
    · have e3 : src.length = 3 := e
      match src, e3 with
      | [a, b, c], _ =>
        have k2 : (0 : Int) ≤ (b : Nat) ∧ ((b : Nat) : Int) < 0 + 1 := hk 1 (show 1 < 3 by decide)
        have h2' : ((a : Nat) : Int) - 0 = 0 := h2
        have h3' : ((c : Nat) : Int) - 0 = 0 := h3
        obtain rfl : a = 0 := by omega
        obtain rfl : b = 0 := by omega
        obtain rfl : c = 0 := by omega
        exact (vlo r hr).2
  obtain ⟨r, src, t, ht, ⟨ho, hrel, hal⟩ | ⟨ho, hrel, hal⟩⟩ := hN
  · obtain ⟨t', a, b, hat, -⟩ := ho.point
    have := hsrc r src 0 hat.rank (by simp) ho.compute (by rw [ho.other]; exact hother) hrel
    unfold AlongDir at hal
    rw [this] at hal
    omega
  · obtain ⟨t', a, b, hat, -⟩ := ho.point
    have := hsrc r src 1 hat.rank (by simp) ho.compute (by rw [ho.other]; exact hother) hrel
    unfold AlongDir at hal
    rw [this] at hal
    omega

end FV3
