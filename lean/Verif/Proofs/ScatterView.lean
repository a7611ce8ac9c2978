import Verif.Proofs.Broadcast
import Verif.Proofs.Place

/-!
# Reading and writing the place of a rank through views
-/

namespace FV3
variable {α : Type}

theorem computeArr_shape_length (q : Quantity α) (hq : q.WF) : q.computeArr.shape.length = q.ndim := by
  show (q.extent.map Int.toNat).length = _
  rw [List.length_map, hq.extent]

/-- Points of the compute domain, as indices of the array. -/
theorem absIdx_ok (q : Quantity α) (hq : q.WF) (rel : List Nat) (h : InB q.computeArr.shape rel) :
    InB q.data.shape (absIdx q.origin rel) ∧ q.InCompute (absIdx q.origin rel) ∧
    relIdx q.origin (absIdx q.origin rel) = rel := by
  rw [inB_iff, computeArr_shape_length q hq] at h
  obtain ⟨h1, h2⟩ := h
  have h3 : ∀ k, k < q.ndim → ((rel.getD k 0 : Nat) : Int) < q.e k := by
    intro k hk
    have := h2 k hk
    have hk' : k < q.extent.length := by rw [hq.extent]; exact hk
    have e : q.computeArr.shape.getD k 0 = (q.e k).toNat := by
      show (q.extent.map Int.toNat).getD k 0 = _
      unfold Quantity.e
      rw [getD_lt _ (by simpa using hk'), List.getElem_map, getD_lt _ hk']
    omega
  have ho : ∀ k, k < q.ndim → (absIdx q.origin rel).getD k 0 = (q.o k + (rel.getD k 0 : Nat)).toNat := by
    intro k hk
    unfold absIdx
    rw [getD_tab _ _ (by rw [hq.origin]; exact hk)]; rfl
  refine ⟨?_, ⟨by simp [absIdx, hq.origin], ?_⟩, ?_⟩
  · rw [inB_iff]
    refine ⟨by simp [absIdx, hq.origin, hq.shape], ?_⟩
    intro k hk
    rw [hq.shape] at hk
    have h4 := hq.inside k hk
    have h5 := h3 k hk
    rw [ho k hk]
    unfold Quantity.n at h4
    omega
  · intro k hk
    have h4 := hq.inside k hk
    have h5 := h3 k hk
    unfold Quantity.InDom
    unfold at'
    rw [ho k hk]
    omega
  · apply ext_getD 0 (by simp [relIdx, hq.origin, h1])
    intro k hk
    have hk' : k < q.ndim := by simpa [relIdx, hq.origin] using hk
    unfold relIdx
    rw [getD_tab _ _ (by rw [hq.origin]; exact hk'), ho k hk']
    have h4 := hq.inside k hk'
    show (_ - q.o k).toNat = _
    omega

theorem Quantity.Refilled.refl (q : Quantity α) : q.Refilled q := ⟨rfl, rfl, rfl, rfl, rfl, fun _ _ _ => rfl⟩

theorem Quantity.Refilled.inCompute {q q' : Quantity α} (h : q.Refilled q') (idx : List Nat) :
    q'.InCompute idx ↔ q.InCompute idx := by
  unfold Quantity.InCompute Quantity.InDom Quantity.ndim Quantity.o Quantity.e
  rw [h.dims, h.origin, h.extent]

theorem Quantity.Refilled.trans {q q' q'' : Quantity α} (h : q.Refilled q') (h' : q'.Refilled q'') : q.Refilled q'' := by
  refine ⟨h'.dims.trans h.dims, h'.units.trans h.units, h'.origin.trans h.origin, h'.extent.trans h.extent,
    h'.shape.trans h.shape, ?_⟩
  intro idx hi hn
  rw [h'.outside idx (by rw [h.shape]; exact hi) (by rw [h.inCompute]; exact hn), h.outside idx hi hn]

theorem Quantity.Refilled.wf {q q' : Quantity α} (h : q.Refilled q') (hq : q.WF) : q'.WF := by
  have hd : q'.ndim = q.ndim := by unfold Quantity.ndim; rw [h.dims]
  refine ⟨⟨by rw [h.shape, hd, hq.shape], by rw [h.origin, hd, hq.origin], by rw [h.extent, hd, hq.extent]⟩, ?_⟩
  intro k hk
  unfold Quantity.o Quantity.e Quantity.n
  rw [h.origin, h.extent, h.shape]
  exact hq.inside k (by rw [← hd]; exact hk)

theorem Quantity.Refilled.rankShaped {q q' : Quantity α} {dims : List Dim} {cells : List Int}
    (h : q.Refilled q') (hq : q.RankShaped dims cells) : q'.RankShaped dims cells :=
  ⟨h.wf hq.wf, by rw [h.extent]; exact hq.extent⟩

/-- Assignment through a view, in terms of the compute domain. -/
theorem viewSet_compute (q : Quantity α) (hq : q.WF) (v : VIdx) (hl : v.entries.length ≤ q.ndim)
    (hp : ∀ k, k < v.entries.length → (v.entries.getD k (.int 0)).Plain (q.e k)) (value c : NDArray α)
    (hc : q.computeArr.setItem v.entries value = .ok c) :
    ∃ q', q.viewSet v value = .ok q' ∧ q.Refilled q' ∧
      ∀ rel, InB q.computeArr.shape rel → q'.computeArr.get rel = c.get rel := by
  obtain ⟨q', h1, h2, h3, h4, h5, h6, h7⟩ := (C29_view_writes_compute_domain q hq v hl hp value).1 c hc
  refine ⟨q', h1, ⟨h2, h3, h4, h5, h6, fun idx hi hn => (h7 idx hi).2 hn⟩, ?_⟩
  intro rel hr
  obtain ⟨a1, a2, a3⟩ := absIdx_ok q hq rel hr
  show q'.data.get (absIdx q'.origin rel) = _
  rw [h4, (h7 _ a1).1 a2, a3]

theorem resolveAll_full1 (shape : List Nat) (h : 0 < shape.length) :
    resolveAll [Ix.slice .full] shape = .ok (boxRs shape.length (fun _ => 0) fun k => shape.getD k 0) := by
  rw [← resolveAll_fill _ _ (by simp only [List.length_cons, List.length_nil]; omega)]
  have e : fillIndex [Ix.slice .full] shape.length = tab shape.length fun _ => Ix.slice .full := by
    apply ext_getD (Ix.int 0) (by simp [fillIndex]; omega)
    intro k hk
    have hk' : k < shape.length := by simp [fillIndex] at hk; omega
    rw [getD_tab _ _ hk', getD_lt _ hk]
    unfold fillIndex
    cases k with
    | zero => rfl
    | succ k => simp
  rw [e]
  exact resolveAll_tab _ _ _ _ rfl (fun k _ => resolve_full _)

theorem setItem_full (a v : NDArray α) (h : 0 < a.shape.length) (hs : v.shape = a.shape) :
    ∃ c, a.setItem [Ix.slice .full] v = .ok c ∧ ∀ idx, InB a.shape idx → c.get idx = v.get idx := by
  refine ⟨_, NDArray.setItem_same (resolveAll_full1 _ h) (by rw [viewShape_box, ← eq_tab 0, hs]), ?_⟩
  intro idx hi
  rw [inB_iff] at hi
  have hu := unview_box a.shape.length (fun _ => 0) (fun k => a.shape.getD k 0) idx hi.1
  rw [if_pos (by intro k hk; have := hi.2 k hk; omega)] at hu
  simp only [NDArray.assign, hu]
  congr 1
  symm
  rw [← hi.1]
  conv => lhs; rw [eq_tab 0 idx]
  apply tab_congr
  intro k _
  omega

/-- Storing what is received. -/
theorem fillView_ok (q : Quantity α) (hq : q.WF) (hpos : 0 < q.ndim) (a : NDArray α)
    (ha : a.shape = q.computeArr.shape) :
    ∃ q', q.fillView a = .ok q' ∧ q.Refilled q' ∧
      ∀ rel, InB q.computeArr.shape rel → q'.computeArr.get rel = a.get rel := by
  obtain ⟨c, h1, h2⟩ := setItem_full q.computeArr a (by rw [computeArr_shape_length q hq]; exact hpos) ha
  obtain ⟨q', h3, h4, h5⟩ := viewSet_compute q hq (.one (.slice .full)) hpos (by
    intro k hk
    have : k = 0 := by simp [VIdx.entries] at hk; exact hk
    subst this
    simp [VIdx.entries, Ix.Plain, PySlice.full]) a c h1
  refine ⟨q', ?_, h4, fun rel hr => (h5 rel hr).trans (h2 rel hr)⟩
  obtain ⟨r, e1, e2, -⟩ := C29_view_all q hq hpos
  have ho : ¬ q.origin.length = 0 := by rw [hq.origin]; omega
  unfold Quantity.viewGet at e1
  unfold Quantity.viewSet at h3
  unfold Quantity.fillView
  rw [if_neg ho] at e1 ⊢
  cases hix : q.computeIndex (.one (.slice .full)) with
  | error e => rw [hix] at e1; cases e1
  | ok ix =>
    rw [hix] at e1 h3
    simp only [bind, Except.bind] at e1 h3 ⊢
    rw [NDArray.fillItem_eq e1 (by rw [e2, ha]; rfl)]
    exact h3

/-- The block of the global quantity at the place of rank `r`. -/
def partOf (c : Comm) (dims : List Dim) (cells : List Int) (g : Quantity α) (r : Int) : NDArray α :=
  ⟨rankShape dims cells, fun rel => g.computeArr.get (c.place dims cells r rel)⟩

theorem globalDims_length_le (c : Comm) (dims : List Dim) : dims.length ≤ (c.globalDims dims).length := by
  cases c <;> simp [Comm.globalDims]

theorem viewGet_part {c : Comm} (hl : FloatSafe c.layout) {dims : List Dim} {cells : List Int} (hpos : 0 < dims.length)
    {g : Quantity α} (hg : g.GlobalShaped c dims cells) {r : Int} (hr : r ∈ c.ranks) :
    ∃ ix, c.subtileIx r g.dims g.extent = .ok ix ∧ g.viewGet (.tuple ix) = .ok (partOf c dims cells g r) := by
  obtain ⟨ix, rs, h⟩ := placeIx hl hg.extent hr
  have hnd : (c.globalDims dims).length = g.ndim := by unfold Quantity.ndim; rw [hg.names]
  have := globalDims_length_le c dims
  obtain ⟨v, h1, h2⟩ := C29_view_reads_compute_domain g hg.wf (by omega) (.tuple ix)
    (by show ix.length ≤ _; rw [h.length, hnd]) h.plain
  refine ⟨ix, by rw [hg.names]; exact h.slice, ?_⟩
  rw [h1]
  unfold NDArray.getItem at h2
  rw [show resolveAll (VIdx.tuple ix).entries g.computeArr.shape = .ok rs from h.resolve] at h2
  cases h2
  unfold NDArray.view partOf
  rw [h.shape]
  congr 2
  funext rel
  rw [h.idx]

theorem scatterBlocks_ok {c : Comm} (hl : FloatSafe c.layout) {dims : List Dim} {cells : List Int} (hpos : 0 < dims.length)
    {g : Quantity α} (hg : g.GlobalShaped c dims cells) {shape : List Int} (hs : RankOf dims cells shape)
    (rs : List Int) (hrs : ∀ r ∈ rs, r ∈ c.ranks) :
    scatterBlocks c g shape rs = .ok (rs.map (partOf c dims cells g)) := by
  induction rs with
  | nil => rfl
  | cons r rs ih =>
    obtain ⟨ix, h1, h2⟩ := viewGet_part hl hpos hg (hrs r List.mem_cons_self)
    unfold scatterBlocks
    rw [h1]
    simp only [bind, Except.bind, h2]
    rw [if_neg (by rw [hs.2.1]; omega), if_pos (by rw [rankOf_shape hs]; exact fits_self _),
      NDArray.stretch_of (by rw [rankOf_shape hs]; rfl), ih (fun x hx => hrs x (List.mem_cons_of_mem _ hx))]
    rfl

/-- Storing one block of a gather. -/
theorem viewSet_place {c : Comm} (hl : FloatSafe c.layout) {dims : List Dim} {cells : List Int}
    {q : Quantity α} (hq : q.GlobalShaped c dims cells) {r : Int} (hr : r ∈ c.ranks)
    (a : NDArray α) (ha : a.shape = rankShape dims cells) :
    ∃ ix q', c.subtileIx r q.dims q.extent = .ok ix ∧ q.viewSet (.tuple ix) a = .ok q' ∧ q.Refilled q' ∧
      (∀ rel, InB (rankShape dims cells) rel → InB q.computeArr.shape (c.place dims cells r rel) →
        q'.computeArr.get (c.place dims cells r rel) = a.get rel) ∧
      (∀ g, InB q.computeArr.shape g → (∀ rel, InB (rankShape dims cells) rel → c.place dims cells r rel ≠ g) →
        q'.computeArr.get g = q.computeArr.get g) := by
  obtain ⟨ix, rs, h⟩ := placeIx hl hq.extent hr
  have hnd : (c.globalDims dims).length = q.ndim := by unfold Quantity.ndim; rw [hq.names]
  have hset : q.computeArr.setItem (VIdx.tuple ix).entries a = .ok (q.computeArr.assign rs a) := by
    exact NDArray.setItem_same h.resolve (by rw [h.shape, ha])
  obtain ⟨q', h1, h2, h3⟩ := viewSet_compute q hq.wf (.tuple ix) (by show ix.length ≤ _; rw [h.length, hnd])
    h.plain a _ hset
  refine ⟨ix, q', by rw [hq.names]; exact h.slice, h1, h2, ?_, ?_⟩
  · intro rel hrel hin
    rw [h3 _ hin]
    simp only [NDArray.assign, h.unview_place rel hrel]
  · intro g hg hno
    rw [h3 _ hg]
    have hlen : g.length = (c.globalDims dims).length := by
      rw [inB_iff, computeArr_shape_length q hq.wf] at hg
      rw [hg.1, hnd]
    cases hu : unview rs g with
    | none => simp only [NDArray.assign, hu]
    | some rel =>
      obtain ⟨x, y⟩ := h.place_unview g rel hlen hu
      exact absurd y (hno rel x)

end FV3
