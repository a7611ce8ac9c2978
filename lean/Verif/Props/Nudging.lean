import Verif.Model.Nudging
import Verif.Proofs.Dict
import Verif.Props.Views
import Mathlib.Algebra.Order.Field.Basic
import Mathlib.Tactic.Linarith
import Mathlib.Tactic.FieldSimp
import Mathlib.Tactic.Ring
import Mathlib.Algebra.Order.Ring.Rat

/-!
# C46 Nudging relaxes towards the reference
-/

namespace FV3.Nudge
variable {α : Type}

/-! ### views of the whole compute domain -/

theorem get?_set' {α : Type} (s : State α) (k : String) (v : Quantity α) (k' : String) :
    Dict.get? (Dict.set s k v) k' = if k' = k then some v else Dict.get? s k' := Dict.get?_set s k v k'

/-- `view[:] = value` for a value of the right shape. -/
theorem viewSet_all (q : Quantity α) (hq : q.WF) (hpos : 0 < q.ndim) (value : NDArray α)
    (hs : value.shape = q.extent.map Int.toNat) :
    ∃ q', q.viewSet all value = .ok q' ∧
      q'.dims = q.dims ∧ q'.units = q.units ∧ q'.origin = q.origin ∧ q'.extent = q.extent ∧
      q'.data.shape = q.data.shape ∧
      ∀ idx, InB q.data.shape idx →
        (q.InCompute idx → q'.data.get idx = value.get (relIdx q.origin idx)) ∧
        (¬ q.InCompute idx → q'.data.get idx = q.data.get idx) := by
  have hpl : ∀ k, k < (all).entries.length → ((all).entries.getD k (.int 0)).Plain (q.e k) := by
    intro k hk
    have : k = 0 := by simp [all, VIdx.entries] at hk; exact hk
    subst this
    simp [all, VIdx.entries, Ix.Plain, PySlice.full]
  obtain ⟨H, _⟩ := C29_view_writes_compute_domain q hq all hpos hpl value
  have hlen : (q.extent.map Int.toNat).length = q.ndim := by rw [List.length_map, hq.extent]
  have h3 : resolveAll [Ix.slice .full] (q.extent.map Int.toNat) =
      .ok (tab q.ndim fun k => .slice 0 1 ((q.extent.map Int.toNat).getD k 0)) := by
    rw [← resolveAll_fill _ _ (by simp only [List.length_cons, List.length_nil]; omega), hlen]
    have e : fillIndex [Ix.slice .full] q.ndim = tab q.ndim fun _ => Ix.slice .full := by
      apply ext_getD (Ix.int 0) (by simp [fillIndex]; omega)
      intro k hk
      have hk' : k < q.ndim := by simp [fillIndex] at hk; omega
      rw [getD_tab _ _ hk', getD_lt _ hk]
      unfold fillIndex
      cases k with
      | zero => rfl
      | succ k => simp
    rw [e]
    exact resolveAll_tab _ _ _ _ hlen (fun k _ => resolve_full _)
  have hvs : viewShape (tab q.ndim fun k => RIx.slice 0 1 ((q.extent.map Int.toNat).getD k 0))
      = q.extent.map Int.toNat := by
    rw [viewShape_slices, ← hlen]
    exact (eq_tab 0 _).symm
  have hc : q.computeArr.setItem (all).entries value = .ok (q.computeArr.assign
      (tab q.ndim fun k => RIx.slice 0 1 ((q.extent.map Int.toNat).getD k 0)) value) := by
    exact NDArray.setItem_same h3 (by rw [hvs, hs])
  obtain ⟨q', e, h⟩ := H _ hc
  refine ⟨q', e, h.1, h.2.1, h.2.2.1, h.2.2.2.1, h.2.2.2.2.1, fun idx hi => ⟨fun hin => ?_, (h.2.2.2.2.2 idx hi).2⟩⟩
  rw [(h.2.2.2.2.2 idx hi).1 hin]
  have hlr : (relIdx q.origin idx).length = q.ndim := by unfold relIdx; rw [length_tab, hq.origin]
  have hu := unview_box q.ndim (fun _ => 0) (fun k => (q.extent.map Int.toNat).getD k 0)
    (relIdx q.origin idx) hlr
  rw [boxRs] at hu
  have hrel : ∀ k, k < q.ndim → ((relIdx q.origin idx).getD k 0 : Nat) = (at' idx k - q.o k).toNat := by
    intro k hk
    unfold relIdx
    rw [getD_tab _ _ (by rw [hq.origin]; exact hk)]; rfl
  have hext : ∀ k, k < q.ndim → (q.extent.map Int.toNat).getD k 0 = (q.e k).toNat := by
    intro k hk
    rw [getD_lt _ (by rw [hlen]; exact hk), List.getElem_map]
    unfold Quantity.e
    rw [getD_lt _ (by rw [hq.extent]; exact hk)]
  rw [if_pos] at hu
  · show (match unview _ (relIdx q.origin idx) with
      | some rel => value.get rel
      | none => q.computeArr.get (relIdx q.origin idx)) = _
    rw [hu]
    show value.get _ = _
    congr 1
    apply ext_getD 0 (by rw [length_tab, hlr])
    intro k hk
    rw [length_tab] at hk
    rw [getD_tab _ _ hk]
    omega
  · intro k hk
    rw [hrel k hk, hext k hk]
    have h1 := hin.2 k hk
    unfold Quantity.InDom at h1
    omega

/-- The metadata and the array shape are the same. -/
structure SameMeta (q q' : Quantity α) : Prop where
  dims : q'.dims = q.dims
  units : q'.units = q.units
  origin : q'.origin = q.origin
  extent : q'.extent = q.extent
  shape : q'.data.shape = q.data.shape

/-- The point of the reference at the same position of the compute domain. -/
def refPoint (q r : Quantity α) (idx : List Nat) : List Nat := absIdx r.origin (relIdx q.origin idx)

/-- A variable and its reference: compute domains of the same size inside their arrays. -/
structure Matches (q r : Quantity α) : Prop where
  wf : q.WF
  ref : r.WF
  axes : 0 < q.ndim
  extent : r.extent = q.extent

theorem Matches.ndim {q r : Quantity α} (M : Matches q r) : r.ndim = q.ndim := by
  rw [← M.ref.extent, M.extent, M.wf.extent]

/-- A tendency: values on the compute domain, per second. -/
structure IsTendency [Sub α] [Div α] (q r t : Quantity α) (τ : α) : Prop where
  dims : t.dims = q.dims
  units : t.units = q.units ++ " s^-1"
  shape : t.data.shape = q.extent.map Int.toNat
  origin : t.origin = List.replicate q.ndim 0
  extent : t.extent = q.extent
  values : ∀ idx, InB q.data.shape idx → q.InCompute idx →
    t.data.get (relIdx q.origin idx) = (r.data.get (refPoint q r idx) - q.data.get idx) / τ

/-- The nudged variable. -/
structure Nudged [Add α] [Sub α] [Mul α] [Div α] (q r q' : Quantity α) (τ dt : α) : Prop extends SameMeta q q' where
  inside : ∀ idx, InB q.data.shape idx → q.InCompute idx →
    q'.data.get idx = q.data.get idx + (r.data.get (refPoint q r idx) - q.data.get idx) / τ * dt
  outside : ∀ idx, InB q.data.shape idx → ¬ q.InCompute idx → q'.data.get idx = q.data.get idx

theorem absRel (q : Quantity α) (hq : q.WF) (idx : List Nat) (hin : q.InCompute idx) :
    absIdx q.origin (relIdx q.origin idx) = idx := by
  apply ext_getD 0 (by simp [absIdx, hin.1, hq.origin])
  intro k hk
  have hk' : k < q.ndim := by simpa [absIdx, hq.origin] using hk
  have hk2 : k < q.origin.length := by rw [hq.origin]; exact hk'
  unfold absIdx relIdx
  rw [getD_tab _ _ hk2, getD_tab _ _ hk2]
  have := hin.2 k hk'
  unfold Quantity.InDom Quantity.o at this
  unfold at' at this
  omega

theorem relIn (q : Quantity α) (hq : q.WF) (idx : List Nat) (hin : q.InCompute idx) :
    InB (q.extent.map Int.toNat) (relIdx q.origin idx) := by
  rw [inB_iff]
  have hlen : (q.extent.map Int.toNat).length = q.ndim := by rw [List.length_map, hq.extent]
  refine ⟨by unfold relIdx; rw [length_tab, hq.origin, hlen], fun k hk => ?_⟩
  have hk' : k < q.ndim := by rw [hlen] at hk; exact hk
  unfold relIdx
  rw [getD_tab _ _ (by rw [hq.origin]; exact hk')]
  have := hin.2 k hk'
  have h2 := hq.inside k hk'
  rw [getD_lt _ hk, List.getElem_map]
  unfold Quantity.InDom Quantity.o Quantity.e at this
  unfold Quantity.o Quantity.e at h2
  rw [getD_lt (0 : Int) (show k < q.extent.length by rw [hq.extent]; exact hk')] at this h2
  unfold at' at this
  omega

theorem zipWith_zero (l : List Nat) : List.zipWith (fun (length : Nat) (start : Int) =>
    (length : Int) - start) l (List.replicate l.length 0) = l.map (fun n : Nat => (n : Int)) := by
  induction l with
  | nil => rfl
  | cons n l ih => simp [List.replicate_succ, ih]

theorem toNat_back (q : Quantity α) (hq : q.WF) :
    (q.extent.map Int.toNat).map (fun n : Nat => (n : Int)) = q.extent := by
  rw [List.map_map]
  apply ext_getD 0 (by simp)
  intro k hk
  have hk' : k < q.extent.length := by simpa using hk
  rw [getD_lt _ hk, getD_lt _ hk', List.getElem_map]
  have := (hq.inside k (by rw [← hq.extent]; exact hk')).2.1
  unfold Quantity.e at this
  rw [getD_lt _ hk'] at this
  simp [this]

section
variable [Add α] [Sub α] [Mul α] [Div α]

theorem tendencyOf_ok (q r : Quantity α) (M : Matches q r) (τ : α) :
    ∃ t, tendencyOf q r τ = .ok t ∧ IsTendency q r t τ := by
  obtain ⟨v, hv, hvs, hvg⟩ := C29_view_all q M.wf M.axes
  obtain ⟨w, hw, hws, hwg⟩ := C29_view_all r M.ref (by rw [M.ndim]; exact M.axes)
  have hlen : v.shape.length = q.ndim := by rw [hvs, List.length_map, M.wf.extent]
  refine ⟨⟨⟨v.shape, fun i => (w.get i - v.get i) / τ⟩, q.dims, q.units ++ " s^-1",
    List.replicate q.ndim 0, q.extent⟩, ?_, ⟨rfl, rfl, hvs, rfl, rfl, ?_⟩⟩
  · unfold tendencyOf all
    rw [hw, hv]
    simp only [bind, Except.bind]
    rw [show w.shape = v.shape by rw [hws, hvs, M.extent], broadcastShape_self]
    simp only [NDArray.stretch_self, NDArray.stretch_of (show w.shape = v.shape by rw [hws, hvs, M.extent])]
    unfold Quantity.mk? validateLengths
    simp only [Option.getD_none]
    have hl2 : q.dims.length = v.shape.length := by rw [hlen]; rfl
    have hE : List.zipWith (fun (length : Nat) (start : Int) => (length : Int) - start) v.shape
        (List.replicate q.ndim 0) = q.extent := by
      rw [← hlen, zipWith_zero, hvs, toNat_back q M.wf]
    have hl3 : q.extent.length = q.ndim := M.wf.extent
    simp only [hE, ne_eq, hl2, not_true, if_false, List.length_replicate, hl3, hlen]
    rfl
  · intro idx hi hin
    have h1 := relIn q M.wf idx hin
    show (w.get _ - v.get _) / τ = _
    rw [hwg _ (by rw [hws, M.extent]; exact h1), hvg _ (by rw [hvs]; exact h1), absRel q M.wf idx hin]
    rfl

theorem IsTendency.wf {q r t : Quantity α} {τ : α} (T : IsTendency q r t τ) (M : Matches q r) :
    t.WF ∧ 0 < t.ndim := by
  have hn : t.ndim = q.ndim := by unfold Quantity.ndim; rw [T.dims]
  refine ⟨⟨⟨?_, ?_, ?_⟩, ?_⟩, by rw [hn]; exact M.axes⟩
  · rw [T.shape, List.length_map, M.wf.extent, hn]
  · rw [T.origin, List.length_replicate, hn]
  · rw [T.extent, M.wf.extent, hn]
  · intro k hk
    rw [hn] at hk
    have h := M.wf.inside k hk
    have he : t.e k = q.e k := by unfold Quantity.e; rw [T.extent]
    have ho : t.o k = 0 := by
      unfold Quantity.o
      rw [T.origin, getD_lt _ (by rw [List.length_replicate]; exact hk), List.getElem_replicate]
    have hnk : t.n k = q.e k := by
      have hk' : k < q.extent.length := by rw [M.wf.extent]; exact hk
      unfold Quantity.n
      rw [T.shape, getD_lt _ (by rw [List.length_map]; exact hk'), List.getElem_map]
      have := h.2.1
      unfold Quantity.e at this ⊢
      rw [getD_lt _ hk'] at this ⊢
      omega
    rw [he, ho, hnk]
    omega

theorem addTo_ok (q r t : Quantity α) (M : Matches q r) (τ dt : α) (T : IsTendency q r t τ) :
    ∃ q', addTo q t dt = (q', none) ∧ Nudged q r q' τ dt := by
  obtain ⟨v, hv, hvs, hvg⟩ := C29_view_all q M.wf M.axes
  obtain ⟨tw, tp⟩ := T.wf M
  obtain ⟨w, hw, hws, hwg⟩ := C29_view_all t tw tp
  obtain ⟨q', hq', h1, h2, h3, h4, h5, h6⟩ := viewSet_all q M.wf M.axes
    ⟨v.shape, fun i => v.get i + w.get i * dt⟩ hvs
  refine ⟨q', ?_, ⟨⟨h1, h2, h3, h4, h5⟩, ?_, ?_⟩⟩
  · unfold addTo
    unfold all at hq' ⊢
    rw [hv, hw]
    dsimp only
    have ho : ¬ q.origin.length = 0 := by
      have := M.axes
      rw [M.wf.origin]; omega
    have hsh : w.shape = v.shape := by rw [hvs, hws, T.extent]
    rw [hsh, broadcastShape_self, if_pos rfl, NDArray.stretch_of hsh, if_neg ho, hq']
  · intro idx hi hin
    rw [(h6 idx hi).1 hin]
    have hr := relIn q M.wf idx hin
    show v.get _ + w.get _ * dt = _
    rw [hvg _ (by rw [hvs]; exact hr), absRel q M.wf idx hin, hwg _ (by rw [hws, T.extent]; exact hr)]
    have : absIdx t.origin (relIdx q.origin idx) = relIdx q.origin idx := by
      have hl : t.origin.length = q.ndim := by rw [T.origin, List.length_replicate]
      apply ext_getD 0 (by unfold absIdx relIdx; rw [length_tab, length_tab, hl, M.wf.origin])
      intro k hk
      unfold absIdx at hk
      rw [length_tab] at hk
      unfold absIdx
      rw [getD_tab _ _ hk]
      rw [T.origin, getD_lt (0 : Int) (by rw [List.length_replicate, ← hl]; exact hk), List.getElem_replicate]
      omega
    rw [this, T.values idx hi hin]
  · intro idx hi hout
    exact (h6 idx hi).2 hout

/-- The dictionary of tendencies. -/
def AreTendencies (s ref : State α) (τs : Dict String α) (ts : Dict String (Quantity α)) : Prop :=
  Dict.keys ts = Dict.keys τs ∧ ∀ name τ, Dict.get? τs name = some τ →
    ∃ q r t, Dict.get? s name = some q ∧ Dict.get? ref name = some r ∧
      Dict.get? ts name = some t ∧ IsTendency q r t τ

theorem getTendencies_ok (s ref : State α) (τs : Dict String α) (hnd : (Dict.keys τs).Nodup)
    (H : ∀ name τ, Dict.get? τs name = some τ → ∃ q r, Dict.get? s name = some q ∧
      Dict.get? ref name = some r ∧ Matches q r) :
    ∃ ts, getTendencies s ref τs = .ok ts ∧ AreTendencies s ref τs ts := by
  induction τs with
  | nil => exact ⟨[], rfl, rfl, fun name τ h => by cases h⟩
  | cons p rest ih =>
    obtain ⟨name, τ⟩ := p
    have hnd' : name ∉ Dict.keys rest ∧ (Dict.keys rest).Nodup := by
      simpa [Dict.keys] using hnd
    obtain ⟨q, r, hq, hr, M⟩ := H name τ (by simp [Dict.get?])
    have hne : ∀ n' τ', Dict.get? rest n' = some τ' → n' ≠ name := by
      rintro n' τ' h rfl
      exact hnd'.1 ((Dict.mem_keys_iff rest n').2 ⟨τ', h⟩)
    obtain ⟨ts, e, hk, hts⟩ := ih hnd'.2 (fun n' τ' h => H n' τ' (by
      simp only [Dict.get?, if_neg (hne n' τ' h)]; exact h))
    obtain ⟨t, et, T⟩ := tendencyOf_ok q r M τ
    refine ⟨(name, t) :: ts, ?_, ?_, ?_⟩
    · simp only [getTendencies, hq, hr, et, e, bind, Except.bind, pure, Except.pure]
    · simp only [Dict.keys, List.map_cons] at hk ⊢
      rw [hk]
    · intro n' τ' h
      by_cases hn : n' = name
      · subst hn
        simp only [Dict.get?, if_true] at h
        cases h
        exact ⟨q, r, t, hq, hr, by simp [Dict.get?], T⟩
      · simp only [Dict.get?, if_neg hn] at h ⊢
        exact hts n' τ' h

theorem applyTendencies_ok (ref : State α) (dt : α) (s0 : State α) (τs : Dict String α)
    (H : ∀ name τ, Dict.get? τs name = some τ → ∃ q r, Dict.get? s0 name = some q ∧
      Dict.get? ref name = some r ∧ Matches q r) (ts : Dict String (Quantity α)) :
    (Dict.keys ts).Nodup → ∀ s : State α, Dict.keys s = Dict.keys s0 →
    (∀ name t, Dict.get? ts name = some t → ∃ q r τ, Dict.get? τs name = some τ ∧ Dict.get? s name = some q ∧
      Dict.get? s0 name = some q ∧ Dict.get? ref name = some r ∧ IsTendency q r t τ) →
    ∃ s', applyTendencies dt ts s = (s', none) ∧ Dict.keys s' = Dict.keys s0 ∧
      ∀ name, (Dict.get? ts name = none → Dict.get? s' name = Dict.get? s name) ∧
        (∀ t, Dict.get? ts name = some t → ∃ q r τ q', Dict.get? τs name = some τ ∧ Dict.get? s0 name = some q ∧
          Dict.get? ref name = some r ∧ Dict.get? s' name = some q' ∧ Nudged q r q' τ dt) := by
  induction ts with
  | nil =>
    intro _ s hk _
    exact ⟨s, rfl, hk, fun name => ⟨fun _ => rfl, fun t h => by cases h⟩⟩
  | cons p rest ih =>
    obtain ⟨name, t⟩ := p
    intro hnd s hks hts
    have hnd' : name ∉ Dict.keys rest ∧ (Dict.keys rest).Nodup := by
      simpa [Dict.keys] using hnd
    obtain ⟨q, r, τ, hτ, hq, hq0, hr, T⟩ := hts name t (by simp [Dict.get?])
    have M : Matches q r := by
      obtain ⟨q1, r1, h1, h2, M⟩ := H name τ hτ
      rw [hq0] at h1; rw [hr] at h2; cases h1; cases h2; exact M
    obtain ⟨q', hadd, N⟩ := addTo_ok q r t M τ dt T
    have hne : ∀ n' t', Dict.get? rest n' = some t' → n' ≠ name := by
      rintro n' t' h rfl
      exact hnd'.1 ((Dict.mem_keys_iff rest n').2 ⟨t', h⟩)
    have hmem : name ∈ Dict.keys s := (Dict.mem_keys_iff s name).2 ⟨q, hq⟩
    obtain ⟨s', e, hk', hs'⟩ := ih hnd'.2 (Dict.set s name q')
      (by rw [Dict.keys_set, if_pos hmem, hks]) (by
        intro n' t' h
        have hn := hne n' t' h
        obtain ⟨q1, r1, τ1, a, b, c, d⟩ := hts n' t' (by simp only [Dict.get?, if_neg hn]; exact h)
        exact ⟨q1, r1, τ1, a, by rw [get?_set', if_neg hn]; exact b, c, d⟩)
    refine ⟨s', ?_, hk', fun n' => ⟨fun h => ?_, fun t' h => ?_⟩⟩
    · simp only [applyTendencies, hq, hadd]
      exact e
    · by_cases hn : n' = name
      · subst hn; simp [Dict.get?] at h
      · simp only [Dict.get?, if_neg hn] at h
        rw [(hs' n').1 h, get?_set', if_neg hn]
    · by_cases hn : n' = name
      · subst hn
        have hnone : Dict.get? rest n' = none := (Dict.get?_eq_none_iff rest n').2 hnd'.1
        refine ⟨q, r, τ, q', hτ, hq0, hr, ?_, N⟩
        rw [(hs' n').1 hnone, get?_set', if_pos rfl]
      · simp only [Dict.get?, if_neg hn] at h
        exact (hs' n').2 t' h

/-- **C46.**  If every variable with a timescale is in the state and in the reference, with
compute domains of the same size, nudging succeeds.  It adds
`(reference - state) / timescale * timestep` at every point of the compute domain of these
variables, changes nothing else (halos, other variables, metadata), and returns the
tendencies. -/
theorem C46_nudge (s ref : State α) (τs : Dict String α) (dt : α) (hnd : (Dict.keys τs).Nodup)
    (H : ∀ name τ, Dict.get? τs name = some τ → ∃ q r, Dict.get? s name = some q ∧
      Dict.get? ref name = some r ∧ Matches q r) :
    ∃ s' ts, applyNudging s ref τs dt = (s', .ok ts) ∧ AreTendencies s ref τs ts ∧
      Dict.keys s' = Dict.keys s ∧
      ∀ name, (Dict.get? τs name = none → Dict.get? s' name = Dict.get? s name) ∧
        (∀ τ, Dict.get? τs name = some τ → ∃ q r q', Dict.get? s name = some q ∧
          Dict.get? ref name = some r ∧ Dict.get? s' name = some q' ∧ Nudged q r q' τ dt) := by
  obtain ⟨ts, e, A⟩ := getTendencies_ok s ref τs hnd H
  have hiff : ∀ name, Dict.get? ts name = none ↔ Dict.get? τs name = none := by
    intro name
    rw [Dict.get?_eq_none_iff, Dict.get?_eq_none_iff, A.1]
  obtain ⟨s', e', hk, hs'⟩ := applyTendencies_ok ref dt s τs H ts (by rw [A.1]; exact hnd) s rfl (by
    intro name t h
    cases hτ : Dict.get? τs name with
    | none => rw [(hiff name).2 hτ] at h; cases h
    | some τ =>
      obtain ⟨q, r, t', h1, h2, h3, T⟩ := A.2 name τ hτ
      rw [h] at h3; cases h3
      exact ⟨q, r, τ, rfl, h1, h1, h2, T⟩)
  refine ⟨s', ts, ?_, A, hk, fun name => ⟨fun h => (hs' name).1 ((hiff name).2 h), fun τ hτ => ?_⟩⟩
  · unfold applyNudging
    rw [e]
    dsimp only
    rw [e']
  · cases ht : Dict.get? ts name with
    | none => rw [(hiff name).1 ht] at hτ; cases hτ
    | some t =>
      obtain ⟨q, r, τ', q', h1, h2⟩ := (hs' name).2 t ht
      rw [hτ] at h1; cases h1
      exact ⟨q, r, q', h2⟩

/-- **C46.**  If a variable with a timescale is missing from the state or the reference, an
exception is raised and the state is not modified. -/
theorem C46_missing (s ref : State α) (τs : Dict String α) (dt : α) (name : String)
    (hτ : name ∈ Dict.keys τs) (h : name ∉ Dict.keys s ∨ name ∉ Dict.keys ref) :
    ∃ e, applyNudging s ref τs dt = (s, .error e) := by
  have : ∃ e, getTendencies s ref τs = .error e := by
    induction τs with
    | nil => simp [Dict.keys] at hτ
    | cons p rest ih =>
      obtain ⟨n', τ⟩ := p
      cases hs : Dict.get? s n' with
      | none => exact ⟨.keyError, by simp only [getTendencies, hs]⟩
      | some q =>
        cases hr : Dict.get? ref n' with
        | none => exact ⟨.keyError, by simp only [getTendencies, hs, hr]⟩
        | some r =>
          have hne : name ≠ n' := by
            rintro rfl
            rcases h with h | h
            · exact h ((Dict.mem_keys_iff s name).2 ⟨q, hs⟩)
            · exact h ((Dict.mem_keys_iff ref name).2 ⟨r, hr⟩)
          obtain ⟨e, he⟩ := ih (by
            simp only [Dict.keys, List.map_cons, List.mem_cons] at hτ
            exact hτ.resolve_left hne)
          simp only [getTendencies, hs, hr, bind, Except.bind]
          cases tendencyOf q r τ with
          | error e => exact ⟨e, rfl⟩
          | ok t => rw [he]; exact ⟨e, rfl⟩
  obtain ⟨e, he⟩ := this
  exact ⟨e, by unfold applyNudging; rw [he]⟩

/-- A missing variable alone is reported as KeyError. -/
theorem C46_missing_key (s ref : State α) (name : String) (τ dt : α)
    (h : name ∉ Dict.keys s ∨ name ∉ Dict.keys ref) :
    applyNudging s ref [(name, τ)] dt = (s, .error .keyError) := by
  unfold applyNudging getTendencies
  cases hs : Dict.get? s name with
  | none => rfl
  | some q =>
    cases hr : Dict.get? ref name with
    | none => rfl
    | some r =>
      rcases h with h | h
      · exact absurd ((Dict.mem_keys_iff s name).2 ⟨q, hs⟩) h
      · exact absurd ((Dict.mem_keys_iff ref name).2 ⟨r, hr⟩) h

/-- **C46, limit.**  A variable without axes is nudged, but an AttributeError is raised
afterwards, so that later variables are not nudged. -/
theorem C46_scalar_limit (name units : String) (a b τ dt : α) (rest : Dict String α)
    (s ref : State α) (hs : Dict.get? s name = some ⟨⟨[], fun _ => a⟩, [], units, [], []⟩)
    (hr : Dict.get? ref name = some ⟨⟨[], fun _ => b⟩, [], units, [], []⟩)
    (hrest : ∃ ts, getTendencies s ref rest = .ok ts) :
    applyNudging s ref ((name, τ) :: rest) dt =
      (Dict.set s name ⟨⟨[], fun _ => a + (b - a) / τ * dt⟩, [], units, [], []⟩, .error .attributeError) := by
  obtain ⟨ts, e⟩ := hrest
  simp [applyNudging, getTendencies, hs, hr, e, tendencyOf, Quantity.viewGet, Quantity.zeroDimGet, all,
    Quantity.mk?, validateLengths, bind, Except.bind, pure, Except.pure, applyTendencies, addTo,
    Quantity.computeIndex, broadcastShape_self, NDArray.stretch]
end

/-! ### exact arithmetic -/

section
variable [Field α] [LinearOrder α] [IsStrictOrderedRing α]

/-- **C46.**  With a timestep equal to the timescale, the compute domain becomes the reference. -/
theorem C46_reaches (q r q' : Quantity α) (τ : α) (hτ : τ ≠ 0) (N : Nudged q r q' τ τ) (idx : List Nat)
    (hi : InB q.data.shape idx) (hin : q.InCompute idx) :
    q'.data.get idx = r.data.get (refPoint q r idx) := by
  rw [N.inside idx hi hin, div_mul_cancel₀ _ hτ]
  ring

/-- **C46.**  With a timestep between 0 and the timescale, every value stays between the old value
and the reference. -/
theorem C46_between (q r q' : Quantity α) (τ dt : α) (hτ : 0 < τ) (h0 : 0 ≤ dt) (h1 : dt ≤ τ)
    (N : Nudged q r q' τ dt) (idx : List Nat) (hi : InB q.data.shape idx) (hin : q.InCompute idx) :
    min (q.data.get idx) (r.data.get (refPoint q r idx)) ≤ q'.data.get idx ∧
    q'.data.get idx ≤ max (q.data.get idx) (r.data.get (refPoint q r idx)) := by
  rw [N.inside idx hi hin]
  generalize q.data.get idx = a
  generalize r.data.get (refPoint q r idx) = b
  have e : a + (b - a) / τ * dt = a + (b - a) * (dt / τ) := by
    rw [div_mul_eq_mul_div, mul_div_assoc]
  rw [e]
  have k0 : 0 ≤ dt / τ := div_nonneg h0 hτ.le
  have k1 : dt / τ ≤ 1 := (div_le_one hτ).2 h1
  generalize dt / τ = x at k0 k1
  rcases le_total a b with hab | hab
  · rw [min_eq_left hab, max_eq_right hab]
    constructor <;> nlinarith
  · rw [min_eq_right hab, max_eq_left hab]
    constructor <;> nlinarith

/-- **C46.**  With a timestep below the timescale the difference shrinks by the factor
`1 - timestep/timescale`. -/
theorem C46_contracts (q r q' : Quantity α) (τ dt : α) (hτ : τ ≠ 0)
    (N : Nudged q r q' τ dt) (idx : List Nat) (hi : InB q.data.shape idx) (hin : q.InCompute idx) :
    r.data.get (refPoint q r idx) - q'.data.get idx
      = (1 - dt / τ) * (r.data.get (refPoint q r idx) - q.data.get idx) := by
  rw [N.inside idx hi hin]
  field_simp
  ring
end

/-! ### an example -/

def exQ : Quantity ℚ := ⟨⟨[4], fun i => i.getD 0 0⟩, [.x], "K", [1], [2]⟩
def exR : Quantity ℚ := ⟨⟨[2], fun _ => 10⟩, [.x], "K", [0], [2]⟩

theorem ex_matches : Matches exQ exR :=
  ⟨⟨⟨rfl, rfl, rfl⟩, by decide⟩, ⟨⟨rfl, rfl, rfl⟩, by decide⟩, by decide, rfl⟩

/-- The hypotheses of `C46_nudge` are met, and the halo is not touched. -/
example : ∃ s' ts q', applyNudging [("T", exQ), ("p", exR)] [("T", exR)] [("T", 4)] 2 = (s', .ok ts) ∧
    Dict.get? s' "T" = some q' ∧ q'.data.get [0] = 0 ∧ q'.data.get [1] = 11 / 2 ∧ q'.data.get [2] = 6 ∧
    q'.data.get [3] = 3 ∧ Dict.get? s' "p" = some exR := by
  obtain ⟨s', ts, e, _, _, h⟩ := C46_nudge [("T", exQ), ("p", exR)] [("T", exR)] [("T", 4)] 2
    (by decide) (by
      intro name τ hτ
      simp only [Dict.get?] at hτ
      split at hτ
      · rename_i hn; subst hn
        exact ⟨exQ, exR, rfl, rfl, ex_matches⟩
      · cases hτ)
  obtain ⟨q, r, q', h1, h2, h3, N⟩ := (h "T").2 4 rfl
  cases h1; cases h2
  refine ⟨s', ts, q', e, h3, ?_, ?_, ?_, ?_, (h "p").1 rfl⟩
  · rw [N.outside [0] (by decide) (by unfold Quantity.InCompute Quantity.InDom; decide)]; rfl
  · rw [N.inside [1] (by decide) (by unfold Quantity.InCompute Quantity.InDom; decide)]
    show (1 : ℚ) + (10 - 1) / 4 * 2 = 11 / 2
    norm_num
  · rw [N.inside [2] (by decide) (by unfold Quantity.InCompute Quantity.InDom; decide)]
    show (2 : ℚ) + (10 - 2) / 4 * 2 = 6
    norm_num
  · rw [N.outside [3] (by decide) (by unfold Quantity.InCompute Quantity.InDom; decide)]; rfl

end FV3.Nudge
