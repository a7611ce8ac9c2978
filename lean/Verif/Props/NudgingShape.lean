import Verif.Props.Nudging

/-!
# C46 References of another shape
-/

namespace FV3

/-! ### shapes that are broadcast together -/

theorem broadcastRev_some : ∀ s t u : List Nat, broadcastRev s t = some u →
    u.length = max s.length t.length ∧ ∀ k, (s.getD k 1 = u.getD k 1 ∨ s.getD k 1 = 1) ∧
      (t.getD k 1 = u.getD k 1 ∨ t.getD k 1 = 1)
  | [], t, u, h => by
    simp only [broadcastRev, Option.some.injEq] at h
    subst h
    exact ⟨by simp, fun k => ⟨.inr (by simp), .inl rfl⟩⟩
  | m :: s, [], u, h => by
    simp only [broadcastRev, Option.some.injEq] at h
    subst h
    exact ⟨by simp, fun k => ⟨.inl rfl, .inr (by simp)⟩⟩
  | m :: s, n :: t, u, h => by
    have key : ∀ x w, (broadcastRev s t) = some w → u = x :: w → (m = x ∨ m = 1) → (n = x ∨ n = 1) →
        u.length = max (m :: s).length (n :: t).length ∧
        ∀ k, ((m :: s).getD k 1 = u.getD k 1 ∨ (m :: s).getD k 1 = 1) ∧
          ((n :: t).getD k 1 = u.getD k 1 ∨ (n :: t).getD k 1 = 1) := by
      intro x w hw hu h1 h2
      obtain ⟨e1, e2⟩ := broadcastRev_some s t w hw
      subst hu
      refine ⟨by simp only [List.length_cons]; omega, fun k => ?_⟩
      cases k with
      | zero => exact ⟨h1, h2⟩
      | succ k => exact e2 k
    simp only [broadcastRev] at h
    split at h
    · next e =>
      obtain ⟨w, hw, hu⟩ := Option.map_eq_some_iff.1 h
      exact key m w hw hu.symm (.inl rfl) (.inl e.symm)
    · split at h
      · next e =>
        obtain ⟨w, hw, hu⟩ := Option.map_eq_some_iff.1 h
        exact key n w hw hu.symm (.inr e) (.inl rfl)
      · split at h
        · next e =>
          obtain ⟨w, hw, hu⟩ := Option.map_eq_some_iff.1 h
          exact key m w hw hu.symm (.inl rfl) (.inr e)
        · cases h

theorem broadcastRev_into : ∀ s t : List Nat, s.length ≤ t.length →
    (∀ k, s.getD k 1 = t.getD k 1 ∨ s.getD k 1 = 1) → broadcastRev s t = some t ∧ broadcastRev t s = some t
  | [], t, _, _ => ⟨rfl, by cases t <;> rfl⟩
  | m :: s, [], h, _ => absurd h (by simp)
  | m :: s, n :: t, h, hk => by
    obtain ⟨e1, e2⟩ := broadcastRev_into s t (by simpa using h) (fun k => hk (k + 1))
    have h0 : m = n ∨ m = 1 := hk 0
    simp only [broadcastRev, e1, e2, Option.map_some]
    by_cases e : m = n
    · subst e; simp
    · have e' : ¬ n = m := fun h => e h.symm
      have h1 : m = 1 := h0.resolve_left e
      simp only [if_neg e, if_neg e', if_pos h1, true_and]
      split
      · next hn => omega
      · rfl

theorem broadcastShape_some {s t u : List Nat} (h : broadcastShape s t = some u) :
    u.length = max s.length t.length ∧ Broadcastable s u ∧ Broadcastable t u := by
  unfold broadcastShape at h
  obtain ⟨w, hw, rfl⟩ := Option.map_eq_some_iff.1 h
  obtain ⟨h1, h2⟩ := broadcastRev_some _ _ _ hw
  refine ⟨by simpa using h1, fun k => ?_, fun k => ?_⟩
  · unfold axisFromEnd
    rw [List.reverse_reverse]
    exact (h2 k).1
  · unfold axisFromEnd
    rw [List.reverse_reverse]
    exact (h2 k).2

theorem broadcastShape_into {s t : List Nat} (hl : s.length ≤ t.length) (h : Broadcastable s t) :
    broadcastShape s t = some t ∧ broadcastShape t s = some t := by
  obtain ⟨h1, h2⟩ := broadcastRev_into s.reverse t.reverse (by simpa using hl) h
  unfold broadcastShape
  rw [h1, h2]
  simp

theorem Broadcastable.trans {s t u : List Nat} (h1 : Broadcastable s t) (h2 : Broadcastable t u) : Broadcastable s u := by
  intro k
  rcases h1 k with a | a <;> rcases h2 k with b | b
  · exact .inl (a.trans b)
  · exact .inr (a.trans b)
  · exact .inr a
  · exact .inr a

theorem Dict.set_same {K V : Type} [DecidableEq K] {d : Dict K V} {k : K} {v : V} (h : d.get? k = some v) : d.set k v = d := by
  induction d with
  | nil => cases h
  | cons p d ih =>
    obtain ⟨k', v'⟩ := p
    simp only [Dict.get?] at h
    simp only [Dict.set]
    split at h
    · next e => cases h; rw [if_pos e]
    · next e => rw [if_neg e, ih h]

namespace Nudge
variable {α : Type}

/-- `view[:]` is the compute domain, also without axes. -/
theorem view_all_any (r : Quantity α) (hr : r.WF) : ∃ w, r.viewGet all = .ok w ∧ w.shape = r.extent.map Int.toNat ∧
    ∀ i, InB w.shape i → w.get i = r.data.get (absIdx r.origin i) := by
  by_cases hp : 0 < r.ndim
  · exact C29_view_all r hr hp
  · have ho : r.origin = [] := List.length_eq_zero_iff.1 (by rw [hr.origin]; omega)
    have he : r.extent = [] := List.length_eq_zero_iff.1 (by rw [hr.extent]; omega)
    have hs : r.data.shape = [] := List.length_eq_zero_iff.1 (by rw [hr.shape]; omega)
    refine ⟨r.data, ?_, by rw [hs, he]; rfl, ?_⟩
    · unfold Quantity.viewGet
      rw [if_pos (by rw [ho]; rfl)]
      rfl
    · intro i hi
      rw [hs] at hi
      cases i with
      | nil => rw [ho]; rfl
      | cons _ _ => exact absurd hi id

/-- A quantity without halo. -/
theorem mk?_plain (d : NDArray α) (dims : List Dim) (units : String) :
    (dims.length ≠ d.shape.length → Quantity.mk? d dims units none none = .error .valueError) ∧
    (dims.length = d.shape.length → ∃ t, Quantity.mk? d dims units none none = .ok t ∧ t.WF ∧ t.data = d ∧ t.dims = dims ∧
      t.extent.map Int.toNat = d.shape ∧ t.units = units ∧ (∀ i, i.length = d.shape.length → absIdx t.origin i = i) ∧
      t.origin = List.replicate dims.length 0) := by
  refine ⟨fun h => ?_, fun h => ?_⟩
  · unfold Quantity.mk? validateLengths
    dsimp only
    rw [if_pos h]
    rfl
  · have hE : List.zipWith (fun (length : Nat) (start : Int) => (length : Int) - start) d.shape
        (List.replicate dims.length 0) = d.shape.map fun n : Nat => (n : Int) := by rw [h, zipWith_zero]
    refine ⟨⟨d, dims, units, List.replicate dims.length 0, d.shape.map fun n : Nat => (n : Int)⟩, ?_, ?_, rfl, rfl, ?_, rfl, ?_, rfl⟩
    · unfold Quantity.mk? validateLengths
      dsimp only [Option.getD_none]
      rw [hE, if_neg (not_not.2 h), if_neg (not_not.2 (by rw [List.length_replicate, h])),
        if_neg (not_not.2 (by rw [List.length_map]))]
      rfl
    · refine ⟨⟨h.symm, by simp [Quantity.ndim], by simp [Quantity.ndim, h]⟩, fun k hk => ?_⟩
      have hk' : k < d.shape.length := by rw [← h]; exact hk
      have ho : Quantity.o (⟨d, dims, units, List.replicate dims.length 0, d.shape.map fun n : Nat => (n : Int)⟩ : Quantity α) k = 0 := by
        unfold Quantity.o
        rw [getD_lt _ (by rw [List.length_replicate]; exact hk), List.getElem_replicate]
      have he : Quantity.e (⟨d, dims, units, List.replicate dims.length 0, d.shape.map fun n : Nat => (n : Int)⟩ : Quantity α) k
          = (d.shape[k] : Int) := by
        unfold Quantity.e
        rw [getD_lt _ (by rw [List.length_map]; exact hk'), List.getElem_map]
      have hn : Quantity.n (⟨d, dims, units, List.replicate dims.length 0, d.shape.map fun n : Nat => (n : Int)⟩ : Quantity α) k
          = (d.shape[k] : Int) := by
        unfold Quantity.n
        rw [getD_lt _ hk']
      rw [ho, he, hn]
      omega
    · show (d.shape.map fun n : Nat => (n : Int)).map Int.toNat = d.shape
      rw [List.map_map]
      exact List.map_id'' (fun n => by simp) _
    · intro i hi
      show absIdx (List.replicate dims.length 0) i = i
      apply ext_getD 0 (by unfold absIdx; rw [length_tab, List.length_replicate, h, hi])
      intro k hk
      unfold absIdx at hk ⊢
      rw [length_tab] at hk
      rw [getD_tab _ _ hk, getD_lt (0 : Int) hk, List.getElem_replicate]
      omega

/-- The reference, broadcast to the shape of the variable: same compute domain as the variable, no halo. -/
def stretched (q r : Quantity α) : Quantity α :=
  ⟨r.computeArr.stretch (q.extent.map Int.toNat), q.dims, r.units, List.replicate q.ndim 0, q.extent⟩

/-- The references of a state, broadcast. -/
def stretchedRefs (s ref : State α) (τs : Dict String α) : State α :=
  τs.filterMap fun x => match Dict.get? s x.1, Dict.get? ref x.1 with
    | some q, some r => some (x.1, stretched q r)
    | _, _ => none

/-- A reference that can be broadcast to the compute domain of the variable. -/
structure Fitting (q r : Quantity α) : Prop where
  wf : q.WF
  ref : r.WF
  axes : 0 < q.ndim
  ndim : r.ndim ≤ q.ndim
  shape : Broadcastable (r.extent.map Int.toNat) (q.extent.map Int.toNat)

theorem absIdx_zeros (n : Nat) (i : List Nat) (h : i.length = n) : absIdx (List.replicate n 0) i = i := by
  apply ext_getD 0 (by unfold absIdx; rw [length_tab, List.length_replicate, h])
  intro k hk
  unfold absIdx at hk ⊢
  rw [length_tab] at hk
  rw [getD_tab _ _ hk, getD_lt (0 : Int) hk, List.getElem_replicate]
  omega

theorem stretched_computeArr {q r : Quantity α} (F : Fitting q r) :
    IsBroadcast r.computeArr (q.extent.map Int.toNat) (stretched q r).computeArr := by
  have B := stretch_spec (v := r.computeArr) (show Broadcastable r.computeArr.shape (q.extent.map Int.toNat) from F.shape)
  refine ⟨rfl, fun idx hi => ?_⟩
  obtain ⟨place, h1, h2, h3⟩ := B.get idx hi
  refine ⟨place, h1, ?_, h3⟩
  rw [← h2]
  show (r.computeArr.stretch _).get (absIdx (List.replicate q.ndim 0) idx) = _
  rw [absIdx_zeros _ _ (by rw [((inB_iff _ _).1 hi).1, List.length_map, F.wf.extent])]

theorem stretched_matches {q r : Quantity α} (F : Fitting q r) : Matches q (stretched q r) := by
  have hs : (stretched q r).data.shape = q.extent.map Int.toNat :=
    (stretch_spec (v := r.computeArr) (show Broadcastable r.computeArr.shape (q.extent.map Int.toNat) from F.shape)).shape
  refine ⟨F.wf, ⟨⟨?_, ?_, ?_⟩, ?_⟩, F.axes, rfl⟩
  · rw [hs, List.length_map, F.wf.extent]; rfl
  · exact List.length_replicate ..
  · exact F.wf.extent
  · intro k hk
    have hk : k < q.ndim := hk
    have h := F.wf.inside k hk
    have he : (stretched q r).e k = q.e k := rfl
    have ho : (stretched q r).o k = 0 := by
      unfold Quantity.o stretched
      rw [getD_lt _ (by rw [List.length_replicate]; exact hk), List.getElem_replicate]
    have hnk : (stretched q r).n k = q.e k := by
      have hk' : k < q.extent.length := by rw [F.wf.extent]; exact hk
      unfold Quantity.n
      rw [hs, getD_lt _ (by rw [List.length_map]; exact hk'), List.getElem_map]
      have := h.2.1
      unfold Quantity.e at this ⊢
      rw [getD_lt _ hk'] at this ⊢
      omega
    rw [he, ho, hnk]
    omega

theorem get?_stretchedRefs (s ref : State α) {name : String} {q r : Quantity α} (hq : Dict.get? s name = some q)
    (hr : Dict.get? ref name = some r) : ∀ (τs : Dict String α) {τ : α}, Dict.get? τs name = some τ →
    Dict.get? (stretchedRefs s ref τs) name = some (stretched q r)
  | [], _, h => by cases h
  | (k, v) :: rest, τ, h => by
    unfold stretchedRefs
    rw [List.filterMap_cons]
    by_cases hk : name = k
    · subst hk
      simp only [hq, hr]
      simp [Dict.get?]
    · simp only [Dict.get?, if_neg hk] at h
      have ih := get?_stretchedRefs s ref hq hr rest h
      unfold stretchedRefs at ih
      dsimp only
      split
      · exact ih
      · next hx =>
        split at hx
        · cases hx
          simp only [Dict.get?, if_neg hk]
          exact ih
        · cases hx

section
variable [Add α] [Sub α] [Mul α] [Div α]

/-- **C46, references of another shape.**  Let a variable with axes and its reference have compute domains of any
shapes.  If the one of the reference has not more axes and can be broadcast to that of the variable, the variable is nudged
towards the broadcast reference, without an exception.  Otherwise ValueError is raised and nothing is modified. -/
theorem C46_reference_shape (s ref : State α) (name : String) (τ dt : α) (q r : Quantity α)
    (hq : Dict.get? s name = some q) (hr : Dict.get? ref name = some r) (wq : q.WF) (wr : r.WF) (hpos : 0 < q.ndim) :
    (r.ndim ≤ q.ndim → Broadcastable (r.extent.map Int.toNat) (q.extent.map Int.toNat) →
      ∃ q' t, applyNudging s ref [(name, τ)] dt = (Dict.set s name q', .ok [(name, t)]) ∧ SameMeta q q' ∧
        (∃ b, IsBroadcast r.computeArr (q.extent.map Int.toNat) b ∧ ∀ idx, InB q.data.shape idx → q.InCompute idx →
          q'.data.get idx = q.data.get idx + (b.get (relIdx q.origin idx) - q.data.get idx) / τ * dt) ∧
        ∀ idx, InB q.data.shape idx → ¬ q.InCompute idx → q'.data.get idx = q.data.get idx) ∧
    (¬ (r.ndim ≤ q.ndim ∧ Broadcastable (r.extent.map Int.toNat) (q.extent.map Int.toNat)) →
      applyNudging s ref [(name, τ)] dt = (s, .error .valueError)) := by
  obtain ⟨v, hv, hvs, hvg⟩ := view_all_any q wq
  obtain ⟨w, hw, hws, hwg⟩ := view_all_any r wr
  have hvl : v.shape.length = q.ndim := by rw [hvs, List.length_map, wq.extent]
  have hwl : w.shape.length = r.ndim := by rw [hws, List.length_map, wr.extent]
  have ho : ¬ q.origin.length = 0 := by rw [wq.origin]; omega
  have hT : ∀ sh, broadcastShape w.shape v.shape = some sh → tendencyOf q r τ =
      Quantity.mk? ⟨sh, fun i => ((w.stretch sh).get i - (v.stretch sh).get i) / τ⟩ q.dims (q.units ++ " s^-1") none none := by
    intro sh h
    unfold tendencyOf
    rw [hw, hv]
    simp only [bind, Except.bind, h]
  refine ⟨fun hl hb => ?_, fun hn => ?_⟩
  · rw [← hws, ← hvs] at hb
    have hsh := broadcastShape_into (by rw [hwl, hvl]; exact hl) hb
    obtain ⟨t, ht, tw, td, tdim, te, -, ta, -⟩ := (mk?_plain (⟨v.shape, fun i => ((w.stretch v.shape).get i -
      (v.stretch v.shape).get i) / τ⟩ : NDArray α) q.dims (q.units ++ " s^-1")).2 hvl.symm
    rw [← hT _ hsh.1] at ht
    obtain ⟨u, hu, hus, hug⟩ := view_all_any t tw
    have hus' : u.shape = v.shape := by rw [hus, te]
    obtain ⟨q', hq', h1, h2, h3, h4, h5, h6⟩ := viewSet_all q wq hpos
      ⟨v.shape, fun i => v.get i + u.get i * dt⟩ hvs
    have hadd : addTo q t dt = (q', none) := by
      unfold addTo
      rw [hv, hu]
      dsimp only
      rw [hus', broadcastShape_self, if_pos rfl, NDArray.stretch_of hus', if_neg ho, hq']
    refine ⟨q', t, ?_, ⟨h1, h2, h3, h4, h5⟩, ⟨w.stretch v.shape, ?_, ?_⟩, fun idx hi hout => (h6 idx hi).2 hout⟩
    · unfold applyNudging
      simp only [getTendencies, hq, hr, ht, bind, Except.bind, pure, Except.pure, applyTendencies, hadd]
    · have B := stretch_spec hb
      refine ⟨by rw [B.shape, hvs], fun idx hi => ?_⟩
      obtain ⟨place, p1, p2, p3⟩ := B.get idx (by rw [hvs]; exact hi)
      rw [hws] at p3
      refine ⟨place, by rw [hws] at p1; exact p1, ?_, p3⟩
      rw [p2, hwg _ p1]
      rfl
    · intro idx hi hin
      rw [(h6 idx hi).1 hin]
      have hrel := relIn q wq idx hin
      show v.get _ + u.get _ * dt = _
      have hrel' : InB v.shape (relIdx q.origin idx) := by rw [hvs]; exact hrel
      rw [hug _ (by rw [hus']; exact hrel'), ta _ ((inB_iff _ _).1 hrel').1, td]
      show v.get _ + ((w.stretch v.shape).get _ - (v.stretch v.shape).get _) / τ * dt = _
      rw [NDArray.stretch_self, hvg _ hrel', absRel q wq idx hin]
  · have herr : ∀ e, tendencyOf q r τ = .error e → applyNudging s ref [(name, τ)] dt = (s, .error e) := by
      intro e he
      unfold applyNudging
      simp only [getTendencies, hq, hr, he, bind, Except.bind]
    cases hsh : broadcastShape w.shape v.shape with
    | none =>
      apply herr
      unfold tendencyOf
      rw [hw, hv]
      simp only [bind, Except.bind, hsh]
    | some sh =>
      obtain ⟨b1, b2, b3⟩ := broadcastShape_some hsh
      by_cases hlen : q.dims.length = sh.length
      · obtain ⟨t, ht, tw, td, tdim, te, -, ta, -⟩ := (mk?_plain (⟨sh, fun i => ((w.stretch sh).get i -
          (v.stretch sh).get i) / τ⟩ : NDArray α) q.dims (q.units ++ " s^-1")).2 hlen
        rw [← hT _ hsh] at ht
        obtain ⟨u, hu, hus, hug⟩ := view_all_any t tw
        have hus' : u.shape = sh := by rw [hus, te]
        have hne : ¬ broadcastShape v.shape u.shape = some v.shape := by
          intro h
          obtain ⟨-, -, c3⟩ := broadcastShape_some h
          rw [hus'] at c3
          refine hn ⟨?_, ?_⟩
          · rw [← hwl]
            have : sh.length = q.ndim := hlen.symm
            omega
          · rw [← hws, ← hvs]
            exact b2.trans c3
        have hadd : addTo q t dt = (q, some .valueError) := by
          unfold addTo
          rw [hv, hu]
          dsimp only
          rw [if_neg hne]
        unfold applyNudging
        simp only [getTendencies, hq, hr, ht, bind, Except.bind, pure, Except.pure, applyTendencies, hadd]
        rw [Dict.set_same hq]
      · apply herr
        rw [hT _ hsh]
        exact (mk?_plain _ _ _).1 hlen

theorem tendencyOf_fitting {q r : Quantity α} (F : Fitting q r) (τ : α) :
    ∃ t, tendencyOf q r τ = .ok t ∧ IsTendency q (stretched q r) t τ := by
  obtain ⟨v, hv, hvs, hvg⟩ := view_all_any q F.wf
  obtain ⟨w, hw, hws, hwg⟩ := view_all_any r F.ref
  have hvl : v.shape.length = q.ndim := by rw [hvs, List.length_map, F.wf.extent]
  have hwl : w.shape.length = r.ndim := by rw [hws, List.length_map, F.ref.extent]
  have hb : Broadcastable w.shape v.shape := by rw [hws, hvs]; exact F.shape
  have hsh := broadcastShape_into (by rw [hwl, hvl]; exact F.ndim) hb
  obtain ⟨t, ht, tw, td, tdim, te, tu, ta, tor⟩ := (mk?_plain (⟨v.shape, fun i => ((w.stretch v.shape).get i -
    (v.stretch v.shape).get i) / τ⟩ : NDArray α) q.dims (q.units ++ " s^-1")).2 hvl.symm
  have hT : tendencyOf q r τ = .ok t := by
    rw [← ht]
    unfold tendencyOf
    rw [hw, hv]
    simp only [bind, Except.bind, hsh.1]
  refine ⟨t, hT, tdim, tu, by rw [td]; exact hvs, tor, ?_, fun idx hi hin => ?_⟩
  · rw [← toNat_back t tw, te]
    show v.shape.map _ = _
    rw [hvs, toNat_back q F.wf]
  · have hrel := relIn q F.wf idx hin
    have hrel' : InB v.shape (relIdx q.origin idx) := by rw [hvs]; exact hrel
    rw [td]
    show ((w.stretch v.shape).get _ - (v.stretch v.shape).get _) / τ = _
    rw [NDArray.stretch_self, hvg _ hrel', absRel q F.wf idx hin]
    congr 2
    have hlen : (relIdx q.origin idx).length = q.ndim := by
      rw [((inB_iff _ _).1 hrel').1, hvl]
    show _ = (stretched q r).data.get (absIdx (List.replicate q.ndim 0) (relIdx q.origin idx))
    rw [absIdx_zeros _ _ hlen]
    show _ = (r.computeArr.stretch (q.extent.map Int.toNat)).get _
    obtain ⟨p1, h1, h2, h3⟩ := (stretch_spec hb).get _ hrel'
    obtain ⟨p2, k1, k2, k3⟩ := (stretch_spec (v := r.computeArr)
      (show Broadcastable r.computeArr.shape (q.extent.map Int.toNat) from F.shape)).get _ hrel
    have hp : p1 = p2 := by
      have l1 : p1.length = w.shape.length := ((inB_iff _ _).1 h1).1
      have l2 : p2.length = r.computeArr.shape.length := ((inB_iff _ _).1 k1).1
      have l3 : r.computeArr.shape = w.shape := by rw [hws]; rfl
      rw [l3] at l2 k3
      have hrev : p1.reverse = p2.reverse := by
        apply ext_getD 0 (by simp [l1, l2])
        intro k hk
        have hk' : k < w.shape.length := by simpa [l1] using hk
        have := (h3 k hk').trans (k3 k hk').symm
        exact this
      exact List.reverse_injective hrev
    rw [h2, k2, hwg _ h1, hp]
    rfl

theorem getTendencies_fitting (s ref ref' : State α) (τs : Dict String α) (hnd : (Dict.keys τs).Nodup)
    (H : ∀ name τ, Dict.get? τs name = some τ → ∃ q r, Dict.get? s name = some q ∧
      Dict.get? ref name = some r ∧ Fitting q r ∧ Dict.get? ref' name = some (stretched q r)) :
    ∃ ts, getTendencies s ref τs = .ok ts ∧ AreTendencies s ref' τs ts := by
  induction τs with
  | nil => exact ⟨[], rfl, rfl, fun name τ h => by cases h⟩
  | cons p rest ih =>
    obtain ⟨name, τ⟩ := p
    have hnd' : name ∉ Dict.keys rest ∧ (Dict.keys rest).Nodup := by
      simpa [Dict.keys] using hnd
    obtain ⟨q, r, hq, hr, M, hr'⟩ := H name τ (by simp [Dict.get?])
    have hne : ∀ n' τ', Dict.get? rest n' = some τ' → n' ≠ name := by
      rintro n' τ' h rfl
      exact hnd'.1 ((Dict.mem_keys_iff rest n').2 ⟨τ', h⟩)
    obtain ⟨ts, e, hk, hts⟩ := ih hnd'.2 (fun n' τ' h => H n' τ' (by
      simp only [Dict.get?, if_neg (hne n' τ' h)]; exact h))
    obtain ⟨t, et, T⟩ := tendencyOf_fitting M τ
    refine ⟨(name, t) :: ts, ?_, ?_, ?_⟩
    · simp only [getTendencies, hq, hr, et, e, bind, Except.bind, pure, Except.pure]
    · simp only [Dict.keys, List.map_cons] at hk ⊢
      rw [hk]
    · intro n' τ' h
      by_cases hn : n' = name
      · subst hn
        simp only [Dict.get?, if_true] at h
        cases h
        exact ⟨q, _, t, hq, hr', by simp [Dict.get?], T⟩
      · simp only [Dict.get?, if_neg hn] at h ⊢
        exact hts n' τ' h

/-- **C46, references that are broadcast.**  If the compute domain of every reference can be broadcast to that of its
variable, nudging succeeds, and its effect is that of nudging towards the broadcast references `ref'` (with `C46_nudge`
for its values; `C46_reaches`, `C46_between` and the other theorems about `Nudged` apply). -/
theorem C46_broadcast (s ref : State α) (τs : Dict String α) (dt : α) (hnd : (Dict.keys τs).Nodup)
    (H : ∀ name τ, Dict.get? τs name = some τ → ∃ q r, Dict.get? s name = some q ∧
      Dict.get? ref name = some r ∧ Fitting q r) :
    ∃ (ref' : State α) (s' : State α) (ts : _), applyNudging s ref τs dt = (s', .ok ts) ∧
      (∀ name τ, Dict.get? τs name = some τ → ∃ q r r', Dict.get? s name = some q ∧ Dict.get? ref name = some r ∧
        Dict.get? ref' name = some r' ∧ Matches q r' ∧
        IsBroadcast r.computeArr (q.extent.map Int.toNat) r'.computeArr) ∧
      AreTendencies s ref' τs ts ∧ Dict.keys s' = Dict.keys s ∧
      ∀ name, (Dict.get? τs name = none → Dict.get? s' name = Dict.get? s name) ∧
        (∀ τ, Dict.get? τs name = some τ → ∃ q r' q', Dict.get? s name = some q ∧
          Dict.get? ref' name = some r' ∧ Dict.get? s' name = some q' ∧ Nudged q r' q' τ dt) := by
  have H' : ∀ name τ, Dict.get? τs name = some τ → ∃ q r, Dict.get? s name = some q ∧
      Dict.get? ref name = some r ∧ Fitting q r ∧ Dict.get? (stretchedRefs s ref τs) name = some (stretched q r) := by
    intro name τ h
    obtain ⟨q, r, hq, hr, F⟩ := H name τ h
    exact ⟨q, r, hq, hr, F, get?_stretchedRefs s ref hq hr τs h⟩
  obtain ⟨ts, e, A⟩ := getTendencies_fitting s ref _ τs hnd H'
  have hiff : ∀ name, Dict.get? ts name = none ↔ Dict.get? τs name = none := by
    intro name
    rw [Dict.get?_eq_none_iff, Dict.get?_eq_none_iff, A.1]
  obtain ⟨s', e', hk, hs'⟩ := applyTendencies_ok (stretchedRefs s ref τs) dt s τs (by
      intro name τ h
      obtain ⟨q, r, hq, hr, F, hr'⟩ := H' name τ h
      exact ⟨q, _, hq, hr', stretched_matches F⟩) ts (by rw [A.1]; exact hnd) s rfl (by
    intro name t h
    cases hτ : Dict.get? τs name with
    | none => rw [(hiff name).2 hτ] at h; cases h
    | some τ =>
      obtain ⟨q, r, t', h1, h2, h3, T⟩ := A.2 name τ hτ
      rw [h] at h3; cases h3
      exact ⟨q, r, τ, rfl, h1, h1, h2, T⟩)
  refine ⟨_, s', ts, ?_, fun name τ h => ?_, A, hk,
    fun name => ⟨fun h => (hs' name).1 ((hiff name).2 h), fun τ hτ => ?_⟩⟩
  · unfold applyNudging
    rw [e]
    dsimp only
    rw [e']
  · obtain ⟨q, r, hq, hr, F, hr'⟩ := H' name τ h
    exact ⟨q, r, _, hq, hr, hr', stretched_matches F, stretched_computeArr F⟩
  · cases ht : Dict.get? ts name with
    | none => rw [(hiff name).1 ht] at hτ; cases hτ
    | some t =>
      obtain ⟨q, r, τ', q', h1, h2⟩ := (hs' name).2 t ht
      rw [hτ] at h1; cases h1
      exact ⟨q, r, q', h2⟩

end

/-- A variable on 2×3 points and references on one row, on one column, and on 3 rows. -/
def exShape (shape : List Nat) (dims : List Dim) (f : List Nat → ℚ) : Quantity ℚ :=
  ⟨⟨shape, f⟩, dims, "K", shape.map fun _ => 0, shape.map fun n : Nat => (n : Int)⟩

/-- The elements of the variable afterwards, or the exception. -/
def exNudge (r : Quantity ℚ) : Option (List ℚ) × Option PyErr :=
  let x := applyNudging [("t", exShape [2, 3] [.y, .x] fun _ => 0)] [("t", r)] [("t", 2)] 1
  ((Dict.get? x.1 "t").map fun q => (allIdx q.data.shape).map q.data.get,
    match x.2 with | .ok _ => none | .error e => some e)

example : exNudge (exShape [3] [.x] fun i => 2 * i.getD 0 0) = (some [0, 1, 2, 0, 1, 2], none) ∧
    exNudge (exShape [2, 1] [.y, .x] fun i => 2 * i.getD 0 0) = (some [0, 0, 0, 1, 1, 1], none) ∧
    exNudge (exShape [3, 3] [.y, .x] fun i => 2 * i.getD 0 0) = (some [0, 0, 0, 0, 0, 0], some .valueError) ∧
    exNudge (exShape [2] [.x] fun i => 2 * i.getD 0 0) = (some [0, 0, 0, 0, 0, 0], some .valueError) := by
  decide +kernel

theorem exShape_wf : (exShape [2, 3] [.y, .x] fun _ => 0).WF ∧ (exShape [2, 1] [.y, .x] fun i => 2 * i.getD 0 0).WF :=
  ⟨⟨⟨rfl, rfl, rfl⟩, by unfold Quantity.ndim Quantity.o Quantity.e Quantity.n; decide⟩,
   ⟨⟨rfl, rfl, rfl⟩, by unfold Quantity.ndim Quantity.o Quantity.e Quantity.n; decide⟩⟩

example := (C46_reference_shape [("t", exShape [2, 3] [.y, .x] fun _ => 0)]
  [("t", exShape [2, 1] [.y, .x] fun i => 2 * i.getD 0 0)] "t" 2 1 _ _ rfl rfl exShape_wf.1 exShape_wf.2 (by decide)).1
  (by decide) ((fits_iff _ _).1 (by decide))

/-- The hypotheses of `C46_broadcast` can be met: a state with two variables, nudged towards a row and towards a column. -/
example : ∀ name τ, Dict.get? ([("t", 2), ("u", 3)] : Dict String ℚ) name = some τ → ∃ q r,
    Dict.get? ([("t", exShape [2, 3] [.y, .x] fun _ => 0), ("u", exShape [2, 3] [.y, .x] fun _ => 0)] : State ℚ) name = some q ∧
    Dict.get? ([("u", exShape [2, 1] [.y, .x] fun i => 2 * i.getD 0 0), ("t", exShape [3] [.x] fun _ => 1)] : State ℚ) name = some r ∧
    Fitting q r := by
  intro name τ h
  have hrow : (exShape [3] [.x] fun _ => 1).WF :=
    ⟨⟨rfl, rfl, rfl⟩, by unfold Quantity.ndim Quantity.o Quantity.e Quantity.n; decide⟩
  simp only [Dict.get?] at h
  split at h
  · next e => subst e; exact ⟨_, _, rfl, rfl, exShape_wf.1, hrow, by decide, by decide, (fits_iff _ _).1 (by decide)⟩
  · split at h
    · next e => subst e; exact ⟨_, _, rfl, rfl, exShape_wf.1, exShape_wf.2, by decide, by decide, (fits_iff _ _).1 (by decide)⟩
    · cases h

end Nudge
end FV3
