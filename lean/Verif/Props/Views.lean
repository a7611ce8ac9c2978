import Verif.Proofs.Broadcast
import Verif.Proofs.Views
import Verif.Props.Rotate
import Verif.Props.BoundarySlice

/-!
# C28, C29, C30: quantities and their views
-/

namespace FV3
variable {α : Type}

/-! ### C28 -/

/-- **C28**: a quantity is constructed exactly when dims, origin and extent (given or default)
have one entry per axis; otherwise ValueError.  The defaults are origin 0 and extent up to the
end of the array. -/
theorem C28_metadata (data : NDArray α) (dims : List Dim) (units : String)
    (origin extent : Option (List Int)) :
    (∀ q, Quantity.mk? data dims units origin extent = .ok q →
      q.data = data ∧ q.dims = dims ∧ q.units = units ∧ q.Lens ∧
      (∀ o, origin = some o → q.origin = o) ∧ (∀ e, extent = some e → q.extent = e) ∧
      (origin = none → ∀ k, k < q.ndim → q.o k = 0) ∧
      (extent = none → ∀ k, k < q.ndim → q.o k + q.e k = q.n k)) ∧
    (∀ e, Quantity.mk? data dims units origin extent = .error e → e = .valueError) ∧
    ((∃ q, Quantity.mk? data dims units origin extent = .ok q) ↔
      dims.length = data.shape.length ∧
      (∀ o, origin = some o → o.length = data.shape.length) ∧
      (∀ e, extent = some e → e.length = data.shape.length)) := by
  generalize ho : origin.getD (List.replicate dims.length 0) = o
  generalize hE : extent.getD (List.zipWith (fun (length : Nat) (start : Int) =>
    (length : Int) - start) data.shape o) = e
  have hdef : Quantity.mk? data dims units origin extent =
      if dims.length ≠ data.shape.length then .error .valueError
      else if o.length ≠ data.shape.length then .error .valueError
      else if e.length ≠ data.shape.length then .error .valueError
      else .ok ⟨data, dims, units, o, e⟩ := by
    unfold Quantity.mk? validateLengths
    rw [ho]
    dsimp only
    rw [hE]
    split <;> [rfl; split <;> [rfl; split <;> rfl]]
  rw [hdef]
  refine ⟨?_, ?_, ?_⟩
  · intro q hq
    split at hq <;> [cases hq; split at hq <;> [cases hq; split at hq <;> [cases hq; skip]]]
    rename_i h1 h2 h3
    simp only [ne_eq, Decidable.not_not] at h1 h2 h3
    cases hq
    refine ⟨rfl, rfl, rfl, ⟨h1.symm, by rw [h2, ← h1]; rfl, by rw [h3, ← h1]; rfl⟩, ?_, ?_, ?_, ?_⟩
    · rintro o' rfl; exact ho.symm
    · rintro e' rfl; exact hE.symm
    · rintro rfl k hk
      simp only [Option.getD_none] at ho
      subst ho
      have hk' : k < dims.length := hk
      show (List.replicate dims.length (0 : Int)).getD k 0 = 0
      rw [getD_lt _ (by simpa using hk')]
      simp
    · rintro rfl k hk
      simp only [Option.getD_none] at hE
      subst hE
      have hk' : k < dims.length := hk
      show o.getD k 0 + (List.zipWith (fun (length : Nat) (start : Int) => (length : Int) - start)
        data.shape o).getD k 0 = (data.shape.getD k 0 : Nat)
      rw [getD_lt _ (show k < o.length by omega), getD_lt _ (by omega),
        getD_lt _ (show k < data.shape.length by omega)]
      simp
  · intro x hx
    split at hx <;> [skip; split at hx <;> [skip; split at hx <;> [skip; cases hx]]] <;>
      (cases hx; rfl)
  · constructor
    · rintro ⟨q, hq⟩
      split at hq <;> [cases hq; split at hq <;> [cases hq; split at hq <;> [cases hq; skip]]]
      rename_i h1 h2 h3
      simp only [ne_eq, Decidable.not_not] at h1 h2 h3
      refine ⟨h1, ?_, ?_⟩
      · rintro o' rfl; rw [← h2, ← ho]; rfl
      · rintro e' rfl; rw [← h3, ← hE]; rfl
    · rintro ⟨h1, h2, h3⟩
      have ho' : o.length = data.shape.length := by
        cases origin with
        | none => rw [← ho]; simpa using h1
        | some o' => rw [← ho]; exact h2 o' rfl
      have he' : e.length = data.shape.length := by
        cases extent with
        | none => rw [← hE]; simp [ho']
        | some e' => rw [← hE]; exact h3 e' rfl
      exact ⟨_, by rw [if_neg (by simpa using h1), if_neg (by simpa using ho'),
        if_neg (by simpa using he')]⟩

example : (Quantity.mk? (⟨[4, 5], fun _ => 0⟩ : NDArray Nat) [.y, .x] "m" (some [1, 2]) none).map
    (fun q => (q.origin, q.extent)) = .ok ([1, 2], [3, 3]) := by decide +kernel
example : (Quantity.mk? (⟨[4, 5], fun _ => 0⟩ : NDArray Nat) [.y, .x] "m" (some [1, 2]) (some [1])).map
    (fun q => (q.origin, q.extent)) = .error .valueError := by decide +kernel

/-! ### C29 -/

/-- The index tuple of a view expression. -/
def VIdx.entries : VIdx → List Ix
  | .tuple l => l
  | .one i => [i]

theorem computeIndex_shifted (q : Quantity α) (hq : q.WF) (v : VIdx)
    (hl : v.entries.length ≤ q.ndim)
    (hp : ∀ k, k < v.entries.length → (v.entries.getD k (.int 0)).Plain (q.e k)) :
    ∃ jx rs ss, q.computeIndex v = .ok jx ∧
      resolveAll v.entries (q.extent.map Int.toNat) = .ok rs ∧
      resolveAll jx q.data.shape = .ok ss ∧ Shifted q.origin q.extent rs ss := by
  have e0 : q.computeIndex v = .ok (shiftEntries (fillIndex v.entries q.ndim) q.origin q.extent) := by
    unfold Quantity.computeIndex
    cases v <;> simp only [VIdx.entries] at hl ⊢ <;>
      rw [if_neg (by unfold Quantity.ndim at hl; omega), hq.shape]
  obtain ⟨rs, ss, h1, h2, h3⟩ := resolveAll_shift q.ndim (fillIndex v.entries q.ndim) q.origin
    q.extent q.data.shape (by simp [fillIndex]; omega) hq.origin hq.extent hq.shape hq.inside (by
      intro k hk
      by_cases h : k < v.entries.length
      · have := hp k h
        rw [getD_lt _ h] at this
        unfold fillIndex
        rw [getD_lt (Ix.int 0) (by rw [List.length_append, List.length_replicate]; omega), List.getElem_append_left h]
        exact this
      · unfold fillIndex
        rw [getD_lt (Ix.int 0) (by rw [List.length_append, List.length_replicate]; omega), List.getElem_append_right (by omega)]
        simp [Ix.Plain, PySlice.full])
  refine ⟨_, rs, ss, e0, ?_, h2, h3⟩
  have hlen : (q.extent.map Int.toNat).length = q.ndim := by rw [List.length_map, hq.extent]
  have := resolveAll_fill (q.extent.map Int.toNat) v.entries (by omega)
  rw [hlen] at this
  rw [← this]; exact h1

/-- **C29**: reading through `view` is numpy indexing of the compute domain, for indices
`0 <= i < extent` and slices with end points in `0..extent` (or omitted) and positive step. -/
theorem C29_view_reads_compute_domain (q : Quantity α) (hq : q.WF) (hpos : 0 < q.ndim) (v : VIdx)
    (hl : v.entries.length ≤ q.ndim)
    (hp : ∀ k, k < v.entries.length → (v.entries.getD k (.int 0)).Plain (q.e k)) :
    ∃ r, q.viewGet v = .ok r ∧ q.computeArr.getItem v.entries = .ok r := by
  obtain ⟨jx, rs, ss, h1, h2, h3, h4⟩ := computeIndex_shifted q hq v hl hp
  refine ⟨q.data.view ss, ?_, ?_⟩
  · unfold Quantity.viewGet
    rw [if_neg (by rw [hq.origin]; omega), h1]
    show (q.data.getItem jx) = _
    unfold NDArray.getItem
    rw [h3]; rfl
  · unfold NDArray.getItem Quantity.computeArr
    dsimp only
    rw [h2]
    show Except.ok _ = Except.ok _
    unfold NDArray.view
    rw [h4.viewShape_eq]
    congr 2
    funext rel
    dsimp only
    rw [h4.viewIdx_eq]

/-- **C29**: `view[:]` is exactly the compute domain. -/
theorem C29_view_all (q : Quantity α) (hq : q.WF) (hpos : 0 < q.ndim) :
    ∃ r, q.viewGet (.one (.slice .full)) = .ok r ∧ r.shape = q.extent.map Int.toNat ∧
      ∀ idx, InB r.shape idx → r.get idx = q.data.get (absIdx q.origin idx) := by
  obtain ⟨r, h1, h2⟩ := C29_view_reads_compute_domain q hq hpos (.one (.slice .full)) hpos (by
    intro k hk
    have : k = 0 := by simp [VIdx.entries] at hk; exact hk
    subst this
    simp [VIdx.entries, Ix.Plain, PySlice.full])
  refine ⟨r, h1, ?_⟩
  have hlen : (q.extent.map Int.toNat).length = q.ndim := by rw [List.length_map, hq.extent]
  have h3 : resolveAll [Ix.slice .full] (q.extent.map Int.toNat) =
      .ok (tab q.ndim fun k => .slice 0 1 ((q.extent.map Int.toNat).getD k 0)) := by
    rw [← resolveAll_fill _ _ (by simp only [List.length_cons, List.length_nil]; omega), hlen]
    have e : fillIndex [Ix.slice .full] q.ndim = tab q.ndim fun _ => Ix.slice .full := by
      apply ext_getD (Ix.int 0) (by simp [fillIndex]; omega)
      intro k hk
      have hk' : k < q.ndim := by simp [fillIndex] at hk; omega
      rw [getD_tab _ _ hk', getD_lt _ hk]
      unfold fillIndex
      cases k with
      | zero => rfl
      | succ k => simp
    rw [e]
    exact resolveAll_tab _ _ _ _ hlen (fun k _ => resolve_full _)
  unfold NDArray.getItem Quantity.computeArr at h2
  simp only [VIdx.entries, h3, bind, Except.bind] at h2
  cases h2
  simp only [NDArray.view, viewShape_slices, viewIdx_slices]
  refine ⟨?_, fun idx hi => ?_⟩
  · rw [← hlen]; exact (eq_tab 0 _).symm
  · rw [inB_tab] at hi
    congr 2
    apply ext_getD 0 (by simp [hi.1])
    intro k hk
    rw [length_tab] at hk
    rw [getD_tab _ _ hk]; omega

/-- **C29**: assigning through `view` is numpy assignment to the compute domain and changes
nothing outside it. -/
theorem C29_view_writes_compute_domain (q : Quantity α) (hq : q.WF) (v : VIdx)
    (hl : v.entries.length ≤ q.ndim)
    (hp : ∀ k, k < v.entries.length → (v.entries.getD k (.int 0)).Plain (q.e k))
    (value : NDArray α) :
    (∀ c, q.computeArr.setItem v.entries value = .ok c → ∃ q', q.viewSet v value = .ok q' ∧
      q'.dims = q.dims ∧ q'.units = q.units ∧ q'.origin = q.origin ∧ q'.extent = q.extent ∧
      q'.data.shape = q.data.shape ∧
      ∀ idx, InB q.data.shape idx →
        (q.InCompute idx → q'.data.get idx = c.get (relIdx q.origin idx)) ∧
        (¬ q.InCompute idx → q'.data.get idx = q.data.get idx)) ∧
    (∀ x, q.computeArr.setItem v.entries value = .error x → q.viewSet v value = .error x) := by
  obtain ⟨jx, rs, ss, h1, h2, h3, h4⟩ := computeIndex_shifted q hq v hl hp
  unfold NDArray.setItem Quantity.viewSet
  rw [show q.computeArr.shape = q.extent.map Int.toNat from rfl, h2, h1]
  simp only [bind, Except.bind, NDArray.setItem, h3, h4.viewShape_eq]
  constructor
  · intro c hc
    split at hc
    · rename_i hs
      cases hc
      rw [if_pos hs]
      refine ⟨_, rfl, rfl, rfl, rfl, rfl, rfl, fun idx hi => ?_⟩
      have hlen : idx.length = q.ndim := by
        rw [inB_iff] at hi; rw [hi.1, hq.shape]
      have hu := h4.unview_eq idx (by rw [hlen, hq.origin])
      rw [hq.origin] at hu
      have habs : q.InCompute idx → absIdx q.origin (relIdx q.origin idx) = idx := by
        intro hc
        apply ext_getD 0 (by simp [absIdx, hlen, hq.origin])
        intro k hk
        have hk' : k < q.ndim := by simpa [absIdx, hq.origin] using hk
        have hk2 : k < q.origin.length := by rw [hq.origin]; exact hk'
        unfold absIdx relIdx
        rw [getD_tab _ _ hk2, getD_tab _ _ hk2]
        have := hc.2 k hk'
        unfold Quantity.InDom Quantity.o at this
        unfold at' at this
        omega
      constructor
      · intro hin
        have hu' := hu.trans (if_pos hin.2)
        simp only [NDArray.assign, hu', Quantity.computeArr, habs hin]
      · intro hout
        have hu' := hu.trans (if_neg (fun h => hout ⟨hlen, h⟩))
        simp only [NDArray.assign, hu']
    · cases hc
  · intro x hx
    split at hx
    · cases hx
    · rename_i hs
      cases hx
      rw [if_neg hs]

/-- A one-dimensional quantity with one halo point on both sides. -/
def exV : Quantity Nat :=
  { data := ⟨[6], fun i => i.getD 0 0⟩, dims := [.x], units := "m", origin := [1], extent := [4] }

theorem exV_wf : exV.WF :=
  ⟨⟨rfl, rfl, rfl⟩, by unfold Quantity.ndim Quantity.o Quantity.e Quantity.n; decide⟩

/-- Shape and first elements of a 1-d result. -/
def show1 (r : Py (NDArray Nat)) : Py (List Nat × List Nat) :=
  r.map fun a => (a.shape, (List.range (a.shape.getD 0 0)).map fun i => a.get [i])

example := C29_view_reads_compute_domain exV exV_wf (by decide) (.one (.slice (.of 1 3)))
  (by decide) (by intro k hk; have : k = 0 := by simpa [VIdx.entries] using hk
                  subst this; simp [VIdx.entries, Ix.Plain, PySlice.of, Quantity.e, exV])
example : show1 (exV.viewGet (.one (.slice (.of 1 3)))) = .ok ([2], [2, 3]) := by decide +kernel
example : show1 (exV.viewGet (.one (.slice .full))) = .ok ([4], [1, 2, 3, 4]) := by decide +kernel

/-- **C29**, limits of the property: `view[1:-1]` is not "all but the edges" when there is a
halo (it is empty here), negative steps select nothing, an index just past the compute domain
reads the halo instead of raising, and too many indices raise AttributeError rather than
IndexError. -/
theorem C29_limits :
    show1 (exV.viewGet (.one (.slice (.of 1 (-1))))) = .ok ([0], []) ∧
    show1 (exV.computeArr.getItem [.slice (.of 1 (-1))]) = .ok ([2], [2, 3]) ∧
    show1 (exV.viewGet (.one (.slice ⟨none, none, some (-1)⟩))) = .ok ([0], []) ∧
    show1 (exV.computeArr.getItem [.slice ⟨none, none, some (-1)⟩]) = .ok ([4], [4, 3, 2, 1]) ∧
    (exV.viewGet (.one (.int 4))).map (fun a => a.get []) = .ok 5 ∧
    (exV.computeArr.getItem [.int 4]).map (fun a => a.get []) = .error .indexError ∧
    (∀ (q : Quantity α) (v : VIdx), 0 < q.ndim → q.Lens → q.ndim < v.entries.length →
      q.viewGet v = .error .attributeError) := by
  refine ⟨by decide +kernel, by decide +kernel, by decide +kernel, by decide +kernel,
    by decide +kernel, by decide +kernel, ?_⟩
  intro q v h1 h2 h3
  unfold Quantity.viewGet
  rw [if_neg (by rw [h2.origin]; omega)]
  have : q.computeIndex v = .error .attributeError := by
    unfold Quantity.computeIndex
    cases v <;> exact if_pos h3
  rw [this]; rfl

/-- **C29**, quantities without axes: `view[()]`, `view[:]` and (unlike numpy) any integer give the data; other slices and
non-empty tuples raise IndexError.  `view[()]` can be assigned to, anything else raises AttributeError.  The same holds
for the corner views as far as reading is concerned. -/
theorem C29_scalar (q : Quantity α) (hq : q.Lens) (h0 : q.ndim = 0) (c : Corner) :
    (∀ v, v = .tuple [] ∨ v = .one (.slice .full) ∨ (∃ i, v = .one (.int i)) →
      q.viewGet v = .ok q.data ∧ q.cornerGet c v = .ok q.data) ∧
    (∀ v, (∃ i l, v = .tuple (i :: l)) ∨ (∃ s, s ≠ .full ∧ v = .one (.slice s)) →
      q.viewGet v = .error .indexError ∧ q.cornerGet c v = .error .indexError) ∧
    (∀ x : NDArray α, x.shape = [] → ∃ d, q.viewSet (.tuple []) x = .ok { q with data := d } ∧ d.shape = [] ∧ d.get [] = x.get []) ∧
    (∀ (v : VIdx) (x : NDArray α), v ≠ .tuple [] → q.viewSet v x = .error .attributeError) := by
  have ho : q.origin.length = 0 := by rw [hq.origin]; exact h0
  have hd : q.dims.length = 0 := h0
  have hs : q.data.shape = [] := List.length_eq_zero_iff.1 (by rw [hq.shape]; exact h0)
  have hv : ∀ v, q.viewGet v = Quantity.zeroDimGet q.data v := fun v => by unfold Quantity.viewGet; rw [if_pos ho]
  have hc : ∀ v, q.cornerGet c v = Quantity.zeroDimGet q.data v := fun v => by unfold Quantity.cornerGet; rw [if_pos ho]
  refine ⟨?_, ?_, ?_, ?_⟩
  · rintro v (rfl | rfl | ⟨i, rfl⟩) <;> rw [hv, hc] <;> exact ⟨rfl, rfl⟩
  · rintro v (⟨i, l, rfl⟩ | ⟨s, hsl, rfl⟩) <;> rw [hv, hc]
    · exact ⟨rfl, rfl⟩
    · have : Quantity.zeroDimGet q.data (.one (.slice s)) = .error .indexError := if_neg hsl
      exact ⟨this, this⟩
  · intro x hx
    have e1 : q.computeIndex (.tuple []) = .ok [] := by
      unfold Quantity.computeIndex
      simp only [List.length_nil, hs, fillIndex]
      rw [if_neg (by omega)]
      rfl
    have e2 : ∃ d, q.data.setItem [] x = .ok d ∧ d.shape = [] ∧ d.get [] = x.get [] := by
      unfold NDArray.setItem
      simp only [hs, resolveAll, bind, Except.bind, viewShape, hx, pure, Except.pure]
      refine ⟨_, rfl, hs, ?_⟩
      rw [NDArray.stretch_of hx]
      rfl
    obtain ⟨d, h1, h2, h3⟩ := e2
    refine ⟨d, ?_, h2, h3⟩
    unfold Quantity.viewSet
    rw [e1]
    simp only [bind, Except.bind, h1]
    rfl
  · intro v x hne
    have : q.computeIndex v = .error .attributeError := by
      unfold Quantity.computeIndex
      rw [hd]
      cases v with
      | one i => rfl
      | tuple l => cases l with
        | nil => exact absurd rfl hne
        | cons a l => rfl
    unfold Quantity.viewSet
    rw [this]
    rfl

example : (⟨⟨[], fun _ => 3⟩, [], "K", [], []⟩ : Quantity Nat).ndim = 0 := rfl

/-! ### C30 -/

/-- An index entry with slice start counted from `p`, slice stop and integers from `q` resp. `p`;
omitted end points mean the compute domain `o .. o + e`. -/
def countFrom (p q o e : Int) : Ix → Ix
  | .int i => .int (p + i)
  | .slice s => .slice ⟨some (match s.start with | some a => p + a | none => o),
      some (match s.stop with | some b => q + b | none => o + e), s.step⟩

/-- The reference points of a view attribute on axis `k`, for slice starts (and integers) and
for slice stops. -/
def viewBase (q : Quantity α) (k : Nat) : Corner → Int × Int
  | .nw => (cornerBase q .nw k, cornerBase q .nw k)
  | .ne => (cornerBase q .ne k, cornerBase q .ne k)
  | .sw => (cornerBase q .sw k, cornerBase q .sw k)
  | .se => (cornerBase q .se k, cornerBase q .se k)
  | .interior => (q.o k, q.o k + q.e k)

theorem getOffset_eq (q : Quantity α) (k : Nat) (c : Corner) :
    getOffset c (q.d k) (q.o k) (q.e k) = viewBase q k c := by
  cases c <;> simp only [getOffset, viewBase, cornerBase] <;>
  · generalize q.d k = d
    cases d <;>
      simp [boundaryAtStartOfDim, X_DIMS, Y_DIMS, dirAlong, IsX, IsY, BType.dx, BType.dy]

theorem shiftBoundaryEntry_eq (c : Corner) (d : Dim) (o e : Int) (x : Ix) :
    shiftBoundaryEntry c d o e x = countFrom (getOffset c d o e).1 (getOffset c d o e).2 o e x := by
  unfold shiftBoundaryEntry countFrom
  cases x with
  | int i => simp only [Int.add_comm]
  | slice s =>
    obtain ⟨a, b, st⟩ := s
    cases a <;> cases b <;> simp [boundDefaultSlice, Int.add_comm]

theorem shiftBoundaryEntries_tab (c : Corner) (m : Nat) (ds : List Dim) (ix : List Ix)
    (os es : List Int) (hd : ds.length = m) (hi : ix.length = m) (ho : os.length = m)
    (he : es.length = m) :
    shiftBoundaryEntries c ds ix os es = tab m fun k =>
      shiftBoundaryEntry c (ds.getD k .x) (os.getD k 0) (es.getD k 0) (ix.getD k (.slice .full)) := by
  induction m generalizing ds ix os es with
  | zero =>
    rw [List.length_eq_zero_iff] at hd
    subst hd; rfl
  | succ m ih =>
    match ds, ix, os, es, hd, hi, ho, he with
    | d :: ds, x :: ix, o :: os, e :: es, hd, hi, ho, he =>
      simp only [shiftBoundaryEntries]
      rw [ih ds ix os es (by simpa using hd) (by simpa using hi) (by simpa using ho)
        (by simpa using he), tab_succ]
      simp

theorem getD_fillIndex (ix : List Ix) (m k : Nat) (hk : k < m) :
    (fillIndex ix m).getD k (.slice .full) = ix.getD k (.slice .full) := by
  unfold fillIndex
  by_cases h : k < ix.length
  · rw [getD_lt _ (by simp; omega), getD_lt _ h, List.getElem_append_left h]
  · rw [getD_ge (l := ix) _ (by omega), getD_lt _ (by simp; omega), List.getElem_append_right (by omega)]
    simp

theorem cornerIndex_eq (q : Quantity α) (hq : q.Lens) (c : Corner) (v : VIdx)
    (hl : v.entries.length ≤ q.ndim) :
    q.cornerIndex c v = .ok (tab q.ndim fun k => countFrom (viewBase q k c).1 (viewBase q k c).2
      (q.o k) (q.e k) (v.entries.getD k (.slice .full))) := by
  have e0 : q.cornerIndex c v =
      .ok (shiftBoundaryEntries c q.dims (fillIndex v.entries q.ndim) q.origin q.extent) := by
    unfold Quantity.cornerIndex
    cases v <;> exact if_neg (by simp only [VIdx.entries] at hl; unfold Quantity.ndim at hl; dsimp only; omega)
  rw [e0, shiftBoundaryEntries_tab c q.ndim _ _ _ _ rfl (by simp [fillIndex]; omega) hq.origin
    hq.extent]
  congr 1
  apply tab_congr
  intro k hk
  rw [getD_fillIndex _ _ _ hk, shiftBoundaryEntry_eq]
  show countFrom (getOffset c (q.d k) (q.o k) (q.e k)).1 (getOffset c (q.d k) (q.o k) (q.e k)).2 _ _ _ = _
  rw [getOffset_eq]
  rfl

/-- **C30**: reading through `view.northwest`, ..., `view.interior` is numpy indexing of the data
with all numbers counted from the reference point of that view: the corner of the compute domain
on horizontal axes, the origin on other axes; too many indices raise IndexError. -/
theorem C30_corner_reads (q : Quantity α) (hq : q.Lens) (hpos : 0 < q.ndim) (c : Corner) (v : VIdx) :
    (v.entries.length ≤ q.ndim → q.cornerGet c v = q.data.getItem (tab q.ndim fun k =>
      countFrom (viewBase q k c).1 (viewBase q k c).2 (q.o k) (q.e k)
        (v.entries.getD k (.slice .full)))) ∧
    (q.ndim < v.entries.length → q.cornerGet c v = .error .indexError) := by
  unfold Quantity.cornerGet
  rw [if_neg (by rw [hq.origin]; omega)]
  constructor
  · intro hl
    rw [cornerIndex_eq q hq c v hl]; rfl
  · intro hl
    have : q.cornerIndex c v = .error .indexError := by
      unfold Quantity.cornerIndex
      cases v <;> exact if_pos hl
    rw [this]; rfl

/-- **C30**: the same for assignment. -/
theorem C30_corner_writes (q : Quantity α) (hq : q.Lens) (c : Corner) (v : VIdx)
    (hl : v.entries.length ≤ q.ndim) (value : NDArray α) :
    q.cornerSet c v value = (q.data.setItem (tab q.ndim fun k =>
      countFrom (viewBase q k c).1 (viewBase q k c).2 (q.o k) (q.e k)
        (v.entries.getD k (.slice .full))) value).map fun d => { q with data := d } := by
  unfold Quantity.cornerSet
  rw [cornerIndex_eq q hq c v hl]
  simp only [bind, Except.bind, pure, Except.pure]
  cases q.data.setItem _ value <;> rfl

/-- **C30**, element by element: `view.<corner>[a:b, ...]` is the box of the data from
`base + a` to `base + b`, whenever this lies in the array. -/
theorem C30_corner_box (q : Quantity α) (hq : q.Lens) (hpos : 0 < q.ndim) (c : Corner)
    (hc : c ≠ .interior) (a b : Nat → Int)
    (hab : ∀ k, k < q.ndim → 0 ≤ (viewBase q k c).1 + a k ∧ a k ≤ b k ∧
      (viewBase q k c).1 + b k ≤ q.n k) :
    ∃ r, q.cornerGet c (.tuple (tab q.ndim fun k => .slice (.of (a k) (b k)))) = .ok r ∧
      r.shape = (tab q.ndim fun k => (b k - a k).toNat) ∧
      ∀ rel, r.get rel = q.data.get (tab q.ndim fun k =>
        ((viewBase q k c).1 + a k + at' rel k).toNat) := by
  have h := (C30_corner_reads q hq hpos c (.tuple (tab q.ndim fun k => .slice (.of (a k) (b k))))).1
    (by simp [VIdx.entries])
  have he : (tab q.ndim fun k => countFrom (viewBase q k c).1 (viewBase q k c).2 (q.o k) (q.e k)
      ((VIdx.tuple (tab q.ndim fun k => .slice (.of (a k) (b k)))).entries.getD k (.slice .full))) =
      tab q.ndim fun k => .slice (.of ((viewBase q k c).1 + a k) ((viewBase q k c).1 + b k)) := by
    apply tab_congr
    intro k hk
    simp only [VIdx.entries]
    rw [getD_tab _ _ hk]
    have : (viewBase q k c).2 = (viewBase q k c).1 := by cases c <;> first | rfl | exact absurd rfl hc
    rw [this]; rfl
  rw [h, he]
  unfold NDArray.getItem
  rw [resolveAll_box q.ndim _ _ _ hq.shape (fun k hk => by
    have := hab k hk; unfold Quantity.n at this; omega)]
  refine ⟨_, rfl, ?_, ?_⟩
  · show viewShape _ = _
    rw [viewShape_box]
    exact tab_congr fun k hk => by congr 1; omega
  · intro rel
    show q.data.get (viewIdx _ rel) = _
    rw [viewIdx_box]

/-- **C30**, single elements: `view.<corner>[i, j, ...]` is the datum at `base + i, ...`. -/
theorem C30_corner_element (q : Quantity α) (hq : q.Lens) (hpos : 0 < q.ndim) (c : Corner)
    (i : Nat → Int) (hi : ∀ k, k < q.ndim → 0 ≤ (viewBase q k c).1 + i k ∧
      (viewBase q k c).1 + i k < q.n k) :
    ∃ r, q.cornerGet c (.tuple (tab q.ndim fun k => .int (i k))) = .ok r ∧ r.shape = [] ∧
      r.get [] = q.data.get (tab q.ndim fun k => ((viewBase q k c).1 + i k).toNat) := by
  have h := (C30_corner_reads q hq hpos c (.tuple (tab q.ndim fun k => .int (i k)))).1
    (by simp [VIdx.entries])
  have he : (tab q.ndim fun k => countFrom (viewBase q k c).1 (viewBase q k c).2 (q.o k) (q.e k)
      ((VIdx.tuple (tab q.ndim fun k => .int (i k))).entries.getD k (.slice .full))) =
      tab q.ndim fun k => .int ((viewBase q k c).1 + i k) := by
    apply tab_congr
    intro k hk
    simp only [VIdx.entries]
    rw [getD_tab _ _ hk]; rfl
  rw [h, he]
  unfold NDArray.getItem
  rw [resolveAll_tab q.ndim _ (fun k => .int ((viewBase q k c).1 + i k).toNat) _ hq.shape (fun k hk => by
    have := hi k hk
    unfold Quantity.n at this
    simp only [Ix.resolve]
    rw [if_neg (show ¬ (viewBase q k c).1 + i k < 0 by omega), if_pos (by omega)])]
  have ints : ∀ (m : Nat) (f : Nat → Nat), viewShape (tab m fun k => RIx.int (f k)) = [] ∧
      viewIdx (tab m fun k => RIx.int (f k)) [] = tab m f := by
    intro m
    induction m with
    | zero => intro f; exact ⟨rfl, rfl⟩
    | succ m ih =>
      intro f
      have := ih (fun k => f (k + 1))
      rw [tab_succ, tab_succ]
      exact ⟨this.1, by simp only [viewIdx, this.2]⟩
  refine ⟨_, rfl, (ints _ _).1, ?_⟩
  show q.data.get (viewIdx _ []) = _
  rw [(ints _ _).2]

example := C30_corner_element exQ exQ_wf.toLens (by decide) .nw (fun k => [1, -2, 1].getD k 0)
  (by unfold Quantity.ndim Quantity.n; decide)
example : (exQ.cornerGet .nw (.tuple [.int 1, .int (-2), .int 1])).map (fun a => a.get []) =
    .ok 601 := by decide +kernel
example : (exQ.cornerGet .interior (.tuple [.slice (.of (-1) 1)])).map (fun a => (a.shape, a.get [0, 0, 0])) =
    .ok ([5, 4, 2], 120) := by decide +kernel

end FV3
