import Verif.Proofs.FancyView
import Verif.Props.Views

/-!
# C76: views indexed with arrays, masks, lists, new axes and ellipsis
-/

namespace FV3.Fancy
variable {α : Type}

/-! ### integers and slices -/

theorem viewGet_pos {q : Quantity α} (hq : q.Lens) (hpos : 0 < q.ndim) {v : FIdx} (hl : v.entries.length ≤ q.ndim) :
    viewGet q v = (do
      let ix ← shiftEntries (fill v.entries q.data.shape.length) q.origin q.extent
      getItem q.data ix) := by
  unfold viewGet
  rw [if_neg (by rw [hq.origin]; omega), if_neg (by unfold Quantity.ndim at hl; omega)]

theorem cornerGet_pos {q : Quantity α} (hq : q.Lens) (hpos : 0 < q.ndim) {v : FIdx} (hl : v.entries.length ≤ q.ndim)
    (c : Corner) :
    cornerGet q c v = (do
      let ix ← shiftBoundaryEntries c q.dims (fill v.entries q.dims.length) q.origin q.extent
      getItem q.data ix) := by
  unfold cornerGet
  rw [if_neg (by rw [hq.origin]; omega), if_neg (by unfold Quantity.ndim at hl; omega)]

/-- **C76**: with integers and slices, views and corner views are those of C29 and C30. -/
theorem C76_same (q : Quantity α) (v : VIdx) (c : Corner) :
    viewGet q (ofVIdx v) = q.viewGet v ∧ cornerGet q c (ofVIdx v) = q.cornerGet c v := by
  have hs : scalarGet q.data (ofVIdx v) = Quantity.zeroDimGet q.data v := by
    cases v with
    | tuple l => cases l <;> rfl
    | one i => cases i <;> rfl
  have hent : (ofVIdx v).entries = v.entries.map ofIx := by cases v <;> rfl
  constructor
  · unfold viewGet Quantity.viewGet
    rw [hs, hent, List.length_map]
    split
    · rfl
    · have : q.computeIndex v = if v.entries.length > q.dims.length then .error .attributeError
          else .ok (FV3.shiftEntries (fillIndex v.entries q.data.shape.length) q.origin q.extent) := by cases v <;> rfl
      rw [this]
      split
      · rfl
      · rw [fill_ofIx, shiftEntries_ofIx]
        exact getItem_ofIx _ _
  · unfold cornerGet Quantity.cornerGet
    rw [hs, hent, List.length_map]
    split
    · rfl
    · have : q.cornerIndex c v = if v.entries.length > q.dims.length then .error .indexError
          else .ok (FV3.shiftBoundaryEntries c q.dims (fillIndex v.entries q.dims.length) q.origin q.extent) := by
        cases v <;> rfl
      rw [this]
      split
      · rfl
      · rw [fill_ofIx, shiftBoundaryEntries_ofIx]
        exact getItem_ofIx _ _

/-! ### arrays of indices -/

/-- **C76**: with integers, slices and one-dimensional integer arrays which name points of the compute domain, each
counted from 0, `view[index]` is numpy indexing of the compute domain: the same array, or IndexError for both (arrays
which cannot be broadcast together). -/
theorem C76_plain (q : Quantity α) (hq : q.WF) (hpos : 0 < q.ndim) (l : List NIx) (hl : l.length ≤ q.ndim)
    (hp : ∀ (k : Nat) (x : NIx), l[k]? = some x → x.Plain (q.e k)) :
    (∃ w w', viewGet q (.tuple (l.map NIx.entry)) = .ok w ∧ getItem q.computeArr l = .ok w' ∧ w.Eqv w') ∨
    (viewGet q (.tuple (l.map NIx.entry)) = .error .indexError ∧ getItem q.computeArr l = .error .indexError) := by
  have hes : (q.extent.map Int.toNat).length = q.ndim := by simp [hq.extent]
  have hnew : NIx.newaxis ∉ l := by
    intro h
    obtain ⟨k, hk⟩ := List.mem_iff_getElem?.1 h
    exact hp k _ hk
  have hfill := resolve_fill (q.extent.map Int.toNat) l (by rw [hes]; exact hl) hnew
  generalize hL : l ++ List.replicate ((q.extent.map Int.toNat).length - l.length) (NIx.slice .full) = L at hfill
  have hLlen : L.length = q.ndim := by rw [← hL, List.length_append, List.length_replicate, hes]; omega
  obtain ⟨M, rs, ss, h1, h2, h3, h4⟩ := resolve_shifted q.ndim L q.origin q.extent q.data.shape hLlen hq.origin hq.extent
    hq.shape (fun k hk => hq.inside k hk) (by
      intro k hk
      by_cases hkl : k < l.length
      · have e1 : L.getD k (.int 0) = l[k] := by
          rw [← hL, getD_lt _ (by rw [hL]; omega), List.getElem_append_left hkl]
        rw [e1]
        exact hp k _ (List.getElem?_eq_getElem hkl)
      · have e1 : L.getD k (.int 0) = .slice .full := by
          subst hL
          rw [getD_lt _ (by omega), List.getElem_append_right (by omega), List.getElem_replicate]
        rw [e1]
        exact ⟨(fun _ h => nomatch h), (fun _ h => nomatch h), (fun _ h => nomatch h)⟩)
  have hf : fill (l.map NIx.entry) q.data.shape.length = L.map NIx.entry := by
    rw [← hL, hes, hq.shape]
    simp [fill, NIx.entry]
  rw [viewGet_pos hq.toLens hpos (by simpa [FIdx.entries] using hl)]
  simp only [FIdx.entries]
  rw [hf, h2]
  refine getItem_shifted (b := q.computeArr) (M := l) (L := M) (a := q.data) ?_ h3 h4 fun idx => rfl
  show resolve l (q.extent.map Int.toNat) = _
  rw [← hfill, h1]

/-- **C76**: an array of integers on axis `k` selects those points of the axis, in this order: number `i` is point
`origin + i` of the data.  Negative numbers are therefore not counted from the end of the compute domain: they are
points of the halo before it. -/
theorem C76_array (q : Quantity α) (hq : q.WF) (k : Nat) (hk : k < q.ndim) (a : List Int)
    (ha : ∀ i ∈ a, 0 ≤ q.o k + i ∧ q.o k + i < q.n k) :
    ∃ w, viewGet q (along k (.ints a)) = .ok w ∧ IsTake q k a.length (fun j => q.o k + a.getD j 0) w := by
  rw [viewGet_pos hq.toLens (by omega) (by simp [along, FIdx.entries]; omega)]
  simp only [along, FIdx.entries]
  rw [hq.shape, ← hq.origin, shiftEntries_take (.ints a) (fun o => a.map (· + o)) (fun _ _ => rfl) k q.origin q.extent
    (by rw [hq.origin, hq.extent]) (by rw [hq.origin]; exact hk)]
  obtain ⟨w, h1, h2, h3⟩ := getItem_takeN q hq k hk (a.map (· + q.o k)) (by
    intro i hi
    obtain ⟨j, hj, rfl⟩ := List.mem_map.1 hi
    have := ha j hj
    omega)
  rw [List.length_map] at h2
  refine ⟨w, h1, h2, fun idx hidx => ?_⟩
  rw [h3 idx hidx]
  rw [h2] at hidx
  have hlt := ((inB_iff _ _).1 hidx).2 k (by simpa [hq.extent] using hk)
  rw [List.getD_eq_getElem?_getD (l := List.set _ _ _), List.getElem?_set_self (by simpa [hq.extent] using hk)] at hlt
  simp only [Option.getD_some] at hlt
  congr 3
  dsimp only
  rw [List.getD_eq_getElem?_getD, List.getElem?_map, List.getElem?_eq_getElem hlt, getD_lt _ hlt]
  exact Int.add_comm _ _

/-- **C76**: a point before the data (`origin + i < 0`) is counted from the end of the data, halo included: `i` and
`i + n`, `n` the length of the axis with its halo, are the same. -/
theorem C76_array_wraps (q : Quantity α) (hq : q.WF) (k : Nat) (hk : k < q.ndim) (a : List Int) :
    viewGet q (along k (.ints a)) =
      viewGet q (along k (.ints (a.map fun i => if q.o k + i < 0 ∧ -q.n k ≤ q.o k + i then i + q.n k else i))) := by
  rw [viewGet_pos hq.toLens (by omega) (by simp [along, FIdx.entries]; omega),
    viewGet_pos hq.toLens (by omega) (by simp [along, FIdx.entries]; omega)]
  simp only [along, FIdx.entries]
  rw [hq.shape, ← hq.origin, shiftEntries_take (.ints a) (fun o => a.map (· + o)) (fun _ _ => rfl) k q.origin q.extent
    (by rw [hq.origin, hq.extent]) (by rw [hq.origin]; exact hk),
    shiftEntries_take (.ints _) (fun o => List.map (· + o) _) (fun _ _ => rfl) k q.origin q.extent
    (by rw [hq.origin, hq.extent]) (by rw [hq.origin]; exact hk)]
  have e := resolve_takeN_congr (a.map (· + q.origin.getD k 0))
    ((a.map fun i => if q.o k + i < 0 ∧ -q.n k ≤ q.o k + i then i + q.n k else i).map (· + q.origin.getD k 0)) k q.origin
    q.extent q.data.shape (by rw [hq.origin, hq.shape]) (by rw [hq.extent, hq.shape]) (by
      rw [← resolveInts_wrap]
      congr 1
      rw [List.map_map, List.map_map]
      apply List.map_congr_left
      intro i _
      simp only [Function.comp]
      unfold Quantity.o Quantity.n
      generalize q.origin.getD k 0 = o
      generalize q.data.shape.getD k 0 = n
      split <;> split <;> omega)
  simp only [bind, Except.bind, getItem, e]

/-- **C76**: a point outside the data is an IndexError; no other point is read in its place. -/
theorem C76_array_outside (q : Quantity α) (hq : q.WF) (k : Nat) (hk : k < q.ndim) (a : List Int)
    (ha : ∃ i ∈ a, q.o k + i < -q.n k ∨ q.n k ≤ q.o k + i) :
    viewGet q (along k (.ints a)) = .error .indexError := by
  rw [viewGet_pos hq.toLens (by omega) (by simp [along, FIdx.entries]; omega)]
  simp only [along, FIdx.entries]
  rw [hq.shape, ← hq.origin, shiftEntries_take (.ints a) (fun o => a.map (· + o)) (fun _ _ => rfl) k q.origin q.extent
    (by rw [hq.origin, hq.extent]) (by rw [hq.origin]; exact hk)]
  simp only [bind, Except.bind, getItem]
  rw [resolve_takeN_error _ k q.origin q.extent q.data.shape (by rw [hq.origin, hq.shape]) (by rw [hq.extent, hq.shape])
    (by rw [hq.shape]; exact hk) (resolveInts_error _ _ ?_) (fun k hk => hq.inside k (by rwa [hq.shape] at hk))]
  obtain ⟨i, hi, h⟩ := ha
  refine ⟨i + q.o k, List.mem_map.2 ⟨i, hi, rfl⟩, ?_⟩
  unfold Quantity.n at h
  omega

/-- **C76**, for points of the compute domain: the selected points of the compute domain. -/
theorem C76_array_domain (q : Quantity α) (hq : q.WF) (k : Nat) (hk : k < q.ndim) (a : List Int)
    (ha : ∀ i ∈ a, 0 ≤ i ∧ i < q.e k) :
    ∃ w, viewGet q (along k (.ints a)) = .ok w ∧ w.shape = (q.extent.map Int.toNat).set k a.length ∧
      ∀ idx, InB w.shape idx → w.get idx = q.computeArr.get (idx.set k (a.getD (idx.getD k 0) 0).toNat) := by
  have hin := hq.inside k hk
  obtain ⟨w, h1, h2, h3⟩ := C76_array q hq k hk a fun i hi => by have := ha i hi; omega
  refine ⟨w, h1, h2, fun idx hidx => ?_⟩
  rw [h3 idx hidx]
  show _ = q.data.get (absIdx q.origin _)
  congr 1
  rw [h2] at hidx
  have hi := (inB_iff _ _).1 hidx
  have hil : idx.length = q.ndim := by rw [hi.1]; simp [hq.extent]
  have hlt := hi.2 k (by simpa [hq.extent] using hk)
  rw [List.getD_eq_getElem?_getD (l := List.set _ _ _), List.getElem?_set_self (by simpa [hq.extent] using hk)] at hlt
  simp only [Option.getD_some] at hlt
  have ha' := ha (a.getD (idx.getD k 0) 0) (by rw [getD_lt _ hlt]; exact List.getElem_mem hlt)
  apply List.ext_getElem
  · simp [absIdx]
  · intro j hj1 hj2
    have hjo' : j < q.origin.length := by simpa [absIdx] using hj2
    have hjo : j < q.ndim := by rw [← hq.origin]; exact hjo'
    by_cases hjk : j = k
    · subst hjk
      rw [List.getElem_set_self, ← getD_lt 0 (by simp [absIdx]; omega)]
      unfold absIdx
      rw [getD_tab _ _ hjo', getD_lt (l := idx.set _ _) 0 (by simp; omega), List.getElem_set_self]
      show (q.o j + _).toNat = (q.o j + _).toNat
      congr 1
      omega
    · rw [List.getElem_set_ne (by omega), ← getD_lt 0 (by simp [absIdx]; omega), ← getD_lt 0 (by simp [absIdx]; omega)]
      unfold absIdx
      rw [getD_tab _ _ hjo', getD_tab _ _ hjo', getD_lt (l := idx.set _ _) 0 (by simp; omega),
        List.getElem_set_ne (by omega), getD_lt (l := idx) 0 (by omega)]

/-- **C76**, limit: a mask is not a mask in a view.  It is taken for the numbers 0 and 1: the result is as long as the
mask, with point 1 of the compute domain where the mask is true and point 0 where it is false. -/
theorem C76_mask_limit (q : Quantity α) (hq : q.WF) (k : Nat) (hk : k < q.ndim) (b : List Bool)
    (hn : q.o k + 1 < q.n k) :
    ∃ w, viewGet q (along k (.mask b)) = .ok w ∧
      IsTake q k b.length (fun j => q.o k + if b.getD j false then 1 else 0) w := by
  have e : viewGet q (along k (.mask b)) = viewGet q (along k (.ints (b.map fun t => if t then 1 else 0))) := by
    rw [viewGet_pos hq.toLens (by omega) (by simp [along, FIdx.entries]; omega),
      viewGet_pos hq.toLens (by omega) (by simp [along, FIdx.entries]; omega)]
    simp only [along, FIdx.entries]
    rw [hq.shape, ← hq.origin, shiftEntries_take (.ints _) (fun o => (b.map fun t => if t then 1 else 0).map (· + o))
        (fun _ _ => rfl) k q.origin q.extent (by rw [hq.origin, hq.extent]) (by rw [hq.origin]; exact hk),
      shiftEntries_take (.mask b) (fun o => b.map fun t => (if t then 1 else 0) + o)
        (fun _ _ => rfl) k q.origin q.extent (by rw [hq.origin, hq.extent]) (by rw [hq.origin]; exact hk)]
    simp only [List.map_map, Function.comp_def]
  have hin := hq.inside k hk
  obtain ⟨w, h1, h2, h3⟩ := C76_array q hq k hk (b.map fun t => if t then 1 else 0) (by
    intro i hi
    obtain ⟨t, _, rfl⟩ := List.mem_map.1 hi
    cases t
    · exact ⟨by simp; omega, by simp; omega⟩
    · exact ⟨by simp; omega, by simp; omega⟩)
  rw [List.length_map] at h2
  refine ⟨w, e.trans h1, h2, fun idx hidx => ?_⟩
  rw [h3 idx hidx]
  congr 3
  dsimp only
  congr 1
  rw [List.getD_eq_getElem?_getD, List.getElem?_map, List.getD_eq_getElem?_getD (l := b)]
  generalize b[idx.getD k 0]? = x
  cases x <;> rfl

/-- **C76**, limit: a list is not an array of indices but a tuple of them: `view[[i, j]]` is `view[i, j]`. -/
theorem C76_list_limit (q : Quantity α) (hq : q.Lens) (hpos : 0 < q.ndim) (l : List Ix) (c : Corner) :
    viewGet q (.list (l.map ofIx)) = q.viewGet (.tuple l) ∧ cornerGet q c (.list (l.map ofIx)) = q.cornerGet c (.tuple l) := by
  rw [← (C76_same q (.tuple l) c).1, ← (C76_same q (.tuple l) c).2]
  have : ¬ q.origin.length = 0 := by rw [hq.origin]; omega
  constructor
  · unfold viewGet
    rw [if_neg this, if_neg this]
    rfl
  · unfold cornerGet
    rw [if_neg this, if_neg this]
    rfl

/-! ### new axes and ellipsis -/

/-- **C76**, limit: with a new axis before axis `p`, the later axes are cut with the origin and extent of the axis after
them, and the last axis is not cut at all: the result has the halo points of the last axis.  (Where the cuts fit into the
axes.) -/
theorem C76_newaxis_limit (q : Quantity α) (hq : q.WF) (p : Nat) (hp : p < q.ndim)
    (hfit : ∀ k, p < k → k < q.ndim → q.o k + q.e k ≤ q.n (k - 1)) :
    ∃ w, viewGet q (along p .newaxis) = .ok w ∧
      w.shape = (q.extent.map Int.toNat).set p 1 ++ [q.data.shape.getD (q.ndim - 1) 0] ∧
      ∀ idx, InB w.shape idx → w.get idx = q.data.get ((absIdx q.origin idx).eraseIdx p ++ [idx.getD q.ndim 0]) := by
  obtain ⟨L, h1, h2, h3, h4, h5⟩ := newR_spec p q.origin q.extent q.data.shape (by rw [hq.origin, hq.shape])
    (by rw [hq.origin, hq.extent]) (by rw [hq.origin]; exact hp)
    (fun k hk => hq.inside k (by omega))
    (fun k hk hk' => by
      rw [hq.origin] at hk'
      have := hq.inside k hk'
      exact ⟨this.1, this.2.1, hfit k hk hk'⟩)
  rw [viewGet_pos hq.toLens (by omega) (by simp [along, FIdx.entries]; omega)]
  simp only [along, FIdx.entries]
  rw [hq.shape, ← hq.origin, h1]
  simp only [bind, Except.bind, getItem, h2, h3]
  refine ⟨_, rfl, h4, fun idx hidx => ?_⟩
  dsimp only at hidx ⊢
  rw [h5]
  rw [((inB_iff _ _).1 hidx).1, h4]
  simp [hq.origin, hq.extent]

theorem shiftEntries_error {es : List Entry} {os xs : List Int} (ho : es.length ≤ os.length) (hx : es.length ≤ xs.length)
    (h : .ellipsis ∈ es ∨ ∃ a, .pylist a ∈ es) : shiftEntries es os xs = .error .typeError := by
  induction es generalizing os xs with
  | nil => rcases h with h | ⟨a, h⟩ <;> cases h
  | cons e es ih =>
    match os, xs, ho, hx with
    | o :: os, x :: xs, ho, hx =>
      by_cases hh : .ellipsis ∈ es ∨ ∃ a, .pylist a ∈ es
      · have := ih (os := os) (xs := xs) (by simpa using ho) (by simpa using hx) hh
        simp only [shiftEntries, this]
        cases e <;> rfl
      · simp only [shiftEntries]
        have he : e = .ellipsis ∨ ∃ a, e = .pylist a := by
          rcases h with h | ⟨a, h⟩
          · rcases List.mem_cons.1 h with h | h
            · exact .inl h.symm
            · exact absurd (.inl h) hh
          · rcases List.mem_cons.1 h with h | h
            · exact .inr ⟨a, h.symm⟩
            · exact absurd (.inr ⟨a, h⟩) hh
        rcases he with rfl | ⟨a, rfl⟩ <;> rfl

theorem shiftBoundaryEntries_error {c : Corner} {ds : List Dim} {es : List Entry} {os xs : List Int}
    (hd : es.length ≤ ds.length) (ho : es.length ≤ os.length) (hx : es.length ≤ xs.length)
    (h : .ellipsis ∈ es ∨ (∃ a, .pylist a ∈ es) ∨ .newaxis ∈ es) :
    shiftBoundaryEntries c ds es os xs = .error .typeError := by
  induction es generalizing ds os xs with
  | nil => rcases h with h | ⟨a, h⟩ | h <;> cases h
  | cons e es ih =>
    match ds, os, xs, hd, ho, hx with
    | d :: ds, o :: os, x :: xs, hd, ho, hx =>
      by_cases hh : .ellipsis ∈ es ∨ (∃ a, .pylist a ∈ es) ∨ .newaxis ∈ es
      · have := ih (ds := ds) (os := os) (xs := xs) (by simpa using hd) (by simpa using ho) (by simpa using hx) hh
        simp only [shiftBoundaryEntries, this]
        cases e <;> rfl
      · simp only [shiftBoundaryEntries]
        have he : e = .ellipsis ∨ (∃ a, e = .pylist a) ∨ e = .newaxis := by
          rcases h with h | ⟨a, h⟩ | h
          · rcases List.mem_cons.1 h with h | h
            · exact .inl h.symm
            · exact absurd (.inl h) hh
          · rcases List.mem_cons.1 h with h | h
            · exact .inr (.inl ⟨a, h.symm⟩)
            · exact absurd (.inr (.inl ⟨a, h⟩)) hh
          · rcases List.mem_cons.1 h with h | h
            · exact .inr (.inr h.symm)
            · exact absurd (.inr (.inr h)) hh
        rcases he with rfl | ⟨a, rfl⟩ | rfl <;> rfl

/-- **C76**: what views do not take: an ellipsis or a list among the indices is a TypeError (in corner views a new axis as
well); more entries than axes, new axes counted, are an AttributeError (IndexError in corner views). -/
theorem C76_rejects (q : Quantity α) (hq : q.Lens) (hpos : 0 < q.ndim) (v : FIdx) (c : Corner) :
    (v.entries.length ≤ q.ndim → (.ellipsis ∈ v.entries ∨ ∃ a, .pylist a ∈ v.entries) →
      viewGet q v = .error .typeError) ∧
    (v.entries.length ≤ q.ndim → (.ellipsis ∈ v.entries ∨ (∃ a, .pylist a ∈ v.entries) ∨ .newaxis ∈ v.entries) →
      cornerGet q c v = .error .typeError) ∧
    (q.ndim < v.entries.length → viewGet q v = .error .attributeError ∧ cornerGet q c v = .error .indexError) := by
  refine ⟨fun hl h => ?_, fun hl h => ?_, fun hl => ?_⟩
  · rw [viewGet_pos hq hpos hl, shiftEntries_error (by simp [fill, hq.shape, hq.origin]; omega)
      (by simp [fill, hq.shape, hq.extent]; omega)]
    · rfl
    · rcases h with h | ⟨a, h⟩
      · exact .inl (List.mem_append_left _ h)
      · exact .inr ⟨a, List.mem_append_left _ h⟩
  · have hd : q.dims.length = q.ndim := rfl
    rw [cornerGet_pos hq hpos hl, shiftBoundaryEntries_error (by simp [fill, hd]; omega)
      (by simp [fill, hd, hq.origin]; omega) (by simp [fill, hd, hq.extent]; omega)]
    · rfl
    · rcases h with h | ⟨a, h⟩ | h
      · exact .inl (List.mem_append_left _ h)
      · exact .inr (.inl ⟨a, List.mem_append_left _ h⟩)
      · exact .inr (.inr (List.mem_append_left _ h))
  · have : ¬ q.origin.length = 0 := by rw [hq.origin]; omega
    unfold viewGet cornerGet
    rw [if_neg this, if_neg this, if_pos (by exact hl), if_pos (by exact hl)]
    exact ⟨rfl, rfl⟩

/-- **C76**: an array of integers in a corner view counts from the corner; the other axes are those of the compute
domain. -/
theorem C76_corner_array (q : Quantity α) (hq : q.WF) (c : Corner) (k : Nat) (hk : k < q.ndim) (a : List Int)
    (ha : ∀ i ∈ a, 0 ≤ (viewBase q k c).1 + i ∧ (viewBase q k c).1 + i < q.n k) :
    ∃ w, cornerGet q c (along k (.ints a)) = .ok w ∧
      IsTake q k a.length (fun j => (viewBase q k c).1 + a.getD j 0) w := by
  rw [cornerGet_pos hq.toLens (by omega) (by simp [along, FIdx.entries]; omega)]
  simp only [along, FIdx.entries]
  have hd : q.dims.length = q.origin.length := by rw [hq.origin]; rfl
  rw [hd, shiftBoundaryEntries_take c (.ints a) (fun o => a.map (· + o)) (fun _ _ _ => rfl) k q.dims q.origin q.extent
    (by rw [hq.origin, hq.extent]) hd (by rw [hq.origin]; exact hk)]
  have hb : getOffset c (q.dims.getD k .x) (q.origin.getD k 0) (q.extent.getD k 0) = viewBase q k c := getOffset_eq q k c
  rw [hb]
  obtain ⟨w, h1, h2, h3⟩ := getItem_takeN q hq k hk (a.map (· + (viewBase q k c).1)) (by
    intro i hi
    obtain ⟨j, hj, rfl⟩ := List.mem_map.1 hi
    have := ha j hj
    omega)
  rw [List.length_map] at h2
  refine ⟨w, h1, h2, fun idx hidx => ?_⟩
  rw [h3 idx hidx]
  rw [h2] at hidx
  have hlt := ((inB_iff _ _).1 hidx).2 k (by simpa [hq.extent] using hk)
  rw [List.getD_eq_getElem?_getD (l := List.set _ _ _), List.getElem?_set_self (by simpa [hq.extent] using hk)] at hlt
  simp only [Option.getD_some] at hlt
  congr 3
  dsimp only
  rw [List.getD_eq_getElem?_getD, List.getElem?_map, List.getElem?_eq_getElem hlt, getD_lt _ hlt]
  exact Int.add_comm _ _

/-- **C76**: the same in corner views, counted from the corner. -/
theorem C76_corner_outside (q : Quantity α) (hq : q.WF) (c : Corner) (k : Nat) (hk : k < q.ndim) (a : List Int)
    (ha : ∃ i ∈ a, (viewBase q k c).1 + i < -q.n k ∨ q.n k ≤ (viewBase q k c).1 + i) :
    cornerGet q c (along k (.ints a)) = .error .indexError := by
  rw [cornerGet_pos hq.toLens (by omega) (by simp [along, FIdx.entries]; omega)]
  simp only [along, FIdx.entries]
  have hd : q.dims.length = q.origin.length := by rw [hq.origin]; rfl
  rw [hd, shiftBoundaryEntries_take c (.ints a) (fun o => a.map (· + o)) (fun _ _ _ => rfl) k q.dims q.origin q.extent
    (by rw [hq.origin, hq.extent]) hd (by rw [hq.origin]; exact hk)]
  have hb : getOffset c (q.dims.getD k .x) (q.origin.getD k 0) (q.extent.getD k 0) = viewBase q k c := getOffset_eq q k c
  rw [hb]
  simp only [bind, Except.bind, getItem]
  rw [resolve_takeN_error _ k q.origin q.extent q.data.shape (by rw [hq.origin, hq.shape]) (by rw [hq.extent, hq.shape])
    (by rw [hq.shape]; exact hk) (resolveInts_error _ _ ?_) (fun k hk => hq.inside k (by rwa [hq.shape] at hk))]
  obtain ⟨i, hi, h⟩ := ha
  refine ⟨i + (viewBase q k c).1, List.mem_map.2 ⟨i, hi, rfl⟩, ?_⟩
  unfold Quantity.n at h
  omega

/-! ### cases -/

/-- Two axes, one halo point on both sides of each; the datum is `10 i + j`. -/
def exF : Quantity Nat :=
  { data := ⟨[6, 5], fun i => 10 * i.getD 0 0 + i.getD 1 0⟩, dims := [.y, .x], units := "m", origin := [1, 1],
    extent := [4, 3] }

theorem exF_wf : exF.WF :=
  ⟨⟨rfl, rfl, rfl⟩, by unfold Quantity.ndim Quantity.o Quantity.e Quantity.n; decide⟩

/-- Shape and elements of a result with two axes. -/
def show2 (r : Py (NDArray Nat)) : Py (List Nat × List (List Nat)) :=
  r.map fun a => (a.shape, (List.range (a.shape.getD 0 0)).map fun i => (List.range (a.shape.getD 1 0)).map fun j => a.get [i, j])

/-- Shape and elements of a result with three axes. -/
def show3 (r : Py (NDArray Nat)) : Py (List Nat × List (List (List Nat))) :=
  r.map fun a => (a.shape, (List.range (a.shape.getD 0 0)).map fun i => (List.range (a.shape.getD 1 0)).map fun j =>
    (List.range (a.shape.getD 2 0)).map fun k => a.get [i, j, k])

example := C76_plain exF exF_wf (by decide) [.ints [3, 0], .ints [2, 1]] (by decide) (by
  intro k x hx
  match k, hx with
  | 0, hx => cases hx; simp [NIx.Plain, Quantity.e, exF]
  | 1, hx => cases hx; simp [NIx.Plain, Quantity.e, exF]
  | k + 2, hx => cases hx)
example : show1 (viewGet exF (.tuple [.ints [3, 0], .ints [2, 1]])) = .ok ([2], [43, 12]) := by decide +kernel
example : show1 (viewGet exF (.tuple [.ints [3, 0, 1], .ints [2, 1]])) = .error .indexError := by decide +kernel
example := C76_array exF exF_wf 1 (by decide) [2, 0, -1] (by simp [Quantity.o, Quantity.n, exF])
example : show2 (viewGet exF (along 1 (.ints [2, 0, -1]))) =
    .ok ([4, 3], [[13, 11, 10], [23, 21, 20], [33, 31, 30], [43, 41, 40]]) := by decide +kernel
example := C76_array_wraps exF exF_wf 1 (by decide) [2, 0, -2]
example : show2 (viewGet exF (along 1 (.ints [2, 0, -2]))) =
    .ok ([4, 3], [[13, 11, 14], [23, 21, 24], [33, 31, 34], [43, 41, 44]]) := by decide +kernel
example := C76_array_outside exF exF_wf 1 (by decide) [2, 4] ⟨4, by decide, by decide⟩
example := C76_corner_outside exF exF_wf .ne 0 (by decide) [-1, 1] ⟨1, by decide, by
  simp [viewBase, cornerBase, dirAlong, IsX, IsY, BType.dx, BType.dy, Quantity.d, Quantity.o, Quantity.e, Quantity.n, exF]⟩
example := C76_array_domain exF exF_wf 0 (by decide) [2, 2] (by simp [Quantity.e, exF])
example : show2 (viewGet exF (.one (.ints [2, 2]))) = .ok ([2, 3], [[31, 32, 33], [31, 32, 33]]) := by decide +kernel
example := C76_mask_limit exF exF_wf 0 (by decide) [true, false, false, true] (by decide)
example : show2 (viewGet exF (.one (.mask [true, false, false, true]))) =
    .ok ([4, 3], [[21, 22, 23], [11, 12, 13], [11, 12, 13], [21, 22, 23]]) := by decide +kernel
example := C76_list_limit exF exF_wf.toLens (by decide) [.int 0, .int 2] .nw
example : (viewGet exF (.list [.int 0, .int 2])).map (fun a => (a.shape, a.get [])) = .ok ([], 13) := by decide +kernel
example := C76_newaxis_limit exF exF_wf 0 (by decide) (by
  intro k h1 h2
  have : k = 1 := by change k < 2 at h2; omega
  subst this
  decide)
example : show3 (viewGet exF (.one .newaxis)) =
    .ok ([1, 3, 5], [[[10, 11, 12, 13, 14], [20, 21, 22, 23, 24], [30, 31, 32, 33, 34]]]) := by decide +kernel
example : show3 (getItem exF.computeArr [.newaxis]) =
    .ok ([1, 4, 3], [[[11, 12, 13], [21, 22, 23], [31, 32, 33], [41, 42, 43]]]) := by decide +kernel
example := (C76_rejects exF exF_wf.toLens (by decide) (.one .ellipsis) .nw).1 (by decide) (by simp [FIdx.entries])
example := (C76_rejects exF exF_wf.toLens (by decide) (.tuple [.newaxis, .slice .full]) .nw).2.1 (by decide)
  (by simp [FIdx.entries])
example := (C76_rejects exF exF_wf.toLens (by decide) (.tuple [.newaxis, .slice .full, .slice .full]) .nw).2.2 (by decide)
example := C76_corner_array exF exF_wf .ne 0 (by decide) [-1, 0] (by
  simp [viewBase, cornerBase, dirAlong, IsX, IsY, BType.dx, BType.dy, Quantity.d, Quantity.o, Quantity.e, Quantity.n, exF])
example : show2 (cornerGet exF .ne (along 0 (.ints [-1, 0]))) = .ok ([2, 3], [[41, 42, 43], [51, 52, 53]]) := by
  decide +kernel
/-- The axis of the arrays: in place, or first when a slice is between the arrays. -/
example : show2 (getItem (⟨[2, 3, 2], fun i => 100 * i.getD 0 0 + 10 * i.getD 1 0 + i.getD 2 0⟩ : NDArray Nat)
      [.slice .full, .ints [2, 0], .int 1]) = .ok ([2, 2], [[21, 1], [121, 101]]) ∧
    show2 (getItem (⟨[2, 3, 2], fun i => 100 * i.getD 0 0 + 10 * i.getD 1 0 + i.getD 2 0⟩ : NDArray Nat)
      [.int 1, .slice .full, .ints [1, 0]]) = .ok ([2, 3], [[101, 111, 121], [100, 110, 120]]) := by decide +kernel

end FV3.Fancy
