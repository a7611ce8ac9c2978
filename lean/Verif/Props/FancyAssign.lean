import Verif.Proofs.FancyAssign
import Verif.Props.FancyView

/-!
# C77: assignments through arrays of indices, masks, lists and new axes
-/

namespace FV3.Fancy
variable {α : Type}

/-! ### the general statement -/

/-- An element shown at `rel` is the one behind `rel`, unless all elements are equal anyway. -/
theorem Shows.src_eq {get : NDArray α → Py (NDArray α)} {shape s idx rel : List Nat} {src : List Nat → List Nat}
    (hsrc : ∀ d : NDArray α, d.shape = shape → ∃ r, get d = .ok r ∧ r.shape = s ∧ ∀ rel, r.get rel = d.get (src rel))
    (h : Shows get shape s idx rel) : src rel = idx ∨ ∀ x y : α, x = y := by
  by_cases hs : ∀ x y : α, x = y
  · exact .inr hs
  · left
    rw [not_forall] at hs
    obtain ⟨x, hs⟩ := hs
    rw [not_forall] at hs
    obtain ⟨y, hxy⟩ := hs
    obtain ⟨r, h1, -, h3⟩ := h.2 ⟨shape, fun i => if i = idx then x else y⟩ rfl
    obtain ⟨r', e1, -, e3⟩ := hsrc ⟨shape, fun i => if i = idx then x else y⟩ rfl
    rw [h1] at e1
    cases e1
    have := e3 rel
    rw [h3] at this
    dsimp only at this
    rw [if_pos rfl] at this
    by_cases hc : src rel = idx
    · exact hc
    · rw [if_neg hc] at this
      exact absurd this hxy

theorem stored_of {q : Quantity α} {ix : List NIx} {value r0 : NDArray α} {get : Quantity α → Py (NDArray α)}
    (h : getItem q.data ix = .ok r0)
    (hget : ∀ d : NDArray α, d.shape = q.data.shape → get { q with data := d } = getItem d ix) :
    (¬ Broadcastable value.shape r0.shape → setItem q.data ix value = .error .valueError) ∧
    (Broadcastable value.shape r0.shape → ∃ d, setItem q.data ix value = .ok d ∧
      Stored q { q with data := d } get r0.shape value) := by
  obtain ⟨src, h1, h2, h3⟩ := setItem_spec h value
  refine ⟨h2, fun hb => ?_⟩
  obtain ⟨b, e1, e2, e3, e4⟩ := h3 hb
  have hsrc : ∀ d : NDArray α, d.shape = q.data.shape →
      ∃ r, get { q with data := d } = .ok r ∧ r.shape = r0.shape ∧ ∀ rel, r.get rel = d.get (src rel) := by
    intro d hd
    rw [hget d hd]
    exact h1 d hd
  have hshow : ∀ rel, InB r0.shape rel →
      Shows (fun d => get { q with data := d }) q.data.shape r0.shape (src rel) rel := by
    intro rel hrel
    refine ⟨hrel, fun d hd => ?_⟩
    obtain ⟨r, g1, g2, g3⟩ := hsrc d hd
    exact ⟨r, g1, g2, g3 rel⟩
  refine ⟨b, e1, rfl, rfl, rfl, rfl, e2, ⟨_, stretch_spec hb, fun idx rel hs hlast => ?_⟩, fun idx hidx => ?_⟩
  · rcases hs.src_eq hsrc with he | he
    · subst he
      exact e3 rel hs.1 fun rel' hr' hs' => hlast rel' (hs' ▸ hshow rel' hr')
    · exact he _ _
  · exact e4 idx fun rel hrel he => hidx rel (he ▸ hshow rel hrel)

theorem Stored.eq {q q' : Quantity α} {get : Quantity α → Py (NDArray α)} {s : List Nat} {value : NDArray α}
    (st : Stored q q' get s value) : q' = { q with data := q'.data } := by
  obtain ⟨h1, h2, h3, h4, -, -, -⟩ := st
  cases q; cases q'
  simp only at h1 h2 h3 h4
  subst h1 h2 h3 h4
  rfl

/-- The elements behind the places of the result. -/
theorem viewGet_src {q : Quantity α} (hq : q.Lens) (hpos : 0 < q.ndim) {v : FIdx} {r0 : NDArray α}
    (h : viewGet q v = .ok r0) : ∃ src : List Nat → List Nat, ∀ d : NDArray α, d.shape = q.data.shape →
      ∃ r, viewGet { q with data := d } v = .ok r ∧ r.shape = r0.shape ∧ ∀ rel, r.get rel = d.get (src rel) := by
  have h0 : ¬ q.origin.length = 0 := by rw [hq.origin]; omega
  unfold viewGet at h
  rw [if_neg h0] at h
  split at h
  · cases h
  next hl =>
    cases hix : shiftEntries (fill v.entries q.data.shape.length) q.origin q.extent with
    | error e => rw [hix] at h; cases h
    | ok ix =>
      rw [hix] at h
      obtain ⟨src, hs, -⟩ := setItem_spec (a := q.data) (ix := ix) h q.data
      refine ⟨src, fun d hd => ?_⟩
      have : viewGet { q with data := d } v = getItem d ix := by
        unfold viewGet
        rw [if_neg (by exact h0), if_neg (by exact hl)]
        show (shiftEntries (fill v.entries d.shape.length) q.origin q.extent >>= fun ix => getItem d ix) = _
        rw [hd, hix]
        rfl
      rw [this]
      exact hs d hd

/-- **C77**: an assignment through `view` with any index that can be read.  If the value cannot be broadcast to the shape
that is read, ValueError is raised.  Otherwise every element shown through the index gets the element of the value shown
in its place (the last one, if it is shown more than once), and the others stay. -/
theorem C77_view (q : Quantity α) (hq : q.Lens) (hpos : 0 < q.ndim) (v : FIdx) (value r0 : NDArray α)
    (h : viewGet q v = .ok r0) :
    (¬ Broadcastable value.shape r0.shape → viewSet q v value = .error .valueError) ∧
    (Broadcastable value.shape r0.shape → ∃ q', viewSet q v value = .ok q' ∧
      Stored q q' (fun q => viewGet q v) r0.shape value) := by
  have h0 : ¬ q.origin.length = 0 := by rw [hq.origin]; omega
  unfold viewGet at h
  rw [if_neg h0] at h
  split at h
  · cases h
  next hl =>
    cases hix : shiftEntries (fill v.entries q.data.shape.length) q.origin q.extent with
    | error e => rw [hix] at h; cases h
    | ok ix =>
      rw [hix] at h
      have hg : getItem q.data ix = .ok r0 := h
      have hget : ∀ d : NDArray α, d.shape = q.data.shape → viewGet { q with data := d } v = getItem d ix := by
        intro d hd
        unfold viewGet
        rw [if_neg (by exact h0), if_neg (by exact hl)]
        show (shiftEntries (fill v.entries d.shape.length) q.origin q.extent >>= fun ix => getItem d ix) = _
        rw [hd, hix]
        rfl
      obtain ⟨g1, g2⟩ := stored_of (value := value) (get := fun q => viewGet q v) hg hget
      have hset : viewSet q v value = (setItem q.data ix value).map fun d => { q with data := d } := by
        unfold viewSet
        rw [if_neg hl, hix]
        simp only [bind, Except.bind, pure, Except.pure]
        cases setItem q.data ix value <;> rfl
      refine ⟨fun hn => ?_, fun hb => ?_⟩
      · rw [hset, g1 hn]; rfl
      · obtain ⟨d, e1, e2⟩ := g2 hb
        exact ⟨_, by rw [hset, e1]; rfl, e2⟩

/-- **C77**: the same for the corner views. -/
theorem C77_corner (q : Quantity α) (hq : q.Lens) (hpos : 0 < q.ndim) (c : Corner) (v : FIdx) (value r0 : NDArray α)
    (h : cornerGet q c v = .ok r0) :
    (¬ Broadcastable value.shape r0.shape → cornerSet q c v value = .error .valueError) ∧
    (Broadcastable value.shape r0.shape → ∃ q', cornerSet q c v value = .ok q' ∧
      Stored q q' (fun q => cornerGet q c v) r0.shape value) := by
  have h0 : ¬ q.origin.length = 0 := by rw [hq.origin]; omega
  unfold cornerGet at h
  rw [if_neg h0] at h
  split at h
  · cases h
  next hl =>
    cases hix : shiftBoundaryEntries c q.dims (fill v.entries q.dims.length) q.origin q.extent with
    | error e => rw [hix] at h; cases h
    | ok ix =>
      rw [hix] at h
      have hg : getItem q.data ix = .ok r0 := h
      have hget : ∀ d : NDArray α, d.shape = q.data.shape → cornerGet { q with data := d } c v = getItem d ix := by
        intro d hd
        unfold cornerGet
        rw [if_neg (by exact h0), if_neg (by exact hl)]
        show (shiftBoundaryEntries c q.dims (fill v.entries q.dims.length) q.origin q.extent >>= fun ix => getItem d ix) = _
        rw [hix]
        rfl
      obtain ⟨g1, g2⟩ := stored_of (value := value) (get := fun q => cornerGet q c v) hg hget
      have hset : cornerSet q c v value = (setItem q.data ix value).map fun d => { q with data := d } := by
        unfold cornerSet
        rw [if_neg hl, hix]
        simp only [bind, Except.bind, pure, Except.pure]
        cases setItem q.data ix value <;> rfl
      refine ⟨fun hn => ?_, fun hb => ?_⟩
      · rw [hset, g1 hn]; rfl
      · obtain ⟨d, e1, e2⟩ := g2 hb
        exact ⟨_, by rw [hset, e1]; rfl, e2⟩

/-- **C77**: an index which cannot be read cannot be assigned to either: the same error. -/
theorem C77_same_error (q : Quantity α) (hq : q.Lens) (hpos : 0 < q.ndim) (v : FIdx) (c : Corner) (value : NDArray α)
    (e : PyErr) :
    (viewGet q v = .error e → viewSet q v value = .error e) ∧
    (cornerGet q c v = .error e → cornerSet q c v value = .error e) := by
  have h0 : ¬ q.origin.length = 0 := by rw [hq.origin]; omega
  have key : ∀ ix, getItem q.data ix = .error e → setItem q.data ix value = .error e := by
    intro ix h
    unfold getItem at h
    unfold setItem
    cases hr : resolve ix q.data.shape with
    | error e' => rw [hr] at h; cases h; rfl
    | ok rs =>
      rw [hr] at h
      simp only [bind, Except.bind] at h ⊢
      cases ha : arrLen rs with
      | error e' => rw [ha] at h; cases h; rfl
      | ok o => rw [ha] at h; cases o <;> cases h
  constructor
  · intro h
    unfold viewGet at h
    unfold viewSet
    rw [if_neg h0] at h
    split at h
    next hl => rw [if_pos hl]; cases h; rfl
    next hl =>
      rw [if_neg hl]
      cases hix : shiftEntries (fill v.entries q.data.shape.length) q.origin q.extent with
      | error e' => rw [hix] at h; cases h; rfl
      | ok ix =>
        rw [hix] at h
        simp only [bind, Except.bind]
        rw [key ix h]
  · intro h
    unfold cornerGet at h
    unfold cornerSet
    rw [if_neg h0] at h
    split at h
    next hl => rw [if_pos hl]; cases h; rfl
    next hl =>
      rw [if_neg hl]
      cases hix : shiftBoundaryEntries c q.dims (fill v.entries q.dims.length) q.origin q.extent with
      | error e' => rw [hix] at h; cases h; rfl
      | ok ix =>
        rw [hix] at h
        simp only [bind, Except.bind]
        rw [key ix h]

/-- **C77**: if no element is shown twice, the same index then reads the value, broadcast. -/
theorem C77_read_back (q q' : Quantity α) (hq : q.Lens) (hpos : 0 < q.ndim) (v : FIdx) (value r0 : NDArray α)
    (h : viewGet q v = .ok r0) (hset : viewSet q v value = .ok q')
    (hone : ∀ idx rel rel', Shows (fun d : NDArray α => viewGet { q with data := d } v) q.data.shape r0.shape idx rel →
      Shows (fun d : NDArray α => viewGet { q with data := d } v) q.data.shape r0.shape idx rel' → rel' = rel) :
    ∃ r, viewGet q' v = .ok r ∧ IsBroadcast value r0.shape r := by
  obtain ⟨h1, h2⟩ := C77_view q hq hpos v value r0 h
  have hb : Broadcastable value.shape r0.shape := by
    by_cases hb : Broadcastable value.shape r0.shape
    · exact hb
    · rw [h1 hb] at hset; cases hset
  obtain ⟨q'', e, st⟩ := h2 hb
  rw [hset] at e
  cases e
  obtain ⟨b, hb1, hb2⟩ := st.shown
  have hq' := st.eq
  obtain ⟨src, hsrc⟩ := viewGet_src hq hpos h
  obtain ⟨r, g1, g2, g3⟩ := hsrc q'.data st.shape
  refine ⟨r, by rw [hq']; exact g1, g2, fun rel hrel => ?_⟩
  have hs : Shows (fun d : NDArray α => viewGet { q with data := d } v) q.data.shape r0.shape (src rel) rel := by
    refine ⟨hrel, fun d hd => ?_⟩
    obtain ⟨r, a1, a2, a3⟩ := hsrc d hd
    exact ⟨r, a1, a2, a3 rel⟩
  rw [g3, hb2 (src rel) rel hs fun rel' hs' => by
    rw [hone _ _ _ hs hs']
    rintro ⟨p, -, hp⟩
    omega]
  exact hb1.get rel hrel

/-! ### integers and slices -/

theorem unplace_ofIx (rs : List RIx) (idx : List Nat) : unplace (rs.map rOfIx) 0 idx = unview rs idx := by
  induction rs generalizing idx with
  | nil => cases idx <;> rfl
  | cons r rs ih =>
    cases r with
    | int i =>
      cases idx with
      | nil => rfl
      | cons x idx => simp only [List.map_cons, rOfIx, unplace, unview, ih]
    | slice a st c =>
      cases idx with
      | nil => rfl
      | cons x idx => simp only [List.map_cons, rOfIx, unplace, unview, ih]

theorem setItem_ofIx (a : NDArray α) (ix : List Ix) (v : NDArray α) : setItem a (ix.map nOfIx) v = a.setItem ix v := by
  unfold setItem NDArray.setItem
  rw [resolve_ofIx]
  cases resolveAll ix a.shape with
  | error e => rfl
  | ok rs =>
    simp only [Except.map, bind, Except.bind, arrLen_ofIx, axes_ofIx, unplace_ofIx]
    rfl

/-- **C77**: with integers and slices, assignments are those of C29, C30 and C63. -/
theorem C77_same (q : Quantity α) (v : VIdx) (c : Corner) (value : NDArray α) :
    viewSet q (ofVIdx v) value = q.viewSet v value ∧ cornerSet q c (ofVIdx v) value = q.cornerSet c v value := by
  have hent : (ofVIdx v).entries = v.entries.map ofIx := by cases v <;> rfl
  constructor
  · unfold viewSet Quantity.viewSet
    rw [hent, List.length_map]
    have : q.computeIndex v = if v.entries.length > q.dims.length then .error .attributeError
        else .ok (FV3.shiftEntries (fillIndex v.entries q.data.shape.length) q.origin q.extent) := by cases v <;> rfl
    rw [this]
    split
    · rfl
    · rw [fill_ofIx, shiftEntries_ofIx]
      simp only [bind, Except.bind, setItem_ofIx]
  · unfold cornerSet Quantity.cornerSet
    rw [hent, List.length_map]
    have : q.cornerIndex c v = if v.entries.length > q.dims.length then .error .indexError
        else .ok (FV3.shiftBoundaryEntries c q.dims (fillIndex v.entries q.dims.length) q.origin q.extent) := by
      cases v <;> rfl
    rw [this]
    split
    · rfl
    · rw [fill_ofIx, shiftBoundaryEntries_ofIx]
      simp only [bind, Except.bind, setItem_ofIx]

/-- **C77**, limit: `view[[i, j]] = value` is `view[i, j] = value`. -/
theorem C77_list_limit (q : Quantity α) (l : List Ix) (c : Corner) (value : NDArray α) :
    viewSet q (.list (l.map ofIx)) value = q.viewSet (.tuple l) value ∧
    cornerSet q c (.list (l.map ofIx)) value = q.cornerSet c (.tuple l) value := by
  rw [← (C77_same q (.tuple l) c value).1, ← (C77_same q (.tuple l) c value).2]
  exact ⟨rfl, rfl⟩

/-! ### arrays and masks -/

theorem wf_data {q : Quantity α} (hq : q.WF) {d : NDArray α} (hd : d.shape = q.data.shape) :
    ({ q with data := d } : Quantity α).WF := by
  refine ⟨⟨?_, hq.origin, hq.extent⟩, fun k hk => ?_⟩
  · show d.shape.length = _
    rw [hd]; exact hq.shape
  · have := hq.inside k hk
    unfold Quantity.n at this ⊢
    show _ ∧ _ ∧ _ ≤ ((d.shape.getD k 0 : Nat) : Int)
    rw [hd]
    exact this

theorem put_of {q q' : Quantity α} (hq : q.WF) {k n : Nat} (hk : k < q.ndim) {p : Nat → Int} {v : FIdx}
    {value : NDArray α} {get : Quantity α → FIdx → Py (NDArray α)}
    (hread : ∀ d : NDArray α, d.shape = q.data.shape → ∃ w, get { q with data := d } v = .ok w ∧
      IsTake ({ q with data := d } : Quantity α) k n p w)
    (hp : ∀ j, j < n → 0 ≤ p j)
    (st : Stored q q' (fun q => get q v) ((q.extent.map Int.toNat).set k n) value) : IsPut q k n p value q' := by
  have hke : k < (q.extent.map Int.toNat).length := by simpa [hq.extent] using hk
  have hsrc : ∀ d : NDArray α, d.shape = q.data.shape → ∃ r, get { q with data := d } v = .ok r ∧
      r.shape = (q.extent.map Int.toNat).set k n ∧ ∀ rel, InB ((q.extent.map Int.toNat).set k n) rel →
        r.get rel = d.get ((absIdx q.origin rel).set k (p (rel.getD k 0)).toNat) := by
    intro d hd
    obtain ⟨w, h1, h2, h3⟩ := hread d hd
    exact ⟨w, h1, h2, fun rel hrel => h3 rel (by rw [h2]; exact hrel)⟩
  have hshow : ∀ rel, InB ((q.extent.map Int.toNat).set k n) rel →
      Shows (fun d : NDArray α => get { q with data := d } v) q.data.shape ((q.extent.map Int.toNat).set k n)
        ((absIdx q.origin rel).set k (p (rel.getD k 0)).toNat) rel := by
    intro rel hrel
    refine ⟨hrel, fun d hd => ?_⟩
    obtain ⟨r, g1, g2, g3⟩ := hsrc d hd
    exact ⟨r, g1, g2, g3 rel hrel⟩
  have hback : ∀ {idx rel}, Shows (fun d : NDArray α => get { q with data := d } v) q.data.shape
      ((q.extent.map Int.toNat).set k n) idx rel →
      (absIdx q.origin rel).set k (p (rel.getD k 0)).toNat = idx ∨ ∀ x y : α, x = y := by
    intro idx rel hs
    by_cases hu : ∀ x y : α, x = y
    · exact .inr hu
    · left
      rw [not_forall] at hu
      obtain ⟨x, hu⟩ := hu
      rw [not_forall] at hu
      obtain ⟨y, hxy⟩ := hu
      obtain ⟨r, h1, -, h3⟩ := hs.2 ⟨q.data.shape, fun i => if i = idx then x else y⟩ rfl
      obtain ⟨r', e1, -, e3⟩ := hsrc ⟨q.data.shape, fun i => if i = idx then x else y⟩ rfl
      dsimp only at h1
      rw [h1] at e1
      cases e1
      have := e3 rel hs.1
      rw [h3] at this
      dsimp only at this
      rw [if_pos rfl] at this
      by_cases hc : (absIdx q.origin rel).set k (p (rel.getD k 0)).toNat = idx
      · exact hc
      · rw [if_neg hc] at this
        exact absurd this hxy
  refine ⟨st.eq, st.shape, ?_, fun idx hidx => ?_⟩
  · obtain ⟨b, hb1, hb2⟩ := st.shown
    refine ⟨b, hb1, fun out hout hlast => ?_⟩
    by_cases hu : ∀ x y : α, x = y
    · exact hu _ _
    refine hb2 _ out (hshow out hout) fun rel' hs' => ?_
    rcases hback hs' with he | he
    · rintro ⟨m, hm1, hm2⟩
      have hi := (inB_iff _ _).1 hout
      have hi' := (inB_iff _ _).1 hs'.1
      have hlen : out.length = q.ndim := by rw [hi.1]; simp [hq.extent]
      have hlen' : rel'.length = q.ndim := by rw [hi'.1]; simp [hq.extent]
      have hlt := hi.2 k (by simpa using hke)
      have hlt' := hi'.2 k (by simpa using hke)
      rw [List.getD_eq_getElem?_getD (l := List.set _ _ _), List.getElem?_set_self hke] at hlt hlt'
      simp only [Option.getD_some] at hlt hlt'
      have hent : ∀ j, j < q.ndim → ((absIdx q.origin rel').set k (p (rel'.getD k 0)).toNat).getD j 0 =
          ((absIdx q.origin out).set k (p (out.getD k 0)).toNat).getD j 0 := fun j _ => by rw [he]
      have habs : ∀ rel : List Nat, (absIdx q.origin rel).length = q.ndim := by
        intro rel; simp [absIdx, hq.origin]
      by_cases hmk : m = k
      · subst hmk
        have := hent m hk
        rw [List.getD_eq_getElem?_getD (l := List.set _ _ _), List.getD_eq_getElem?_getD (l := List.set _ _ _),
          List.getElem?_set_self (by rw [habs]; exact hk), List.getElem?_set_self (by rw [habs]; exact hk)] at this
        simp only [Option.getD_some] at this
        have a1 := hp _ hlt
        have a2 := hp _ hlt'
        exact hlast _ hm2 hlt' (by omega)
      · by_cases hmd : m < q.ndim
        · have := hent m hmd
          rw [List.getD_eq_getElem?_getD (l := List.set _ _ _), List.getD_eq_getElem?_getD (l := List.set _ _ _),
            List.getElem?_set_ne (by omega), List.getElem?_set_ne (by omega), ← List.getD_eq_getElem?_getD, ← List.getD_eq_getElem?_getD] at this
          unfold absIdx at this
          rw [getD_tab _ _ (by rw [hq.origin]; exact hmd), getD_tab _ _ (by rw [hq.origin]; exact hmd)] at this
          have h0 := (hq.inside m hmd).1
          unfold Quantity.o at h0
          omega
        · rw [List.getD_eq_getElem?_getD (l := rel'), List.getElem?_eq_none (by omega)] at hm2
          simp at hm2
    · exact absurd he hu
  · by_cases hu : ∀ x y : α, x = y
    · exact hu _ _
    refine st.others idx fun rel hs => ?_
    rcases hback hs with he | he
    · exact hidx rel hs.1 he
    · exact hu he

/-- **C77**: an array of integers on axis `k`: number `i` is point `origin + i` of the data; these points get the value,
broadcast, where of equal numbers the last one counts.  ValueError if the value cannot be broadcast. -/
theorem C77_array (q : Quantity α) (hq : q.WF) (k : Nat) (hk : k < q.ndim) (a : List Int) (value : NDArray α)
    (ha : ∀ i ∈ a, 0 ≤ q.o k + i ∧ q.o k + i < q.n k) :
    (¬ Broadcastable value.shape ((q.extent.map Int.toNat).set k a.length) →
      viewSet q (along k (.ints a)) value = .error .valueError) ∧
    (Broadcastable value.shape ((q.extent.map Int.toNat).set k a.length) →
      ∃ q', viewSet q (along k (.ints a)) value = .ok q' ∧
        IsPut q k a.length (fun j => q.o k + a.getD j 0) value q') := by
  obtain ⟨w, h1, h2, h3⟩ := C76_array q hq k hk a ha
  obtain ⟨g1, g2⟩ := C77_view q hq.toLens (by omega) _ value w h1
  rw [h2] at g1 g2
  refine ⟨g1, fun hb => ?_⟩
  obtain ⟨q', e1, e2⟩ := g2 hb
  refine ⟨q', e1, put_of (get := viewGet) hq hk (fun d hd => ?_) (fun j hj => ?_) e2⟩
  · refine C76_array { q with data := d } (wf_data hq hd) k hk a fun i hi => ?_
    have := ha i hi
    unfold Quantity.n at this ⊢
    show _ ∧ _ < ((d.shape.getD k 0 : Nat) : Int)
    rw [hd]
    exact this
  · rw [getD_lt _ hj]
    exact (ha _ (List.getElem_mem hj)).1

/-- **C77**: with distinct numbers the same index then reads the value, broadcast. -/
theorem C77_array_read_back (q : Quantity α) (hq : q.WF) (k : Nat) (hk : k < q.ndim) (a : List Int) (hd : a.Nodup)
    (value : NDArray α) (ha : ∀ i ∈ a, 0 ≤ q.o k + i ∧ q.o k + i < q.n k)
    (hb : Broadcastable value.shape ((q.extent.map Int.toNat).set k a.length)) :
    ∃ q' w, viewSet q (along k (.ints a)) value = .ok q' ∧ viewGet q' (along k (.ints a)) = .ok w ∧
      IsBroadcast value ((q.extent.map Int.toNat).set k a.length) w := by
  obtain ⟨q', h1, hput⟩ := (C77_array q hq k hk a value ha).2 hb
  have hwf : q'.WF := by rw [hput.metadata]; exact wf_data hq hput.shape
  have hn : q'.n k = q.n k := by unfold Quantity.n; rw [hput.shape]
  have ho : q'.origin = q.origin := by rw [hput.metadata]
  have he : q'.extent = q.extent := by rw [hput.metadata]
  have hdim : q'.ndim = q.ndim := by rw [hput.metadata]; rfl
  obtain ⟨w, g1, g2, g3⟩ := C76_array q' hwf k (by omega) a (by unfold Quantity.o at ha ⊢; rw [ho, hn]; exact ha)
  refine ⟨q', w, h1, g1, by rw [g2, he], fun idx hidx => ?_⟩
  obtain ⟨b, b1, b2⟩ := hput.put
  have := g3 idx (by rw [g2, he]; exact hidx)
  rw [this]
  have hke : k < (q.extent.map Int.toNat).length := by simpa [hq.extent] using hk
  have hlt := ((inB_iff _ _).1 hidx).2 k (by simpa using hke)
  rw [List.getD_eq_getElem?_getD (l := List.set _ _ _), List.getElem?_set_self hke] at hlt
  simp only [Option.getD_some] at hlt
  have h2 := b2 idx hidx fun j hj1 hj2 hj3 => by
    have e : a.getD j 0 = a.getD (idx.getD k 0) 0 := by omega
    rw [getD_lt _ hj2, getD_lt _ hlt] at e
    exact absurd ((List.Nodup.getElem_inj_iff hd).1 e) (by omega)
  unfold Quantity.o at h2 ⊢
  rw [ho, h2]
  exact b1.get idx hidx

/-- **C77**: the same in corner views, where numbers count from the corner. -/
theorem C77_corner_array (q : Quantity α) (hq : q.WF) (c : Corner) (k : Nat) (hk : k < q.ndim) (a : List Int)
    (value : NDArray α) (ha : ∀ i ∈ a, 0 ≤ (viewBase q k c).1 + i ∧ (viewBase q k c).1 + i < q.n k) :
    (¬ Broadcastable value.shape ((q.extent.map Int.toNat).set k a.length) →
      cornerSet q c (along k (.ints a)) value = .error .valueError) ∧
    (Broadcastable value.shape ((q.extent.map Int.toNat).set k a.length) →
      ∃ q', cornerSet q c (along k (.ints a)) value = .ok q' ∧
        IsPut q k a.length (fun j => (viewBase q k c).1 + a.getD j 0) value q') := by
  obtain ⟨w, h1, h2, h3⟩ := C76_corner_array q hq c k hk a ha
  obtain ⟨g1, g2⟩ := C77_corner q hq.toLens (by omega) c _ value w h1
  rw [h2] at g1 g2
  refine ⟨g1, fun hb => ?_⟩
  obtain ⟨q', e1, e2⟩ := g2 hb
  refine ⟨q', e1, put_of (get := fun q => cornerGet q c) hq hk (fun d hd => ?_) (fun j hj => ?_) e2⟩
  · refine C76_corner_array { q with data := d } (wf_data hq hd) c k hk a fun i hi => ?_
    have := ha i hi
    unfold Quantity.n at this ⊢
    show _ ∧ _ < ((d.shape.getD k 0 : Nat) : Int)
    rw [hd]
    exact this
  · rw [getD_lt _ hj]
    exact (ha _ (List.getElem_mem hj)).1

/-- **C77**, limit: `view[mask] = value` does not assign where the mask is true.  The mask is taken for the numbers 0 and
1, so that points 0 and 1 of the axis are all that can change; a value with one element per true point is a ValueError
unless it fits the length of the mask. -/
theorem C77_mask_limit (q : Quantity α) (hq : q.WF) (k : Nat) (hk : k < q.ndim) (m : List Bool) (value : NDArray α)
    (hn : q.o k + 1 < q.n k) :
    (¬ Broadcastable value.shape ((q.extent.map Int.toNat).set k m.length) →
      viewSet q (along k (.mask m)) value = .error .valueError) ∧
    (Broadcastable value.shape ((q.extent.map Int.toNat).set k m.length) →
      ∃ q', viewSet q (along k (.mask m)) value = .ok q' ∧
        IsPut q k m.length (fun j => q.o k + if m.getD j false then 1 else 0) value q' ∧
        ∀ idx, ((idx.getD k 0 : Nat) : Int) ≠ q.o k → ((idx.getD k 0 : Nat) : Int) ≠ q.o k + 1 →
          q'.data.get idx = q.data.get idx) := by
  obtain ⟨w, h1, h2, h3⟩ := C76_mask_limit q hq k hk m hn
  obtain ⟨g1, g2⟩ := C77_view q hq.toLens (by omega) _ value w h1
  rw [h2] at g1 g2
  refine ⟨g1, fun hb => ?_⟩
  obtain ⟨q', e1, e2⟩ := g2 hb
  have h0 := (hq.inside k hk).1
  have hput : IsPut q k m.length (fun j => q.o k + if m.getD j false then 1 else 0) value q' := by
    refine put_of (get := viewGet) hq hk (fun d hd => ?_) (fun j hj => ?_) e2
    · refine C76_mask_limit { q with data := d } (wf_data hq hd) k hk m ?_
      unfold Quantity.n at hn ⊢
      show _ < ((d.shape.getD k 0 : Nat) : Int)
      rw [hd]
      exact hn
    · split <;> omega
  refine ⟨q', e1, hput, fun idx hi1 hi2 => hput.others idx fun out hout he => ?_⟩
  rw [← he, List.getD_eq_getElem?_getD, List.getElem?_set_self (by simp [absIdx, hq.origin]; exact hk)] at hi1 hi2
  simp only [Option.getD_some] at hi1 hi2
  generalize m.getD (out.getD k 0) false = t at hi1 hi2
  cases t
  · simp only [Bool.false_eq_true, if_false] at hi1
    omega
  · simp only [if_true] at hi2
    omega

/-- **C77**, limit: `view[..., None, ...] = x`, with the new axis before axis `p`, also overwrites the halo of the last axis
(where the wrong cuts fit into the axes). -/
theorem C77_newaxis_limit (q : Quantity α) (hq : q.WF) (p : Nat) (hp : p < q.ndim)
    (hfit : ∀ k, p < k → k < q.ndim → q.o k + q.e k ≤ q.n (k - 1)) (value : NDArray α) (hv : value.shape = []) :
    ∃ q', viewSet q (along p .newaxis) value = .ok q' ∧
      ∀ idx, InB ((q.extent.map Int.toNat).set p 1 ++ [q.data.shape.getD (q.ndim - 1) 0]) idx →
        q'.data.get ((absIdx q.origin idx).eraseIdx p ++ [idx.getD q.ndim 0]) = value.get [] := by
  obtain ⟨w, h1, h2, h3⟩ := C76_newaxis_limit q hq p hp hfit
  obtain ⟨-, g2⟩ := C77_view q hq.toLens (by omega) _ value w h1
  obtain ⟨q', e1, e2⟩ := g2 (by rw [hv]; intro k; right; rfl)
  refine ⟨q', e1, fun idx hidx => ?_⟩
  obtain ⟨b, hb1, hb2⟩ := e2.shown
  have hall : ∀ rel, InB w.shape rel → b.get rel = value.get [] := by
    intro rel hrel
    obtain ⟨place, c1, c2, -⟩ := hb1.get rel hrel
    rw [hv] at c1
    cases place with
    | nil => exact c2
    | cons _ _ => exact absurd c1 id
  by_cases hu : ∀ x y : α, x = y
  · exact hu _ _
  have hread : ∀ d : NDArray α, d.shape = q.data.shape → ∃ r, viewGet { q with data := d } (along p .newaxis) = .ok r ∧
      r.shape = w.shape ∧ ∀ rel, InB w.shape rel →
        r.get rel = d.get ((absIdx q.origin rel).eraseIdx p ++ [rel.getD q.ndim 0]) := by
    intro d hd
    obtain ⟨r, a1, a2, a3⟩ := C76_newaxis_limit { q with data := d } (wf_data hq hd) p hp (fun k hk1 hk2 => by
      have := hfit k hk1 hk2
      unfold Quantity.n at this ⊢
      show _ ≤ ((d.shape.getD (k - 1) 0 : Nat) : Int)
      rw [hd]
      exact this)
    have a2' : r.shape = w.shape := by rw [a2, h2]; show _ ++ [d.shape.getD _ _] = _; rw [hd]; rfl
    exact ⟨r, a1, a2', fun rel hrel => a3 rel (by rw [a2']; exact hrel)⟩
  have hsh : Shows (fun d : NDArray α => viewGet { q with data := d } (along p .newaxis)) q.data.shape w.shape
      ((absIdx q.origin idx).eraseIdx p ++ [idx.getD q.ndim 0]) idx := by
    refine ⟨by rw [h2]; exact hidx, fun d hd => ?_⟩
    obtain ⟨r, a1, a2, a3⟩ := hread d hd
    exact ⟨r, a1, a2, a3 idx (by rw [h2]; exact hidx)⟩
  rw [hb2 _ idx hsh fun rel' hs' => ?_]
  · exact hall idx (by rw [h2]; exact hidx)
  · -- shown nowhere else
    have heq : (absIdx q.origin rel').eraseIdx p ++ [rel'.getD q.ndim 0] =
        (absIdx q.origin idx).eraseIdx p ++ [idx.getD q.ndim 0] := by
      generalize (absIdx q.origin idx).eraseIdx p ++ [idx.getD q.ndim 0] = i at hs' ⊢
      rw [not_forall] at hu
      obtain ⟨x, hu⟩ := hu
      rw [not_forall] at hu
      obtain ⟨y, hxy⟩ := hu
      obtain ⟨r, c1, -, c3⟩ := hs'.2 ⟨q.data.shape, fun j => if j = i then x else y⟩ rfl
      obtain ⟨r', d1, -, d3⟩ := hread ⟨q.data.shape, fun j => if j = i then x else y⟩ rfl
      dsimp only at c1
      rw [c1] at d1
      cases d1
      have := d3 rel' hs'.1
      rw [c3] at this
      dsimp only at this
      rw [if_pos rfl] at this
      by_cases hc : (absIdx q.origin rel').eraseIdx p ++ [rel'.getD q.ndim 0] = i
      · exact hc
      · rw [if_neg hc] at this
        exact absurd this hxy
    obtain ⟨heq1, heq2⟩ := List.append_inj' heq rfl
    have heq2 : rel'.getD q.ndim 0 = idx.getD q.ndim 0 := by simpa using heq2
    have hi := (inB_iff _ _).1 hs'.1
    rw [h2] at hi
    have hlen : rel'.length = q.ndim + 1 := by rw [hi.1]; simp [hq.extent]
    rintro ⟨m, -, hm⟩
    by_cases hmp : m = p
    · have := hi.2 p (by simp [hq.extent]; omega)
      rw [List.getD_eq_getElem?_getD (l := _ ++ _), List.getElem?_append_left (by simp [hq.extent]; omega),
        List.getElem?_set_self (by simp [hq.extent]; omega)] at this
      simp only [Option.getD_some] at this
      rw [hmp] at hm
      omega
    · by_cases hmd : m < q.ndim
      · have key : (absIdx q.origin rel')[m]? = (absIdx q.origin idx)[m]? := by
          by_cases hlt : m < p
          · have := congrArg (fun l => l[m]?) heq1
            simpa [List.getElem?_eraseIdx_of_lt hlt] using this
          · have : ((absIdx q.origin rel').eraseIdx p)[m - 1]? = ((absIdx q.origin idx).eraseIdx p)[m - 1]? := by rw [heq1]
            rw [List.getElem?_eraseIdx_of_ge (by omega), List.getElem?_eraseIdx_of_ge (by omega)] at this
            rwa [show m - 1 + 1 = m by omega] at this
        have key : (absIdx q.origin rel').getD m 0 = (absIdx q.origin idx).getD m 0 := by
          rw [List.getD_eq_getElem?_getD, List.getD_eq_getElem?_getD, key]
        unfold absIdx at key
        rw [getD_tab _ _ (by rw [hq.origin]; exact hmd), getD_tab _ _ (by rw [hq.origin]; exact hmd)] at key
        have h0 := (hq.inside m hmd).1
        unfold Quantity.o at h0
        omega
      · by_cases hmn : m = q.ndim
        · rw [hmn] at hm; omega
        · rw [List.getD_eq_getElem?_getD (l := rel'), List.getElem?_eq_none (by omega)] at hm
          simp at hm

/-! ### cases -/

/-- A value with one axis. -/
def exV (l : List Nat) : NDArray Nat := ⟨[l.length], fun i => l.getD (i.getD 0 0) 0⟩

/-- The data after an assignment. -/
def showSet (r : Py (Quantity Nat)) : Py (List Nat × List (List Nat)) := show2 (r.map fun q => q.data)

example := C77_view exF exF_wf.toLens (by decide) (along 1 (.ints [2, 0, 2])) (exV [7, 8, 9]) _ rfl
example := (C77_array exF exF_wf 1 (by decide) [2, 0, 2] (exV [7, 8, 9]) (by simp [Quantity.o, Quantity.n, exF])).2
  ((fits_iff _ _).1 (by decide))
/-- Of the two values for point 2 the last one stays. -/
example : showSet (viewSet exF (along 1 (.ints [2, 0, 2])) (exV [7, 8, 9])) =
    .ok ([6, 5], [[0, 1, 2, 3, 4], [10, 8, 12, 9, 14], [20, 8, 22, 9, 24], [30, 8, 32, 9, 34], [40, 8, 42, 9, 44],
      [50, 51, 52, 53, 54]]) := by decide +kernel
example := (C77_array exF exF_wf 1 (by decide) [2, 0] (exV [7, 8, 9]) (by simp [Quantity.o, Quantity.n, exF])).1
  (fun h => absurd ((fits_iff _ _).2 h) (by decide))
example := C77_array_read_back exF exF_wf 1 (by decide) [2, 0, -1] (by decide) (exV [7, 8, 9])
  (by simp [Quantity.o, Quantity.n, exF]) ((fits_iff _ _).1 (by decide))
example := (C77_mask_limit exF exF_wf 0 (by decide) [false, false, true, true] ⟨[], fun _ => 7⟩ (by decide)).2
  ((fits_iff _ _).1 (by decide))
/-- `view[[False, False, True, True]] = 7` sets the rows 0 and 1. -/
example : showSet (viewSet exF (.one (.mask [false, false, true, true])) ⟨[], fun _ => 7⟩) =
    .ok ([6, 5], [[0, 1, 2, 3, 4], [10, 7, 7, 7, 14], [20, 7, 7, 7, 24], [30, 31, 32, 33, 34], [40, 41, 42, 43, 44],
      [50, 51, 52, 53, 54]]) := by decide +kernel
example := C77_newaxis_limit exF exF_wf 0 (by decide) (by
  intro k h1 h2
  have : k = 1 := by change k < 2 at h2; omega
  subst this
  decide) ⟨[], fun _ => 7⟩ rfl
/-- `view[None] = 7` sets halo points. -/
example : showSet (viewSet exF (.one .newaxis) ⟨[], fun _ => 7⟩) =
    .ok ([6, 5], [[0, 1, 2, 3, 4], [7, 7, 7, 7, 7], [7, 7, 7, 7, 7], [7, 7, 7, 7, 7], [40, 41, 42, 43, 44],
      [50, 51, 52, 53, 54]]) := by decide +kernel
example := C77_list_limit exF [.int 0, .int 2] .nw ⟨[], fun _ => 7⟩
example := C77_same exF (.tuple [.int 0, .slice .full]) .nw ⟨[], fun _ => 7⟩
example := C77_corner exF exF_wf.toLens (by decide) .ne (along 0 (.ints [-1, 0])) ⟨[], fun _ => 7⟩ _ rfl
example := (C77_corner_array exF exF_wf .ne 0 (by decide) [-1, 0] ⟨[], fun _ => 7⟩ (by
  simp [viewBase, cornerBase, dirAlong, IsX, IsY, BType.dx, BType.dy, Quantity.d, Quantity.o, Quantity.e, Quantity.n,
    exF])).2 ((fits_iff _ _).1 (by decide))
example := (C77_same_error exF exF_wf.toLens (by decide) (along 1 (.ints [2, 4])) .nw ⟨[], fun _ => 7⟩ _).1
  (C76_array_outside exF exF_wf 1 (by decide) [2, 4] ⟨4, by decide, by decide⟩)

end FV3.Fancy
