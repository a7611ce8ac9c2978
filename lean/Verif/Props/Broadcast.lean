import Verif.Model.Quantity
import Verif.Model.Collective
import Verif.Proofs.Broadcast
import Verif.Proofs.MemorySpec

/-!
# C63 Assignments to views broadcast, and reading gives back what was assigned
-/

namespace FV3
variable {α : Type}

/-- What is changed by `b := a` with `a[ix] = value`, where `a[ix]` was `r0`. -/
theorem setItem_back {a value r0 : NDArray α} {ix : List Ix} (h : a.getItem ix = .ok r0) :
    (¬ Broadcastable value.shape r0.shape → a.setItem ix value = .error .valueError) ∧
    (Broadcastable value.shape r0.shape → ∃ b r, a.setItem ix value = .ok b ∧ b.shape = a.shape ∧
      b.getItem ix = .ok r ∧ IsBroadcast value r0.shape r ∧
      ∀ idx, InB a.shape idx → b.get idx = a.get idx ∨ ∃ rel, InB r0.shape rel ∧
        ∀ d : NDArray α, d.shape = a.shape → ∃ r, d.getItem ix = .ok r ∧ r.get rel = d.get idx) := by
  unfold NDArray.getItem at h
  cases hr : resolveAll ix a.shape with
  | error e => rw [hr] at h; cases h
  | ok rs =>
    rw [hr] at h
    cases h
    have hrs := Strided.resolveAll_ok hr
    refine ⟨fun hn => ?_, fun hb => ?_⟩
    · unfold NDArray.setItem
      rw [hr]
      exact if_neg fun h => hn ((fits_iff _ _).1 h)
    · have hset : a.setItem ix value = .ok (a.assign rs (value.stretch (viewShape rs))) := by
        unfold NDArray.setItem
        rw [hr]
        exact if_pos ((fits_iff _ _).2 hb)
      refine ⟨_, (a.assign rs (value.stretch (viewShape rs))).view rs, hset, rfl, ?_, ?_, fun idx hi => ?_⟩
      · unfold NDArray.getItem
        rw [show (a.assign rs (value.stretch (viewShape rs))).shape = a.shape from rfl, hr]
        rfl
      · refine ⟨rfl, fun rel hrel => ?_⟩
        obtain ⟨place, h1, h2, h3⟩ := (stretch_spec hb).get rel hrel
        refine ⟨place, h1, ?_, h3⟩
        rw [← h2]
        show (match unview rs (viewIdx rs rel) with
          | some rel => (value.stretch (viewShape rs)).get rel
          | none => a.get (viewIdx rs rel)) = _
        rw [(Mem.unview_iff hrs (Strided.viewIdx_inB hrs hrel)).2 ⟨hrel, rfl⟩]
        rfl
      · show (match unview rs idx with
          | some rel => (value.stretch (viewShape rs)).get rel
          | none => a.get idx) = _ ∨ _
        cases hu : unview rs idx with
        | none => exact .inl rfl
        | some rel =>
          obtain ⟨h1, h2⟩ := (Mem.unview_iff hrs hi).1 hu
          refine .inr ⟨rel, h1, fun d hd => ⟨d.view rs, ?_, ?_⟩⟩
          · unfold NDArray.getItem
            rw [hd, hr]
            rfl
          · show d.get (viewIdx rs rel) = _
            rw [h2]

/-- Element `idx` of an array of shape `shape` is what `get` shows at place `rel`, whatever the elements are. -/
def ShownAt (get : NDArray α → Py (NDArray α)) (shape idx rel : List Nat) : Prop :=
  ∀ d : NDArray α, d.shape = shape → ∃ r, get d = .ok r ∧ r.get rel = d.get idx

/-- After an assignment: the value, broadcast, is read; the metadata and all elements that are not shown are as before. -/
structure Assigned (q q' : Quantity α) (get : Quantity α → Py (NDArray α)) (value r0 : NDArray α) : Prop where
  dims : q'.dims = q.dims
  units : q'.units = q.units
  origin : q'.origin = q.origin
  extent : q'.extent = q.extent
  shape : q'.data.shape = q.data.shape
  reads : ∃ r, get q' = .ok r ∧ IsBroadcast value r0.shape r
  others : ∀ idx, InB q.data.shape idx → q'.data.get idx = q.data.get idx ∨
    ∃ rel, InB r0.shape rel ∧ ShownAt (fun d => get { q with data := d }) q.data.shape idx rel

/-- **C63**: an assignment through `view`, with any index that can be read.  If the value cannot be broadcast to the
shape that is read, ValueError is raised (and the quantity is as before).  Otherwise the same index reads the value,
broadcast, and no element that was not shown through this index has changed. -/
theorem C63_view (q : Quantity α) (hpos : 0 < q.origin.length) (v : VIdx) (value r0 : NDArray α)
    (h : q.viewGet v = .ok r0) :
    (¬ Broadcastable value.shape r0.shape → q.viewSet v value = .error .valueError) ∧
    (Broadcastable value.shape r0.shape → ∃ q', q.viewSet v value = .ok q' ∧
      Assigned q q' (fun q => q.viewGet v) value r0) := by
  have hget : ∀ d : NDArray α, d.shape = q.data.shape → ∀ ix, q.computeIndex v = .ok ix →
      ({ q with data := d } : Quantity α).viewGet v = d.getItem ix := by
    intro d hd ix hix
    have e : ({ q with data := d } : Quantity α).computeIndex v = q.computeIndex v := by
      unfold Quantity.computeIndex
      simp only [hd]
    unfold Quantity.viewGet
    rw [if_neg (by show ¬ q.origin.length = 0; omega), e, hix]
    rfl
  cases hix : q.computeIndex v with
  | error e =>
    unfold Quantity.viewGet at h
    rw [if_neg (by omega), hix] at h
    cases h
  | ok ix =>
    have h0 : q.data.getItem ix = .ok r0 := by rw [← hget q.data rfl ix hix]; exact h
    obtain ⟨h1, h2⟩ := setItem_back (value := value) h0
    refine ⟨fun hn => ?_, fun hb => ?_⟩
    · unfold Quantity.viewSet
      rw [hix]
      show (q.data.setItem ix value >>= fun d => _) = _
      rw [h1 hn]
      rfl
    · obtain ⟨b, r, e1, e2, e3, e4, e5⟩ := h2 hb
      refine ⟨{ q with data := b }, ?_, rfl, rfl, rfl, rfl, e2, ⟨r, ?_, e4⟩, fun idx hi => ?_⟩
      · unfold Quantity.viewSet
        rw [hix]
        show (q.data.setItem ix value >>= fun d => _) = _
        rw [e1]
        rfl
      · show ({ q with data := b } : Quantity α).viewGet v = _
        rw [hget b e2 ix hix]
        exact e3
      · rcases e5 idx hi with e | ⟨rel, hr, e⟩
        · exact .inl e
        · refine .inr ⟨rel, hr, fun d hd => ?_⟩
          show ∃ r, ({ q with data := d } : Quantity α).viewGet v = .ok r ∧ _
          rw [hget d hd ix hix]
          exact e d hd

/-- **C63**: the same for the corners and the interior. -/
theorem C63_corner (q : Quantity α) (hpos : 0 < q.origin.length) (c : Corner) (v : VIdx) (value r0 : NDArray α)
    (h : q.cornerGet c v = .ok r0) :
    (¬ Broadcastable value.shape r0.shape → q.cornerSet c v value = .error .valueError) ∧
    (Broadcastable value.shape r0.shape → ∃ q', q.cornerSet c v value = .ok q' ∧
      Assigned q q' (fun q => q.cornerGet c v) value r0) := by
  have hget : ∀ d : NDArray α, d.shape = q.data.shape → ∀ ix, q.cornerIndex c v = .ok ix →
      ({ q with data := d } : Quantity α).cornerGet c v = d.getItem ix := by
    intro d hd ix hix
    have e : ({ q with data := d } : Quantity α).cornerIndex c v = q.cornerIndex c v := by
      unfold Quantity.cornerIndex
      simp only [hd]
    unfold Quantity.cornerGet
    rw [if_neg (by show ¬ q.origin.length = 0; omega), e, hix]
    rfl
  cases hix : q.cornerIndex c v with
  | error e =>
    unfold Quantity.cornerGet at h
    rw [if_neg (by omega), hix] at h
    cases h
  | ok ix =>
    have h0 : q.data.getItem ix = .ok r0 := by rw [← hget q.data rfl ix hix]; exact h
    obtain ⟨h1, h2⟩ := setItem_back (value := value) h0
    refine ⟨fun hn => ?_, fun hb => ?_⟩
    · unfold Quantity.cornerSet
      rw [hix]
      show (q.data.setItem ix value >>= fun d => _) = _
      rw [h1 hn]
      rfl
    · obtain ⟨b, r, e1, e2, e3, e4, e5⟩ := h2 hb
      refine ⟨{ q with data := b }, ?_, rfl, rfl, rfl, rfl, e2, ⟨r, ?_, e4⟩, fun idx hi => ?_⟩
      · unfold Quantity.cornerSet
        rw [hix]
        show (q.data.setItem ix value >>= fun d => _) = _
        rw [e1]
        rfl
      · show ({ q with data := b } : Quantity α).cornerGet c v = _
        rw [hget b e2 ix hix]
        exact e3
      · rcases e5 idx hi with e | ⟨rel, hr, e⟩
        · exact .inl e
        · refine .inr ⟨rel, hr, fun d hd => ?_⟩
          show ∃ r, ({ q with data := d } : Quantity α).cornerGet c v = .ok r ∧ _
          rw [hget d hd ix hix]
          exact e d hd

/-- 2×3 points with halo points around them. -/
def exAssign : Quantity Nat :=
  { data := ⟨[4, 5], fun _ => 0⟩, dims := [.y, .x], units := "m", origin := [1, 1], extent := [2, 3] }

/-- The elements after an assignment to `view[ix]`, or the exception. -/
def exAssigned (ix : VIdx) (value : NDArray Nat) : Py (List Nat) :=
  (exAssign.viewSet ix value).map fun q => (allIdx q.data.shape).map q.data.get

/-- A row is repeated, a scalar too; an array of two elements fits to no axis; surplus axes must have length 1. -/
example :
    exAssigned (.one (.slice .full)) ⟨[3], fun i => 1 + i.getD 0 0⟩ =
      .ok [0, 0, 0, 0, 0,  0, 1, 2, 3, 0,  0, 1, 2, 3, 0,  0, 0, 0, 0, 0] ∧
    exAssigned (.tuple [.int 1]) ⟨[], fun _ => 7⟩ =
      .ok [0, 0, 0, 0, 0,  0, 0, 0, 0, 0,  0, 7, 7, 7, 0,  0, 0, 0, 0, 0] ∧
    exAssigned (.tuple [.int 1]) ⟨[1, 3], fun i => i.getD 1 0⟩ =
      .ok [0, 0, 0, 0, 0,  0, 0, 0, 0, 0,  0, 0, 1, 2, 0,  0, 0, 0, 0, 0] ∧
    exAssigned (.one (.slice .full)) ⟨[2], fun _ => 1⟩ = .error .valueError ∧
    exAssigned (.tuple [.int 1]) ⟨[2, 3], fun _ => 1⟩ = .error .valueError := by decide +kernel

/-- The hypotheses can be met. -/
example : ∃ r0, exAssign.viewGet (.one (.slice .full)) = .ok r0 ∧ r0.shape = [2, 3] ∧ 0 < exAssign.origin.length ∧
    Broadcastable [3] r0.shape ∧ ¬ Broadcastable [2] r0.shape :=
  ⟨_, rfl, rfl, by decide, (fits_iff _ _).1 (by decide), fun h => absurd ((fits_iff _ _).2 h) (by decide)⟩

example : ∃ r0, exAssign.cornerGet .ne (.tuple [.slice (.of (-1) 0), .slice (.of (-2) 0)]) = .ok r0 ∧
    r0.shape = [1, 2] ∧ Broadcastable [2] r0.shape :=
  ⟨_, rfl, rfl, (fits_iff _ _).1 (by decide)⟩

/-- **C26, limit.**  A receive quantity of the wrong size is not always rejected: if the ranks send one point each, and
the quantity of the root has room for two points for each of them, every point is stored twice. -/
theorem C26_broadcast_limit (a b x : α) : ∃ q',
    gatherStore (.tile ⟨1, 2⟩) [(0, ⟨[1, 1], fun _ => a⟩), (1, ⟨[1, 1], fun _ => b⟩)]
      ⟨⟨[1, 4], fun _ => x⟩, [.y, .x], "", [0, 0], [1, 4]⟩ = .ok q' ∧
    (allIdx q'.data.shape).map q'.data.get = [a, a, b, b] := ⟨_, rfl, rfl⟩

end FV3
