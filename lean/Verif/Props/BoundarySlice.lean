import Verif.Proofs.BoundarySlice
import Batteries.Lean.Except

/-!
# C12: boundary slices
-/

namespace FV3
variable {α : Type}

theorem HAxes.d_y {q : Quantity α} {ky kx : Nat} (h : HAxes q.dims ky kx) {k : Nat}
    (hk : k < q.ndim) : IsY (q.d k) ↔ k = ky := by
  refine h.y k (q.d k) ?_
  unfold Quantity.d
  rw [getD_lt _ hk, List.getElem?_eq_getElem hk]

theorem HAxes.d_x {q : Quantity α} {ky kx : Nat} (h : HAxes q.dims ky kx) {k : Nat}
    (hk : k < q.ndim) : IsX (q.d k) ↔ k = kx := by
  refine h.x k (q.d k) ?_
  unfold Quantity.d
  rw [getD_lt _ hk, List.getElem?_eq_getElem hk]

theorem isX_not_isY {d : Dim} (h : IsX d) : ¬ IsY d := by
  unfold IsX IsY at *; rcases h with rfl | rfl <;> simp

theorem HAxes.ne {q : Quantity α} {ky kx : Nat} (h : HAxes q.dims ky kx) : ky ≠ kx := by
  intro e
  have h1 := (h.d_y (q := q) h.ylt).2 rfl
  have h2 := (h.d_x (q := q) h.xlt).2 rfl
  rw [e] at h1
  exact isX_not_isY h2 h1

theorem dirAlong_x {q : Quantity α} {ky kx : Nat} (h : HAxes q.dims ky kx) (b : BType) :
    dirAlong b (q.d kx) = b.dx := by
  unfold dirAlong; rw [if_pos ((h.d_x h.xlt).2 rfl)]

theorem dirAlong_y {q : Quantity α} {ky kx : Nat} (h : HAxes q.dims ky kx) (b : BType) :
    dirAlong b (q.d ky) = b.dy := by
  unfold dirAlong
  have hy := (h.d_y h.ylt).2 rfl
  rw [if_neg (fun hx => isX_not_isY hx hy), if_pos hy]

theorem dirAlong_other {q : Quantity α} {ky kx : Nat} (h : HAxes q.dims ky kx) (b : BType)
    {k : Nat} (hk : k < q.ndim) (h1 : k ≠ ky) (h2 : k ≠ kx) : dirAlong b (q.d k) = 0 := by
  unfold dirAlong
  rw [if_neg (fun hx => h2 ((h.d_x hk).1 hx)), if_neg (fun hx => h1 ((h.d_y hk).1 hx))]

theorem BType.dir_range (b : BType) : (b.dx = -1 ∨ b.dx = 0 ∨ b.dx = 1) ∧
    (b.dy = -1 ∨ b.dy = 0 ∨ b.dy = 1) ∧ ¬ (b.dx = 0 ∧ b.dy = 0) := by cases b <;> decide

theorem overlapOf_nonneg (d : Dim) : 0 ≤ overlapOf d := by unfold overlapOf; split <;> omega

/-- **C12**: the boundary slice is the intended range on every axis, and OutOfBoundsError
is raised exactly when one of these ranges leaves the array. -/
theorem C12_slice_or_error (q : Quantity α) (hq : q.Lens) (b : BType) (h : Int) :
    (RecvFits q b h → getBoundarySlice b h false q.dims q.origin q.extent q.data.shape =
      .ok (tab q.ndim fun k => PySlice.of (recvRange b h (q.d k) (q.o k) (q.e k)).1
          (recvRange b h (q.d k) (q.o k) (q.e k)).2)) ∧
    (¬ RecvFits q b h → getBoundarySlice b h false q.dims q.origin q.extent q.data.shape =
      .error .outOfBounds) ∧
    (SendFits q b h → getBoundarySlice b h true q.dims q.origin q.extent q.data.shape =
      .ok (tab q.ndim fun k => PySlice.of (sendRange b h (q.d k) (q.o k) (q.e k)).1
          (sendRange b h (q.d k) (q.o k) (q.e k)).2)) ∧
    (¬ SendFits q b h → getBoundarySlice b h true q.dims q.origin q.extent q.data.shape =
      .error .outOfBounds) := by
  rw [recvSlice_eq q hq, sendSlice_eq q hq]
  exact ⟨fun h => if_pos h, fun h => if_neg h, fun h => if_pos h, fun h => if_neg h⟩

/-- **C12**: receive regions are outside the compute domain and pairwise disjoint. -/
theorem C12_recv_outside_disjoint (q : Quantity α) (ky kx : Nat) (hA : HAxes q.dims ky kx)
    (hw : q.WF) (b : BType) (h : Int) (idx : List Nat) (hi : InRecv q b h idx) :
    ¬ q.InCompute idx ∧ ∀ b' h', InRecv q b' h' idx → b' = b := by
  have hx := hi.2 kx hA.xlt
  have hy := hi.2 ky hA.ylt
  have ex := (hw.inside kx hA.xlt).2.1
  have ey := (hw.inside ky hA.ylt).2.1
  simp only [recvRange, dirAlong_x hA, dirAlong_y hA] at hx hy
  obtain ⟨d1, d2, d3⟩ := b.dir_range
  constructor
  · intro hc
    have c1 := hc.2 kx hA.xlt
    have c2 := hc.2 ky hA.ylt
    unfold Quantity.InDom at c1 c2
    split at hx <;> split at hy <;> (try split at hx) <;> (try split at hy) <;>
      dsimp only at hx hy <;> omega
  · intro b' h' hi'
    have hx' := hi'.2 kx hA.xlt
    have hy' := hi'.2 ky hA.ylt
    simp only [recvRange, dirAlong_x hA, dirAlong_y hA] at hx' hy'
    obtain ⟨e1, e2, e3⟩ := b'.dir_range
    apply BType.eq_of_step
    · clear hy hy' 
      rcases d1 with d | d | d <;> rcases e1 with e | e | e <;> simp [d, e] at hx hx' ⊢ <;> omega
    · clear hx hx'
      rcases d2 with d | d | d <;> rcases e2 with e | e | e <;> simp [d, e] at hy hy' ⊢ <;> omega

/-- **C12**: send regions lie inside the compute domain when no more points are requested
than the rank has (not counting shared interface points). -/
theorem C12_send_inside (q : Quantity α) (b : BType) (h : Int)
    (hx : ∀ k, k < q.ndim → dirAlong b (q.d k) ≠ 0 → h ≤ q.e k - overlapOf (q.d k))
    (idx : List Nat) (hi : InSend q b h idx) : q.InCompute idx := by
  refine ⟨hi.1, fun k hk => ?_⟩
  have h1 := hi.2 k hk
  have h2 := hx k hk
  have h3 := overlapOf_nonneg (q.d k)
  unfold Quantity.InDom
  simp only [sendRange] at h1
  split at h1 <;> [skip; split at h1] <;> dsimp only at h1 <;> omega

/-- **C12**: both kinds of region contain only valid array indices. -/
theorem C12_in_bounds (q : Quantity α) (hq : q.Lens) (b : BType) (h : Int) (idx : List Nat) :
    (RecvFits q b h → InRecv q b h idx → InB q.data.shape idx) ∧
    (SendFits q b h → InSend q b h idx → InB q.data.shape idx) := by
  constructor <;>
  · intro hf hi
    rw [inB_iff]
    refine ⟨hi.1.trans hq.shape.symm, fun k hk => ?_⟩
    rw [hq.shape] at hk
    have h1 := hi.2 k hk
    have h2 := hf k hk
    unfold Quantity.n at h2
    unfold at' at h1
    omega

/-- A quantity with two halo points around a 3 x 4 compute domain. -/
def exQ : Quantity Nat :=
  { data := ⟨[7, 8, 2], fun i => i.getD 0 0 * 100 + i.getD 1 0 * 10 + i.getD 2 0⟩
    dims := [.y, .x, .z], units := "m", origin := [2, 2, 0], extent := [3, 4, 2] }

theorem exQ_wf : exQ.WF := ⟨⟨rfl, rfl, rfl⟩, by unfold Quantity.ndim Quantity.o Quantity.e Quantity.n; decide⟩

theorem exQ_axes : HAxes exQ.dims 0 1 := by
  refine ⟨?_, ?_, by decide, by decide⟩ <;>
  · intro k d h
    match k, h with
    | 0, h => simp [exQ] at h; subst h; simp [IsX, IsY]
    | 1, h => simp [exQ] at h; subst h; simp [IsX, IsY]
    | 2, h => simp [exQ] at h; subst h; simp [IsX, IsY]
    | k + 3, h => simp [exQ] at h

example : RecvFits exQ .nw 2 ∧ ¬ RecvFits exQ .nw 3 ∧ SendFits exQ .se 2 := by decide
example : InRecv exQ .nw 2 [5, 1, 1] := by unfold InRecv Quantity.ndim; decide
example : getBoundarySlice .nw 2 false exQ.dims exQ.origin exQ.extent exQ.data.shape =
    .ok [.of 5 7, .of 0 2, .of 0 2] := by decide +kernel

/-- Asking for more points than the compute domain has silently selects halo points. -/
theorem C12_send_may_leave_compute_domain : ∃ idx, SendFits exQ .north 4 ∧
    InSend exQ .north 4 idx ∧ ¬ exQ.InCompute idx := by
  refine ⟨[1, 2, 0], by decide, by unfold InSend Quantity.ndim; decide, ?_⟩
  intro h
  have := h.2 0 (by decide)
  revert this
  unfold Quantity.InDom
  decide

end FV3
