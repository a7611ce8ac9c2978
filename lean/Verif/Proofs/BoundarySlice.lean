import Verif.Spec.Quantity
import Verif.Proofs.NDLemmas
import Verif.Proofs.Partition

namespace FV3

theorem overlapOf_eq (d : Dim) : (if d ∈ INTERFACE_DIMS then (1 : Int) else 0) = overlapOf d := by
  simp [overlapOf, INTERFACE_DIMS]

theorem boundaryRange_recv (d : Dim) (o e : Int) (b : BType) (h : Int) :
    boundaryRange d o e b h false = recvRange b h d o e := by
  cases d <;> cases b <;>
    simp [boundaryRange, recvRange, dirAlong, IsX, IsY, BType.dx, BType.dy, boundaryAtStartOfDim,
      HORIZONTAL_DIMS, X_DIMS, Y_DIMS]

theorem boundaryRange_send (d : Dim) (o e : Int) (b : BType) (h : Int) :
    boundaryRange d o e b h true = sendRange b h d o e := by
  cases d <;> cases b <;>
    simp [boundaryRange, sendRange, dirAlong, IsX, IsY, BType.dx, BType.dy, boundaryAtStartOfDim,
      HORIZONTAL_DIMS, X_DIMS, Y_DIMS, overlapOf, INTERFACE_DIMS]

theorem getBoundarySlice_tab (b : BType) (h : Int) (int : Bool) (m : Nat) (dims : List Dim)
    (os es : List Int) (ns : List Nat) (hd : dims.length = m) (ho : os.length = m)
    (he : es.length = m) (hn : ns.length = m) :
    getBoundarySlice b h int dims os es ns =
      if ∀ k, k < m →
          0 ≤ (boundaryRange (dims.getD k .x) (os.getD k 0) (es.getD k 0) b h int).1 ∧
          (boundaryRange (dims.getD k .x) (os.getD k 0) (es.getD k 0) b h int).2 ≤
            (ns.getD k 0 : Nat) then
        .ok (tab m fun k =>
          PySlice.of (boundaryRange (dims.getD k .x) (os.getD k 0) (es.getD k 0) b h int).1
            (boundaryRange (dims.getD k .x) (os.getD k 0) (es.getD k 0) b h int).2)
      else .error .outOfBounds := by
  induction m generalizing dims os es ns with
  | zero =>
    have h1 : dims = [] := List.length_eq_zero_iff.1 hd
    subst h1
    simp [getBoundarySlice]
  | succ m ih =>
    match dims, os, es, ns, hd, ho, he, hn with
    | d :: ds, o :: os, e :: es, n :: ns, hd, ho, he, hn =>
      have key := ih ds os es ns (by simpa using hd) (by simpa using ho) (by simpa using he)
        (by simpa using hn)
      simp only [getBoundarySlice]
      rw [key]
      by_cases h1 : (boundaryRange d o e b h int).1 < 0
      · rw [if_pos h1, if_neg]
        intro hh
        have := (hh 0 (by omega)).1
        simp at this; omega
      · rw [if_neg h1]
        by_cases h2 : (boundaryRange d o e b h int).2 > n
        · rw [if_pos h2, if_neg]
          intro hh
          have := (hh 0 (by omega)).2
          simp at this; omega
        · rw [if_neg h2]
          by_cases h3 : ∀ k, k < m →
              0 ≤ (boundaryRange (ds.getD k .x) (os.getD k 0) (es.getD k 0) b h int).1 ∧
              (boundaryRange (ds.getD k .x) (os.getD k 0) (es.getD k 0) b h int).2 ≤
                (ns.getD k 0 : Nat)
          · rw [if_pos h3, if_pos]
            · rw [tab_succ]
              rfl
            · intro k hk
              cases k with
              | zero => simp; omega
              | succ k => simpa using h3 k (by omega)
          · rw [if_neg h3, if_neg]
            · rfl
            · intro hh
              exact h3 fun k hk => by simpa using hh (k + 1) (by omega)

variable {α : Type}

theorem recvSlice_eq (q : Quantity α) (hq : q.Lens) (b : BType) (h : Int) :
    getBoundarySlice b h false q.dims q.origin q.extent q.data.shape =
      if RecvFits q b h then
        .ok (tab q.ndim fun k => PySlice.of (recvRange b h (q.d k) (q.o k) (q.e k)).1
          (recvRange b h (q.d k) (q.o k) (q.e k)).2)
      else .error .outOfBounds := by
  rw [getBoundarySlice_tab b h false q.ndim _ _ _ _ rfl hq.origin hq.extent hq.shape]
  simp only [boundaryRange_recv]
  rfl

theorem sendSlice_eq (q : Quantity α) (hq : q.Lens) (b : BType) (h : Int) :
    getBoundarySlice b h true q.dims q.origin q.extent q.data.shape =
      if SendFits q b h then
        .ok (tab q.ndim fun k => PySlice.of (sendRange b h (q.d k) (q.o k) (q.e k)).1
          (sendRange b h (q.d k) (q.o k) (q.e k)).2)
      else .error .outOfBounds := by
  rw [getBoundarySlice_tab b h true q.ndim _ _ _ _ rfl hq.origin hq.extent hq.shape]
  simp only [boundaryRange_send]
  rfl

/-- Start and length of the send and receive ranges per axis. -/
def sStart (q : Quantity α) (b : BType) (h : Int) (k : Nat) : Int :=
  (sendRange b h (q.d k) (q.o k) (q.e k)).1
def sLen (q : Quantity α) (b : BType) (h : Int) (k : Nat) : Nat :=
  ((sendRange b h (q.d k) (q.o k) (q.e k)).2 - (sendRange b h (q.d k) (q.o k) (q.e k)).1).toNat
def rStart (q : Quantity α) (b : BType) (h : Int) (k : Nat) : Int :=
  (recvRange b h (q.d k) (q.o k) (q.e k)).1
def rLen (q : Quantity α) (b : BType) (h : Int) (k : Nat) : Nat :=
  ((recvRange b h (q.d k) (q.o k) (q.e k)).2 - (recvRange b h (q.d k) (q.o k) (q.e k)).1).toNat

/-- The array sent. -/
def sendArr (q : Quantity α) (b : BType) (h : Int) : NDArray α :=
  ⟨tab q.ndim (sLen q b h), fun rel =>
    q.data.get (tab q.ndim fun k => (sStart q b h k + at' rel k).toNat)⟩

theorem range_le (b : BType) {h e : Int} (d : Dim) (o : Int) (hh : 0 ≤ h) (he : 0 ≤ e) :
    (sendRange b h d o e).1 ≤ (sendRange b h d o e).2 ∧
    (recvRange b h d o e).1 ≤ (recvRange b h d o e).2 := by
  unfold sendRange recvRange
  constructor <;> (split <;> [skip; split]) <;> dsimp only <;> omega

theorem sendView_eq (q : Quantity α) (hq : q.WF) (b : BType) {h : Int} (hh : 0 ≤ h)
    (hf : SendFits q b h) : sendView q b h = .ok (sendArr q b h) := by
  unfold sendView boundaryViewIndex
  rw [sendSlice_eq q hq.toLens b h, if_pos hf]
  simp only [bind, Except.bind, pure, Except.pure, NDArray.getItem, map_tab]
  rw [resolveAll_box q.ndim _ _ _ hq.shape]
  · simp only [NDArray.view, viewShape_box, viewIdx_box]
    rfl
  · intro k hk
    have := hf k hk
    have hi := hq.inside k hk
    exact ⟨this.1, (range_le b _ _ hh hi.2.1).1, this.2⟩

theorem sendView_error (q : Quantity α) (hq : q.Lens) (b : BType) {h : Int}
    (hf : ¬ SendFits q b h) : sendView q b h = .error .outOfBounds := by
  unfold sendView boundaryViewIndex
  rw [sendSlice_eq q hq b h, if_neg hf]
  rfl

/-- Index tuple of the receive view. -/
def recvIx (q : Quantity α) (b : BType) (h : Int) : List Ix :=
  tab q.ndim fun k => .slice (PySlice.of (recvRange b h (q.d k) (q.o k) (q.e k)).1
    (recvRange b h (q.d k) (q.o k) (q.e k)).2)

theorem recvIndex_eq (q : Quantity α) (hq : q.Lens) (b : BType) (h : Int) :
    recvIndex q b h = if RecvFits q b h then .ok (recvIx q b h) else .error .outOfBounds := by
  unfold recvIndex boundaryViewIndex
  rw [recvSlice_eq q hq b h]
  split
  · simp only [bind, Except.bind, pure, Except.pure, map_tab]; rfl
  · rfl

theorem recvResolve (q : Quantity α) (hq : q.WF) (b : BType) {h : Int} (hh : 0 ≤ h)
    (hf : RecvFits q b h) :
    resolveAll (recvIx q b h) q.data.shape = .ok (boxRs q.ndim (rStart q b h) (rLen q b h)) := by
  unfold recvIx
  rw [resolveAll_box q.ndim _ _ _ hq.shape]
  · rfl
  · intro k hk
    have := hf k hk
    have hi := hq.inside k hk
    exact ⟨this.1, (range_le b _ _ hh hi.2.1).2, this.2⟩

end FV3
