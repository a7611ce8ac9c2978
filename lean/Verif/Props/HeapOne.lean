import Verif.Props.HeapAsync

/-!
# C80, C81: what calls do to memory has one outcome

The specifications of calls on memory (Spec/HeapComm.lean, Spec/HeapAsync.lean) are relations.  They leave no choice: from the
same memory of the ranks they lead to the same memory of the ranks.
-/

namespace FV3
namespace Heap
open Mem (World Gt4py Reachable)
open Strided
variable {α : Type} [Inhabited α] {g : Gt4py} {l : Layout}

/-- Memory is known when it is known in the cells of some variables and unchanged elsewhere. -/
theorem OnlyCells.one {qs : List Nat} {W W1 W2 : World α} (h1 : OnlyCells (fun h _ => h ∈ qs) W W1)
    (h2 : OnlyCells (fun h _ => h ∈ qs) W W2) (e : ∀ h ∈ qs, quantities W1 h = quantities W2 h) : W1 = W2 := by
  have hm : W1.mem = W2.mem := by
    funext a
    by_cases hc : ∃ h idx, h ∈ qs ∧ Cell W h idx a
    · obtain ⟨h, idx, hh, x, hx, hin, ha⟩ := hc
      have := e h hh
      rw [quantities_eq ((dataOf_congr h1.arrs h1.objs h).trans hx), quantities_eq ((dataOf_congr h2.arrs h2.objs h).trans hx)]
        at this
      have k : (clip (x.2.1.view.read W1.mem)).get idx = (clip (x.2.1.view.read W2.mem)).get idx :=
        congrArg (fun q : Quantity α => q.data.get idx) this
      simp only [clip, View.read, if_pos hin, ha] at k
      exact k
    · rcases h1.mem a with k | k
      · rcases h2.mem a with k' | k'
        · rw [k, k']
        · exact absurd k' hc
      · exact absurd k hc
  cases W1
  cases W2
  have := h1.next.trans h2.next.symm
  have := h1.arrs.trans h2.arrs.symm
  have := h1.objs.trans h2.objs.symm
  simp_all

variable [Neg α]

/-- What is packed for a rank comes from ranks. -/
theorem packed_ranks {op : Op α} {m m' : Int → FV3.Mem α} (h : ∀ r ∈ allRanks l, m r = m' r) (r src : Int) (off : Nat) :
    packedFor l op m r src off = packedFor l op m' r src off := by
  unfold packedFor
  split
  · next hs => rw [h src hs]
  · rfl

theorem wait_one {op : Op α} {A0 A A1 B0 B B1 : Int → World α} (h0 : ∀ r ∈ allRanks l, A0 r = B0 r)
    (h : ∀ r ∈ allRanks l, A r = B r) (ha : HWait l op A0 A A1) (hb : HWait l op B0 B B1) :
    ∀ r ∈ allRanks l, A1 r = B1 r := by
  intro r hr
  obtain ⟨m, a1, a2⟩ := ha
  obtain ⟨m', b1, b2⟩ := hb
  obtain ⟨i, i1, i2⟩ := a1 r hr
  obtain ⟨j, j1, j2⟩ := b1 r hr
  obtain ⟨a3, a4⟩ := a2 r hr
  obtain ⟨b3, b4⟩ := b2 r hr
  dsimp only at i1 i2 j1 j2
  rw [h0 r hr] at i1
  obtain rfl : i = j := Except.ok.inj (i1.symm.trans j1)
  rw [deliver_congr (packed_ranks (l := l) (op := op) (m := fun r => quantities (A0 r)) (m' := fun r => quantities (B0 r))
    (fun r hr => by rw [h0 r hr]) r), h r hr] at i2
  have e : m r = m' r := Except.ok.inj (i2.symm.trans j2)
  rw [h r hr] at a4
  exact a4.one b4 fun k hk => by rw [a3 k hk, b3 k hk, e]

theorem comm_one {op : Op α} {A A1 B B1 : Int → World α} (h : ∀ r ∈ allRanks l, A r = B r) (ha : CommStep l op A A1)
    (hb : CommStep l op B B1) : ∀ r ∈ allRanks l, A1 r = B1 r := by
  obtain ⟨m, a1, a2⟩ := ha
  obtain ⟨m', b1, b2⟩ := hb
  exact wait_one h h ⟨m, fun r hr => (a1 r hr).2, a2⟩ ⟨m', fun r hr => (b1 r hr).2, b2⟩

/-- Started updates, in both with the same memory of the ranks. -/
def SameStarted (l : Layout) (s t : List (Op α × (Int → World α))) : Prop :=
  List.Forall₂ (fun x y => x.1 = y.1 ∧ ∀ r ∈ allRanks l, x.2 r = y.2 r) s t

theorem SameStarted.refl (s : List (Op α × (Int → World α))) : SameStarted l s s := by
  induction s with
  | nil => exact .nil
  | cons x s ih => exact .cons ⟨rfl, fun _ _ => rfl⟩ ih

theorem SameStarted.snoc {s t : List (Op α × (Int → World α))} (h : SameStarted l s t) {op : Op α} {A B : Int → World α}
    (e : ∀ r ∈ allRanks l, A r = B r) : SameStarted l (s ++ [(op, A)]) (t ++ [(op, B)]) := by
  induction h with
  | nil => exact .cons ⟨rfl, e⟩ .nil
  | cons h _ ih => exact .cons h ih

theorem SameStarted.at {s t : List (Op α × (Int → World α))} (h : SameStarted l s t) {i : Nat} {op op' : Op α}
    {A B : Int → World α} (hs : s[i]? = some (op, A)) (ht : t[i]? = some (op', B)) : op = op' ∧ ∀ r ∈ allRanks l, A r = B r := by
  induction h generalizing i with
  | nil => cases hs
  | cons h _ ih =>
    cases i with
    | zero =>
      cases hs
      cases ht
      exact h
    | succ i => exact ih hs ht

theorem start_one {op : Op α} {v v1 w w1 : HWhole α} (hs : SameStarted l v.started w.started)
    (h : ∀ r ∈ allRanks l, v.world r = w.world r) (hv : HStart l op v v1) (hw : HStart l op w w1) :
    SameStarted l v1.started w1.started ∧ ∀ r ∈ allRanks l, v1.world r = w1.world r := by
  refine ⟨?_, fun r hr => ?_⟩
  · rw [hv.1, hw.1]
    exact hs.snoc h
  · rw [hv.2 r hr, hw.2 r hr, h r hr]

theorem op_one {o : HOp α} {v v1 w w1 : HWhole α} (hs : SameStarted l v.started w.started)
    (h : ∀ r ∈ allRanks l, v.world r = w.world r) (hv : o.Step g l v v1) (hw : o.Step g l w w1) :
    SameStarted l v1.started w1.started ∧ ∀ r ∈ allRanks l, v1.world r = w1.world r := by
  cases o with
  | halo q n => exact start_one hs h hv hw
  | vector x y n => exact start_one hs h hv hw
  | sync x y => exact start_one hs h hv hw
  | wait i =>
    obtain ⟨a1, op, A0, a2, a3⟩ := hv
    obtain ⟨b1, op', B0, b2, b3⟩ := hw
    obtain ⟨rfl, e⟩ := hs.at a2 b2
    exact ⟨by rw [a1, b1]; exact hs, wait_one e h a3 b3⟩
  | compute ops =>
    refine ⟨by rw [hv.1, hw.1]; exact hs, fun r hr => ?_⟩
    rw [hv.2 r hr, hw.2 r hr, h r hr]

theorem ops_one {ops : List (HOp α)} {v v1 w w1 : HWhole α} (hs : SameStarted l v.started w.started)
    (h : ∀ r ∈ allRanks l, v.world r = w.world r) (hv : HOpsRun g l ops v v1) (hw : HOpsRun g l ops w w1) :
    ∀ r ∈ allRanks l, v1.world r = w1.world r := by
  induction ops generalizing v w with
  | nil =>
    intro r hr
    rw [hv.2 r hr, hw.2 r hr, h r hr]
  | cons o ops ih =>
    obtain ⟨v2, a1, a2⟩ := hv
    obtain ⟨w2, b1, b2⟩ := hw
    obtain ⟨e1, e2⟩ := op_one hs h a1 b1
    exact ih e1 e2 a2 b2

theorem calls_one {cs : List (HCall α)} {A A1 B B1 : Int → World α} (h : ∀ r ∈ allRanks l, A r = B r) (ha : HRun g l cs A A1)
    (hb : HRun g l cs B B1) : ∀ r ∈ allRanks l, A1 r = B1 r := by
  induction cs generalizing A B with
  | nil =>
    intro r hr
    rw [ha r hr, hb r hr, h r hr]
  | cons c cs ih =>
    obtain ⟨A2, a1, a2⟩ := ha
    obtain ⟨B2, b1, b2⟩ := hb
    refine ih (A := A2) (B := B2) ?_ a2 b2
    cases c with
    | haloUpdate q n => exact comm_one h a1 b1
    | vectorHaloUpdate x y n => exact comm_one h a1 b1
    | synchronize x y => exact comm_one h a1 b1
    | compute ops =>
      intro r hr
      rw [a1 r hr, b1 r hr, h r hr]

/-- **C81**: the outcome of operations on memory is determined.  Whatever memory the operations, one after the other, may lead to
according to the specification: every schedule, whatever the buffering, ends with exactly that memory on every rank. -/
theorem C81_one_outcome {W : Int → World α} {ops : List (HOp α)} (hx : 0 < l.x) (hsq : l.y = l.x)
    (hW : ∀ r ∈ allRanks l, Reachable g (W r)) (hws : HWaitsStarted ops) (hwo : HWaitsOnce ops)
    (hr : ∀ (pre : List (HOp α)) o post, ops = pre ++ o :: post → ∀ op, o.start = some op → ∀ V, HOpsRun g l pre ⟨W, []⟩ V →
      (∀ r ∈ allRanks l, Usable (V.world r) op.qs) ∧ UpdateReady l (fun r => quantities (V.world r)) op) :
    ∃ V, HOpsRun g l ops ⟨W, []⟩ V ∧ ∀ V', HOpsRun g l ops ⟨W, []⟩ V' → ∀ buf, ∃ fin : Int → HState α,
      ((hopNet g l ops W).Completes buf fun r => (.ok (), fin r)) ∧ ∀ r ∈ allRanks l, (fin r).world = V'.world r := by
  obtain ⟨fin, st, -, h2⟩ := C81_session hx hsq hW hws hwo hr (fun _ _ _ _ => true)
  refine ⟨_, h2, fun V' hV' buf => ?_⟩
  obtain ⟨fin', st', k1, k2⟩ := C81_session hx hsq hW hws hwo hr buf
  exact ⟨fin', k1, ops_one (.refl _) (fun _ _ => rfl) k2 hV'⟩

/-- **C80**: the outcome of calls on memory is determined.  Whatever memory the calls, one after the other, may lead to according to
the specification: every schedule, whatever the buffering, ends with exactly that memory on every rank. -/
theorem C80_one_outcome {W : Int → World α} {calls : List (HCall α)} (hx : 0 < l.x) (hsq : l.y = l.x)
    (hW : ∀ r ∈ allRanks l, Reachable g (W r))
    (hr : ∀ (pre : List (HCall α)) c post, calls = pre ++ c :: post → ∀ op, c.start = some op → ∀ W1, HRun g l pre W W1 →
      (∀ r ∈ allRanks l, Usable (W1 r) op.qs) ∧ UpdateReady l (fun r => quantities (W1 r)) op) :
    ∃ W', HRun g l calls W W' ∧ ∀ V, HRun g l calls W V → ∀ buf, ∃ fin : Int → HState α,
      ((callNet g l calls W).Completes buf fun r => (.ok (), fin r)) ∧ ∀ r ∈ allRanks l, (fin r).world = V r := by
  obtain ⟨W', h1, -⟩ := C80_session hx hsq hW hr (fun _ _ _ _ => true)
  refine ⟨W', h1, fun V hV buf => ?_⟩
  obtain ⟨W2, k1, k2⟩ := C80_session hx hsq hW hr buf
  exact ⟨_, k2, calls_one (fun _ _ => rfl) k1 hV⟩

end Heap
end FV3
