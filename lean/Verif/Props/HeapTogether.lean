import Verif.Proofs.HeapTogether

/-!
# C88: scatters and gathers while updates are outstanding, on memory which quantities share
-/

namespace FV3
namespace Heap
open Mem (World Gt4py Reachable)
open Strided
variable {α : Type} [Inhabited α] [Neg α] {g : Gt4py} {l : Layout}

/-- The rest of the operations.  `D` are the starts, waits and programs so far, without the collective calls. -/
theorem together_from {buf : Buffering} {W : Int → World α} (hl : FloatSafe l) (hsq : l.y = l.x)
    (hW : ∀ r ∈ allRanks l, Reachable g (W r)) {ops : List (TOp α)} {d D : List (HOp α)} {s : Int → HState α}
    {st : List (Op α × (Int → World α))} {n : Nat} {sent : Int → Int → Tag → List (Msg α)} {rcvd : Int → Int → Tag → Nat}
    (P : Past g l buf W d s st n sent rcvd) (hd : (d.filterMap HOp.start).length = (D.filterMap HOp.start).length)
    (hm : ∀ i, HOp.wait i ∈ d → HOp.wait i ∈ D) (hws : HWaitsStarted (D ++ TOp.updates ops))
    (hwo : HWaitsOnce (D ++ TOp.updates ops))
    (hr : ∀ (pre : List (TOp α)) x post, ops = pre ++ x :: post → ∀ V, TRun g l pre ⟨fun r => (s r).world, st⟩ V → TReady l V.world x) :
    ∃ (W' : Int → World α) (st' : List (Op α × (Int → World α))), TRun g l ops ⟨fun r => (s r).world, st⟩ ⟨W', st'⟩ ∧
      (⟨fun r => if r ∈ allRanks l then (execTOps g l r ops (s r, n)).bind fun y => .ret (y.1, y.2.1.world)
        else .ret (.ok (), (s r).world), sent, rcvd⟩ : Net (Msg α) (Py Unit × World α)).Completes buf fun r => (.ok (), W' r) := by
  induction ops generalizing d D s st n sent rcvd with
  | nil =>
    refine ⟨fun r => (s r).world, st, ⟨rfl, fun _ _ => rfl⟩, Net.completes_of_run (sched := []) rfl fun r => ?_⟩
    dsimp only
    split <;> rfl
  | cons x xs ih =>
    have hx := hr [] x xs rfl _ ⟨rfl, fun _ _ => rfl⟩
    have key : ∃ sched T s' st' n' d' D', (⟨tProcs g l x s n n', sent, rcvd⟩ : Net (Msg α) (Py Unit × (HState α × Nat))).run buf sched = some T ∧
        (∀ r, T.procs r = .ret (.ok (), (s' r, n'))) ∧ x.Step g l ⟨fun r => (s r).world, st⟩ ⟨fun r => (s' r).world, st'⟩ ∧
        Past g l buf W d' s' st' n' T.sent T.rcvd ∧ (d'.filterMap HOp.start).length = (D'.filterMap HOp.start).length ∧
        (∀ i, HOp.wait i ∈ d' → HOp.wait i ∈ D') ∧ D' ++ TOp.updates xs = D ++ TOp.updates (x :: xs) := by
      cases x with
      | update o =>
        have eu : TOp.updates (TOp.update o :: xs) = o :: TOp.updates xs := rfl
        rw [eu] at hws hwo
        obtain ⟨sched, T, s', st', a1, a2, a3, a4⟩ := P.update hl.xpos hsq hW hx
          (fun i e => by subst e; rw [hd]; exact hws D i _ rfl) (fun i e hi => by
            subst e
            obtain ⟨a, b, e⟩ := List.append_of_mem (hm i hi)
            exact hwo a i b (TOp.updates xs) (by rw [e]))
        refine ⟨sched, T, s', st', n, d ++ [o], D ++ [o], a1, a2, a3, a4, ?_, fun i hi => ?_, by rw [eu]; simp⟩
        · rw [List.filterMap_append, List.filterMap_append, List.length_append, List.length_append, hd]
        · rcases List.mem_append.1 hi with h | h
          · exact List.mem_append_left _ (hm i h)
          · exact List.mem_append_right _ h
      | collective x =>
        obtain ⟨sched, T, s', n', c, a1, a2, a3, a4⟩ := P.collective hl hx
        refine ⟨sched, T, s', st, n', _, D, a1, a2, ⟨rfl, a3⟩, a4, ?_, fun i hi => ?_, rfl⟩
        · rw [List.filterMap_append, List.length_append, hd]
          rfl
        · rcases List.mem_append.1 hi with h | h
          · exact hm i h
          · simp at h
    obtain ⟨sched, T, s', st', n', d', D', b1, b2, b3, b4, b5, b6, b7⟩ := key
    obtain ⟨W', st2, c1, c2⟩ := ih b4 b5 b6 (by rw [b7]; exact hws) (by rw [b7]; exact hwo)
      fun pre y post e V hV => hr (x :: pre) y post (by rw [e]; rfl) V ⟨_, b3, hV⟩
    refine ⟨W', st2, ⟨_, b3, c1⟩, ?_⟩
    let Kt : Int → Py Unit × (HState α × Nat) → Proc (Msg α) (Py Unit × World α) := fun r y =>
      if r ∈ allRanks l then
        (match y.1 with
        | .ok _ => execTOps g l r xs y.2
        | .error e => .ret (.error e, y.2)).bind fun y => .ret (y.1, y.2.1.world)
      else .ret (.ok (), y.2.1.world)
    have := Net.Completes.andThen (K := Kt) b1 b2 (out := fun r => (.ok (), W' r)) c2
    refine cast ?_ this
    congr 1
    unfold Net.andThen
    congr 1
    funext r
    dsimp only
    unfold tProcs
    by_cases h : r ∈ allRanks l
    · simp only [if_pos h, Kt]
      show _ = ((x.exec g l r _).bind _).bind _
      rw [Proc.bind_bind]
      congr 1
    · simp only [if_neg h, Kt]
      rfl

/-- **C88**: any sequence of starts of updates, waits for them, scatters, gathers, and programs on memory which quantities, arrays
and storages share, where scatters and gathers are made while any number of updates are outstanding: every schedule ends with every
rank finished, whatever the buffering, and memory is as after the operations one after the other.  A scatter or gather does not
disturb the outstanding updates: a wait stores what was packed when the update was started, even if the scatter has overwritten the
quantity it was packed from; and the scatter or gather uses what is in memory when it is called. -/
theorem C88_session (hl : FloatSafe l) (hsq : l.y = l.x) {W : Int → World α} {ops : List (TOp α)}
    (hW : ∀ r ∈ allRanks l, Reachable g (W r)) (hws : HWaitsStarted (TOp.updates ops)) (hwo : HWaitsOnce (TOp.updates ops))
    (hr : ∀ (pre : List (TOp α)) x post, ops = pre ++ x :: post → ∀ V, TRun g l pre ⟨W, []⟩ V → TReady l V.world x) (buf : Buffering) :
    ∃ (W' : Int → World α) (started : List (Op α × (Int → World α))), TRun g l ops ⟨W, []⟩ ⟨W', started⟩ ∧
      (togetherNet g l ops W).Completes buf fun r => (.ok (), W' r) := by
  refine together_from (d := []) (D := []) (s := fun r => ⟨W r, 0, []⟩) (st := []) (n := 0) (sent := fun _ _ _ => [])
    (rcvd := fun _ _ _ => 0) hl hsq hW ⟨⟨[], _, rfl, fun r => ?_, fun _ _ _ _ => rfl, fun _ _ _ _ => rfl⟩,
      fun V hV => ⟨by rw [hV.1]; exact .nil, hV.2⟩, fun r hr => (hW r hr).spec, fun pre i post e => (by cases pre <;> cases e),
      fun pre i mid post e => (by cases pre <;> cases e), fun pre o post e => (by cases pre <;> cases e),
      ⟨fun _ _ _ _ => rfl, fun _ _ _ _ => rfl⟩⟩ rfl (fun _ h => h) hws hwo hr
  show (if r ∈ allRanks l then _ else _) = _
  split <;> rfl

/-! ### When everything exists from the beginning -/

theorem TRun.keeps {ops : List (TOp α)} {w w1 : HWhole α} (h : TRun g l ops w w1) {r : Int} (hr : r ∈ allRanks l)
    (hw : WF g (w.world r)) : Keeps (w.world r) (w1.world r) ∧ WF g (w1.world r) := by
  induction ops generalizing w with
  | nil => rw [h.2 r hr]; exact ⟨fun _ _ h _ => h, hw⟩
  | cons x xs ih =>
    obtain ⟨w2, h1, h2⟩ := h
    have key : Keeps (w.world r) (w2.world r) ∧ WF g (w2.world r) := by
      cases x with
      | update o =>
        obtain ⟨k1, k2, k3⟩ := hops_kept (ops := [o]) (w := w) (w1 := w2) ⟨w2, h1, rfl, fun _ _ => rfl⟩ hr hw
        exact ⟨fun i y hy hs => dataOf_kept k2 k3 hy hs, k1⟩
      | collective x => exact CStep.keeps h1.2 ((cube_ranks l r).2 hr) hw
    obtain ⟨k1, k2⟩ := ih h2 key.2
    exact ⟨fun i y hy hs => k1 i y (key.1 i y hy hs) hs, k2⟩

theorem TReady.kept (hl : FloatSafe l) {x : TOp α} {W W1 : Int → World α} (h : TReady l W x) (hw : ∀ r ∈ allRanks l, WF g (W r))
    (hk : ∀ r ∈ allRanks l, Keeps (W r) (W1 r)) : TReady l W1 x := by
  cases x with
  | update o =>
    have h' : XReady l W (.update o.call) := fun op ho => h op (by rw [← call_start]; exact ho)
    exact fun op ho => h'.kept hl hw hk op (by rw [call_start]; exact ho)
  | collective x => exact XReady.kept (x := .collective x) hl hw h hk

/-- **C88**: the same, when the quantities of all operations exist from the beginning. -/
theorem C88_calls (hl : FloatSafe l) (hsq : l.y = l.x) {W : Int → World α} {ops : List (TOp α)}
    (hW : ∀ r ∈ allRanks l, Reachable g (W r)) (hws : HWaitsStarted (TOp.updates ops)) (hwo : HWaitsOnce (TOp.updates ops))
    (hr : ∀ x ∈ ops, TReady l W x) (buf : Buffering) :
    ∃ (W' : Int → World α) (started : List (Op α × (Int → World α))), TRun g l ops ⟨W, []⟩ ⟨W', started⟩ ∧
      (togetherNet g l ops W).Completes buf fun r => (.ok (), W' r) := by
  refine C88_session hl hsq hW hws hwo (fun pre x post e V hrun => ?_) buf
  exact (hr x (by rw [e]; exact List.mem_append_right _ List.mem_cons_self)).kept hl (fun r h => (hW r h).spec)
    fun r h => (hrun.keeps h (hW r h).spec).1

/-! ### One update among the operations -/

theorem TRun.append {xs ys : List (TOp α)} {w w2 : HWhole α} (h : TRun g l (xs ++ ys) w w2) :
    ∃ w1, TRun g l xs w w1 ∧ TRun g l ys w1 w2 := by
  induction xs generalizing w with
  | nil => exact ⟨w, ⟨rfl, fun _ _ => rfl⟩, h⟩
  | cons x xs ih =>
    obtain ⟨w1, h1, h2⟩ := h
    obtain ⟨w3, h3, h4⟩ := ih h2
    exact ⟨w3, ⟨w1, h1, h3⟩, h4⟩

theorem TRun.started {ops : List (TOp α)} {w w1 : HWhole α} (h : TRun g l ops w w1) :
    ∃ s, w1.started = w.started ++ s ∧ s.length = ((TOp.updates ops).filterMap HOp.start).length := by
  induction ops generalizing w with
  | nil => exact ⟨[], by rw [h.1, List.append_nil], rfl⟩
  | cons x xs ih =>
    obtain ⟨w2, h1, h2⟩ := h
    obtain ⟨s, e1, e2⟩ := ih h2
    cases x with
    | update o =>
      obtain ⟨s0, a1, a2⟩ := hops_started (ops := [o]) (w := w) (w1 := w2) ⟨w2, h1, rfl, fun _ _ => rfl⟩
      refine ⟨s0 ++ s, by rw [e1, a1, List.append_assoc], ?_⟩
      rw [show TOp.updates (.update o :: xs) = [o] ++ TOp.updates xs from rfl, List.filterMap_append, List.length_append, List.length_append, a2, e2]
    | collective x =>
      exact ⟨s, by rw [e1, h1.1], e2⟩

/-- The last operation is the wait for the update `o`. -/
theorem together_wait {W V : Int → World α} {before between : List (TOp α)} {o : HOp α} {op : Op α} (ho : o.start = some op)
    {st : List (Op α × (Int → World α))}
    (h2 : TRun g l (before ++ .update o :: between ++ [.update (.wait ((TOp.updates before).filterMap HOp.start).length)])
      ⟨W, []⟩ ⟨V, st⟩) :
    ∃ atStart beforeWait : HWhole α, TRun g l before ⟨W, []⟩ atStart ∧ TRun g l (.update o :: between) atStart beforeWait ∧
      HWait l op atStart.world beforeWait.world V := by
  obtain ⟨w1, h3, w2, ⟨h4, op', W0, h5, h6⟩, h7⟩ := h2.append
  obtain ⟨w0, h8, h9⟩ := h3.append
  refine ⟨w0, w1, h8, h9, ?_⟩
  obtain ⟨s0, a1, a2⟩ := h8.started
  have a1 : w0.started = s0 := a1
  obtain ⟨v, b1, b2⟩ := h9
  obtain ⟨s1, c1, -⟩ := b2.started
  have hv : v.started = w0.started ++ [(op, w0.world)] := by
    cases o with
    | compute os => cases ho
    | wait i => cases ho
    | halo q n => cases ho; exact b1.1
    | vector x y n => cases ho; exact b1.1
    | sync x y => cases ho; exact b1.1
  rw [c1, hv, a1, ← a2, List.append_assoc, List.getElem?_append_right (Nat.le_refl _), Nat.sub_self] at h5
  cases h5
  exact h6.last (fun _ _ => rfl) h7.2

/-- **C88**: an update with any operations before it and any operations between its start and its wait, scatters and gathers of the
same or other quantities among them: the wait stores what the ranks had at the start in the quantities as they are just before the
wait. -/
theorem C88_outstanding (hl : FloatSafe l) (hsq : l.y = l.x) {W : Int → World α} (hW : ∀ r ∈ allRanks l, Reachable g (W r))
    (before between : List (TOp α)) (o : HOp α) (op : Op α) (ho : o.start = some op) {ops : List (TOp α)}
    (he : ops = before ++ .update o :: between ++ [.update (.wait ((TOp.updates before).filterMap HOp.start).length)])
    (hws : HWaitsStarted (TOp.updates ops)) (hwo : HWaitsOnce (TOp.updates ops))
    (hr : ∀ (pre : List (TOp α)) x post, ops = pre ++ x :: post → ∀ V, TRun g l pre ⟨W, []⟩ V → TReady l V.world x) (buf : Buffering) :
    ∃ (W' : Int → World α) (atStart beforeWait : HWhole α), ((togetherNet g l ops W).Completes buf fun r => (.ok (), W' r)) ∧
      TRun g l before ⟨W, []⟩ atStart ∧ TRun g l (.update o :: between) atStart beforeWait ∧
      HWait l op atStart.world beforeWait.world W' := by
  obtain ⟨W', st, h1, h2⟩ := C88_session hl hsq hW hws hwo hr buf
  obtain ⟨w0, w1, h3⟩ := together_wait ho (he ▸ h1)
  exact ⟨W', w0, w1, h2, h3⟩

/-- **C88**: a halo update which is outstanding during scatters and gathers: after the wait the halo holds the values which the
owners of the points had at the start, although a scatter may have replaced them since, and nothing else in memory is different
from just before the wait, so that what was scattered or gathered is still there. -/
theorem C88_halo (hl : FloatSafe l) (hsq : l.y = l.x) {W : Int → World α} (hW : ∀ r ∈ allRanks l, Reachable g (W r))
    (before between : List (TOp α)) {h ky kx : Nat} {n w : Int} (hh : 0 < w) (hn : w ≤ n) {ops : List (TOp α)}
    (he : ops = before ++ .update (.halo h w) :: between ++ [.update (.wait ((TOp.updates before).filterMap HOp.start).length)])
    (S : ∀ V, TRun g l before ⟨W, []⟩ V → ScalarField l (fun r => quantities (V.world r)) h ky kx n w)
    (hws : HWaitsStarted (TOp.updates ops)) (hwo : HWaitsOnce (TOp.updates ops))
    (hr : ∀ (pre : List (TOp α)) x post, ops = pre ++ x :: post → ∀ V, TRun g l pre ⟨W, []⟩ V → TReady l V.world x) (buf : Buffering) :
    ∃ (W' : Int → World α) (atStart beforeWait : HWhole α), ((togetherNet g l ops W).Completes buf fun r => (.ok (), W' r)) ∧
      TRun g l before ⟨W, []⟩ atStart ∧ TRun g l (.update (.halo h w) :: between) atStart beforeWait ∧
      HaloFilled l h ky kx n w (fun r => quantities (atStart.world r)) (fun r => quantities (W' r)) ∧
      ∀ r ∈ allRanks l, OnlyCells (HaloCells l beforeWait.world h ky kx n w r) (beforeWait.world r) (W' r) := by
  obtain ⟨W', w0, w1, h1, h2, h3, h4⟩ := C88_outstanding hl hsq hW before between (.halo h w) (.halo h w) rfl he hws hwo hr buf
  refine ⟨W', w0, w1, h1, h2, h3, hwait_halo hl.xpos hsq hh hn (S w0 h2) (fun r hrk => ?_) h4⟩
  have hw0 : WF g (w0.world r) := (h2.keeps hrk (hW r hrk).spec).2
  have hu := (hr before (.update (.halo h w)) _ (by rw [he, List.append_assoc]; rfl) w0 h2 (.halo h w) rfl).1
  obtain ⟨x, hx, hs⟩ := (usable_fit hw0 (hu r hrk)).2 h (by simp [Op.qs])
  have hx : dataOf (w0.world r) h = .ok x := hx
  rw [quantities_eq hx, quantities_eq ((h3.keeps hrk hw0).1 h _ hx hs)]
  exact ⟨rfl, rfl, rfl, rfl, rfl⟩

/-! ### One outcome -/

theorem together_one (hl : FloatSafe l) {ops : List (TOp α)} {v v1 w w1 : HWhole α} (hs : SameStarted l v.started w.started)
    (h : ∀ r ∈ allRanks l, v.world r = w.world r) (hv : TRun g l ops v v1) (hw : TRun g l ops w w1) :
    ∀ r ∈ allRanks l, v1.world r = w1.world r := by
  induction ops generalizing v w with
  | nil =>
    intro r hr
    rw [hv.2 r hr, hw.2 r hr, h r hr]
  | cons x xs ih =>
    obtain ⟨v2, a1, a2⟩ := hv
    obtain ⟨w2, b1, b2⟩ := hw
    cases x with
    | update o =>
      obtain ⟨e1, e2⟩ := op_one hs h a1 b1
      exact ih e1 e2 a2 b2
    | collective x =>
      refine ih (by rw [a1.1, b1.1]; exact hs) (fun r hr => ?_) a2 b2
      exact coll_one hl (fun r hr => h r ((cube_ranks l r).1 hr)) a1.2 b1.2 r ((cube_ranks l r).2 hr)

/-- **C88**: the outcome is determined.  Whatever memory the operations may lead to according to the specification, one after the
other: every schedule, whatever the buffering, ends with exactly that memory on every rank. -/
theorem C88_one_outcome (hl : FloatSafe l) (hsq : l.y = l.x) {W : Int → World α} {ops : List (TOp α)}
    (hW : ∀ r ∈ allRanks l, Reachable g (W r)) (hws : HWaitsStarted (TOp.updates ops)) (hwo : HWaitsOnce (TOp.updates ops))
    (hr : ∀ (pre : List (TOp α)) x post, ops = pre ++ x :: post → ∀ V, TRun g l pre ⟨W, []⟩ V → TReady l V.world x) :
    ∃ V, TRun g l ops ⟨W, []⟩ V ∧ ∀ V', TRun g l ops ⟨W, []⟩ V' → ∀ buf, ∃ fin : Int → World α,
      ((togetherNet g l ops W).Completes buf fun r => (.ok (), fin r)) ∧ ∀ r ∈ allRanks l, fin r = V'.world r := by
  obtain ⟨W', st, h1, -⟩ := C88_session hl hsq hW hws hwo hr (fun _ _ _ _ => true)
  refine ⟨_, h1, fun V' hV' buf => ?_⟩
  obtain ⟨W2, st2, k1, k2⟩ := C88_session hl hsq hW hws hwo hr buf
  exact ⟨W2, k2, together_one hl (.refl _) (fun _ _ => rfl) k1 hV'⟩

end Heap
end FV3
