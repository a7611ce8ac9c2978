import Verif.Proofs.HeapLateAsync
import Verif.Props.HeapAsync
import Verif.Props.LateSend

/-!
# C83: outstanding updates of quantities which share memory, with sends that are read late
-/

namespace FV3
namespace Heap
open Mem (World Gt4py Reachable)
open Strided
variable {α : Type} [Inhabited α] [Neg α] {g : Gt4py} {l : Layout}

theorem Good.prefix {sk : Int → Skel} {a b : List (HCall α)} (h : Good g l sk (a ++ b)) : Good g l sk a := by
  induction a generalizing sk with
  | nil => trivial
  | cons c a ih => exact ⟨h.1, ih h.2⟩

theorem leaves_skel {W : Int → World α} {ops : List (HOp α)} (hx : 0 < l.x) (hsq : l.y = l.x)
    (hW : ∀ r ∈ allRanks l, WF g (W r)) (hws : HWaitsStarted ops) (hwo : HWaitsOnce ops)
    (G : Good g l (fun r => skel (W r)) (ops.map HOp.call)) {pre rest : List (HOp α)} (e : ops = pre ++ rest) :
    ∃ V, HOpsRun g l pre ⟨W, []⟩ V ∧ ∀ r ∈ allRanks l, skel (V.world r) = finalSk g (fun r => skel (W r)) (pre.map HOp.call) r := by
  have ws : HWaitsStarted pre := fun p i post h => hws p i (post ++ rest) (by rw [e, h]; simp)
  have wo : HWaitsOnce pre := fun p i mid post h => hwo p i mid (post ++ rest) (by rw [e, h]; simp)
  have G' : Good g l (fun r => skel (W r)) (pre.map HOp.call) := by
    rw [e, List.map_append] at G
    exact G.prefix
  obtain ⟨fin, st, -, h1, h2⟩ := ops_good hx hsq hW ws wo G' fun _ _ _ _ => true
  exact ⟨_, h1, h2⟩

omit [Inhabited α] [Neg α] in
theorem sameVars_of {V W1 : World α} (h : skel W1 = skel V) : SameVars V W1 := by
  unfold skel at h
  cases h' : W1
  cases h'' : V
  rw [h', h''] at h
  cases h
  exact ⟨rfl, rfl, rfl⟩

/-- **C83**: updates of quantities in memory, started and waited for in separate calls with programs on memory between them, when
the network reads each element of what is sent, in the memory of the sender, at a time of its own choice.  If the program does
not change what it is sending (`HLeavesSends`), every execution ends, with all ranks finished, and memory is then as after one
operation after the other (`HOpsRun`, which knows neither messages nor schedules).  The other conditions are those of C81. -/
theorem C83_session {W : Int → World α} {ops : List (HOp α)} (hx : 0 < l.x) (hsq : l.y = l.x)
    (hW : ∀ r ∈ allRanks l, Reachable g (W r)) (hws : HWaitsStarted ops) (hwo : HWaitsOnce ops)
    (hr : ∀ (pre : List (HOp α)) o post, ops = pre ++ o :: post → ∀ op, o.start = some op → ∀ V, HOpsRun g l pre ⟨W, []⟩ V →
      (∀ r ∈ allRanks l, Usable (V.world r) op.qs) ∧ UpdateReady l (fun r => quantities (V.world r)) op)
    (hl : HLeavesSends g l W ops) (buf : Buffering) :
    ∃ (fin : Int → HState α) (started : List (Op α × (Int → World α))),
      HOpsRun g l ops ⟨W, []⟩ ⟨fun r => (fin r).world, started⟩ ∧
      (Lazy.opNet g l ops W).Ends buf (fun r => (.ok (), ⟨(fin r).lastTag, (fin r).reqs⟩)) fun r => (fin r).world := by
  have hw : ∀ r ∈ allRanks l, WF g (W r) := fun r h => (hW r h).spec
  have G := ops_fits hx hsq hW hws hwo hr
  obtain ⟨fin, st, h1, h2, -⟩ := ops_good hx hsq hw hws hwo G buf
  refine ⟨fin, st, h2, Late.late_ends (fin := hfin) (ranks := allRanks l) hfin_inj (fun r h => ⟨_, if_neg h⟩) ?_ ?_⟩
  · intro r
    by_cases h : r ∈ allRanks l
    · simp only [if_pos h]
      refine Late.SafeP.mono (safe_hops hx hsq h (sk0 := fun r => skel (W r)) hws ?_ ?_ ops [] _ rfl rfl (fun r h mem => (hw r h).mem mem) G
        ⟨0, []⟩ (W r) [] ⟨rfl, ?_, rfl, ?_, ?_, ?_⟩) fun _ _ _ _ => trivial
      · intro pre i post e k a b hki ho hb W1 W2 h4 h5
        obtain ⟨V, v1, v2⟩ := leaves_skel hx hsq hw hws hwo G e
        exact hl.waits pre i post e k a b hki ho hb V v1 r h W1 W2 (sameVars_of (h4.trans (v2 r h).symm)) h5
      · intro pre os post e k a ho W1 h4
        obtain ⟨V, v1, v2⟩ := leaves_skel hx hsq hw hws hwo G e
        exact hl.computes pre os post e k a ho V v1 r h W1 (sameVars_of (h4.trans (v2 r h).symm))
      · intro p hp; cases hp
      · intro op hop; cases hop
      · intro k req hk; simp at hk
      · intro p hp; cases hp
    · simp only [if_neg h]
      trivial
  · have e : hopNet g l ops W = Net.start fun r => Late.eager hfin
        (if r ∈ allRanks l then Lazy.execOps g l r ops ⟨0, []⟩ else .ret (.ok (), ⟨0, []⟩)) (W r) := by
      unfold hopNet
      congr 1
      funext r
      by_cases h : r ∈ allRanks l
      · simp only [if_pos h]
        rw [← toHM_execOps]
        rfl
      · simp only [if_neg h]
        rfl
    rw [e] at h1
    exact h1

/-- **C83** for one update of a session, with any operations before it and any operations between the start and the wait which
leave alone what is being sent: the wait stores what the ranks had at the start in the quantities as they are just before the
wait. -/
theorem C83_outstanding {W : Int → World α} (hx : 0 < l.x) (hsq : l.y = l.x) (hW : ∀ r ∈ allRanks l, Reachable g (W r))
    (before between : List (HOp α)) (o : HOp α) (op : Op α) (ho : o.start = some op)
    (hws : HWaitsStarted (before ++ o :: between ++ [.wait (before.filterMap HOp.start).length]))
    (hwo : HWaitsOnce (before ++ o :: between ++ [.wait (before.filterMap HOp.start).length]))
    (hr : ∀ (pre : List (HOp α)) o' post, before ++ o :: between ++ [.wait (before.filterMap HOp.start).length] = pre ++ o' :: post →
      ∀ op, o'.start = some op → ∀ V, HOpsRun g l pre ⟨W, []⟩ V →
      (∀ r ∈ allRanks l, Usable (V.world r) op.qs) ∧ UpdateReady l (fun r => quantities (V.world r)) op)
    (hl : HLeavesSends g l W (before ++ o :: between ++ [.wait (before.filterMap HOp.start).length])) (buf : Buffering) :
    ∃ (fin : Int → HState α) (atStart beforeWait : HWhole α),
      ((Lazy.opNet g l (before ++ o :: between ++ [.wait (before.filterMap HOp.start).length]) W).Ends buf
        (fun r => (.ok (), ⟨(fin r).lastTag, (fin r).reqs⟩)) fun r => (fin r).world) ∧
      HOpsRun g l before ⟨W, []⟩ atStart ∧ HOpsRun g l (o :: between) atStart beforeWait ∧
      HWait l op atStart.world beforeWait.world (fun r => (fin r).world) := by
  obtain ⟨fin, st, h2, h1⟩ := C83_session hx hsq hW hws hwo hr hl buf
  obtain ⟨w0, w1, h3⟩ := outstanding_run ho h2
  exact ⟨fin, w0, w1, h1, h3⟩

/-- **C83** for a halo update: whenever the elements are read, after the wait the halo holds the values which the owners of the
points had at the start, and nothing else in memory is different from just before the wait. -/
theorem C83_halo {W : Int → World α} (hx : 0 < l.x) (hsq : l.y = l.x) (hW : ∀ r ∈ allRanks l, Reachable g (W r))
    (before between : List (HOp α)) {h ky kx : Nat} {n w : Int} (hh : 0 < w) (hn : w ≤ n)
    (S : ∀ V, HOpsRun g l before ⟨W, []⟩ V → ScalarField l (fun r => quantities (V.world r)) h ky kx n w)
    (hws : HWaitsStarted (before ++ .halo h w :: between ++ [.wait (before.filterMap HOp.start).length]))
    (hwo : HWaitsOnce (before ++ .halo h w :: between ++ [.wait (before.filterMap HOp.start).length]))
    (hr : ∀ (pre : List (HOp α)) o' post,
      before ++ .halo h w :: between ++ [.wait (before.filterMap HOp.start).length] = pre ++ o' :: post →
      ∀ op, o'.start = some op → ∀ V, HOpsRun g l pre ⟨W, []⟩ V →
      (∀ r ∈ allRanks l, Usable (V.world r) op.qs) ∧ UpdateReady l (fun r => quantities (V.world r)) op)
    (hl : HLeavesSends g l W (before ++ .halo h w :: between ++ [.wait (before.filterMap HOp.start).length])) (buf : Buffering) :
    ∃ (fin : Int → HState α) (atStart beforeWait : HWhole α),
      ((Lazy.opNet g l (before ++ .halo h w :: between ++ [.wait (before.filterMap HOp.start).length]) W).Ends buf
        (fun r => (.ok (), ⟨(fin r).lastTag, (fin r).reqs⟩)) fun r => (fin r).world) ∧
      HOpsRun g l before ⟨W, []⟩ atStart ∧ HOpsRun g l (.halo h w :: between) atStart beforeWait ∧
      HaloFilled l h ky kx n w (fun r => quantities (atStart.world r)) (fun r => quantities (fin r).world) ∧
      ∀ r ∈ allRanks l, OnlyCells (HaloCells l beforeWait.world h ky kx n w r) (beforeWait.world r) (fin r).world := by
  obtain ⟨fin, w0, w1, h1, h2, h3, h4⟩ := C83_outstanding hx hsq hW before between (.halo h w) (.halo h w) rfl hws hwo hr hl buf
  exact ⟨fin, w0, w1, h1, h2, h3, halo_run hx hsq hW hh hn (S w0 h2)
    (hr before (.halo h w) (between ++ [.wait (before.filterMap HOp.start).length]) (by simp) (.halo h w) rfl w0 h2).1 h2 h3 h4⟩

/-! ### Updates of halos -/

/-- An update which was ready when it was started still is. -/
theorem ready_later {W : Int → World α} {ops pre rest : List (HOp α)} (hW : ∀ r ∈ allRanks l, Reachable g (W r))
    (hr : ∀ (pre : List (HOp α)) o post, ops = pre ++ o :: post → ∀ op, o.start = some op → ∀ V, HOpsRun g l pre ⟨W, []⟩ V →
      (∀ r ∈ allRanks l, Usable (V.world r) op.qs) ∧ UpdateReady l (fun r => quantities (V.world r)) op) (e : ops = pre ++ rest)
    {a : Op α} (ha : a ∈ pre.filterMap HOp.start) {V : HWhole α} (hV : HOpsRun g l pre ⟨W, []⟩ V) :
    UpdateReady l (fun r => quantities (V.world r)) a ∧ ∀ r ∈ allRanks l, ∀ q ∈ a.qs, HasAxes (V.world r) q := by
  obtain ⟨o, ho, hs⟩ := List.mem_filterMap.1 ha
  obtain ⟨p1, p2, hp⟩ := List.append_of_mem ho
  subst hp
  obtain ⟨w0, h2, h3⟩ := hV.append
  obtain ⟨u1, u2⟩ := hr p1 o (p2 ++ rest) (by rw [e]; simp) a hs w0 h2
  have key : ∀ r ∈ allRanks l, ∀ q ∈ a.qs, HasAxes (V.world r) q ∧ SameMeta (quantities (w0.world r) q) (quantities (V.world r) q) := by
    intro r hrk q hq
    have hw0 : WF g (w0.world r) := (hops_kept h2 hrk (hW r hrk).spec).1
    obtain ⟨-, k1, k2⟩ := hops_kept h3 hrk hw0
    obtain ⟨x, hx, hs⟩ := (usable_fit hw0 (u1 r hrk)).2 q hq
    have hx : dataOf (w0.world r) q = .ok x := hx
    refine ⟨⟨x, dataOf_kept k1 k2 hx hs, hs⟩, ?_⟩
    rw [quantities_eq hx, quantities_eq (dataOf_kept k1 k2 hx hs)]
    exact ⟨rfl, rfl, rfl, rfl, rfl⟩
  exact ⟨updateReady_same u2 fun r hrk q hq => (key r hrk q hq).2, fun r hrk q hq => (key r hrk q hq).1⟩

/-- With the memory of rank `r` as in `W1`. -/
theorem ready_at {V : HWhole α} {a : Op α} {r : Int} {W1 : World α} (h : UpdateReady l (fun r => quantities (V.world r)) a)
    (hax : ∀ q ∈ a.qs, HasAxes (V.world r) q) (hs : SameVars (V.world r) W1) :
    ∃ m : Int → FV3.Mem α, UpdateReady l m a ∧ MetaIs m r (quantities W1) := by
  refine ⟨fun r' => if r' = r then quantities W1 else quantities (V.world r'), updateReady_same h fun r' hr' q hq => ?_, fun q => ?_⟩
  · by_cases e : r' = r
    · subst e
      rw [if_pos rfl]
      exact meta_congr hs.arrs hs.objs (hax q hq)
    · rw [if_neg e]
      exact SameMeta.refl _
  · dsimp only
    rw [if_pos rfl]
    exact SameMeta.refl _

omit [Neg α] in
/-- The elements of an array which are not there. -/
theorem no_cell {W : World α} {h : Nat} {x : Nat × Mem.Arr × Mem.Info} (hx : dataOf W h = .ok x) {idx : List Nat}
    (hi : ¬ InB x.2.1.view.shape idx) : (quantities W h).data.get idx = default := by
  rw [quantities_eq hx]
  exact if_neg hi

omit [Neg α] in
/-- An update of halos receives outside the compute domains. -/
theorem recvCells_out {m : Int → FV3.Mem α} {b : Op α} {r : Int} {W : World α} (hx : 0 < l.x) (hsq : l.y = l.x)
    (hb : b.isHalo = true) (hrd : UpdateReady l m b) (hr : r ∈ allRanks l) (hm : MetaIs m r (quantities W)) {h : Nat} {idx : List Nat}
    (hc : RecvCells l r b W h idx) : h ∈ b.qs ∧ ¬ (quantities W h).InCompute idx := by
  obtain ⟨i, hi, ⟨src, off, q, ix⟩, hz, hq, rs, rel, h1, h2, h3⟩ := hc
  have hq : q = h := hq
  subst hq
  obtain ⟨ky, kx, n, w, bt, hw, H, hix⟩ := inn_haloStore hx hsq hb hrd hr hm hi _ hz
  have hix : ix = recvIx (quantities W q) bt w := hix
  have H : HaloReady (quantities W q) ky kx n w := H
  subst hix
  refine ⟨inn_qs hi _ hz, fun hin => ?_⟩
  have hcov : cover (quantities W) ⟨src, off, q, recvIx (quantities W q) bt w⟩ idx = some rel := by
    unfold cover
    rw [h1]
    exact (Mem.unview_iff (resolveAll_ok h1) (by rw [h3]; exact viewIdx_inB (resolveAll_ok h1) h2)).2 ⟨h2, h3.symm⟩
  by_cases hc : InRecv (quantities W q) bt w idx
  · exact (C12_recv_outside_disjoint _ ky kx H.axes H.wf bt w idx hc).1 hin
  · rw [(cover_halo H hw src off bt idx hin.1).2 hc] at hcov
    cases hcov

/-- **C83** for updates of halos: a program which leaves the compute domains alone does not change what it is sending. -/
theorem C83_domains {W : Int → World α} {ops : List (HOp α)} (hx : 0 < l.x) (hsq : l.y = l.x)
    (hW : ∀ r ∈ allRanks l, Reachable g (W r))
    (hr : ∀ (pre : List (HOp α)) o post, ops = pre ++ o :: post → ∀ op, o.start = some op → ∀ V, HOpsRun g l pre ⟨W, []⟩ V →
      (∀ r ∈ allRanks l, Usable (V.world r) op.qs) ∧ UpdateReady l (fun r => quantities (V.world r)) op)
    (hl : LeavesDomains g l W ops) : HLeavesSends g l W ops := by
  have halos : ∀ {pre rest}, ops = pre ++ rest → ∀ op ∈ pre.filterMap HOp.start, op.isHalo = true := by
    intro pre rest e op hop
    refine hl.halos op ?_
    rw [e, List.filterMap_append]
    exact List.mem_append_left _ hop
  refine ⟨fun pre i post e k a b hki ho hb V hV r hrk W1 W2 hs oc => ?_, fun pre os post e k a ho V hV r hrk W1 hs => ?_⟩
  · have ma := List.mem_of_getElem? ho.1
    have mb := List.mem_of_getElem? hb
    obtain ⟨a1, a2⟩ := ready_later hW hr e ma hV
    obtain ⟨b1, b2⟩ := ready_later hW hr e mb hV
    obtain ⟨m, hm, hmeta⟩ := ready_at a1 (a2 r hrk) hs
    obtain ⟨m', hm', hmeta'⟩ := ready_at b1 (b2 r hrk) hs
    have ax : ∀ q ∈ a.qs, HasAxes W1 q := fun q hq => (hasAxes_congr hs.arrs hs.objs).2 (a2 r hrk q hq)
    refine halo_out_compute hx hsq (halos e a ma) hm hrk hmeta (fun q hq => meta_congr oc.arrs oc.objs (ax q hq)) fun q hq idx hc => ?_
    obtain ⟨x, hx1, -⟩ := ax q hq
    have hx2 : dataOf W2 q = .ok x := (dataOf_congr oc.arrs oc.objs q).trans hx1
    by_cases hi : InB x.2.1.view.shape idx
    · have c1 : Cell W1 q idx (x.2.1.view.addr idx) := ⟨x, hx1, hi, rfl⟩
      rw [cell_value c1, cell_value (W := W2) ⟨x, hx2, hi, rfl⟩]
      rcases oc.mem (x.2.1.view.addr idx) with h | ⟨h, idx', hrc, hcell⟩
      · exact h
      · exfalso
        obtain ⟨d1, d2⟩ := recvCells_out hx hsq (halos e b mb) hm' hrk hmeta' hrc
        have mq := meta_congr (W := V.world r) hs.arrs hs.objs (a2 r hrk q hq)
        have mh := meta_congr (W := V.world r) hs.arrs hs.objs (b2 r hrk h d1)
        exact d2 ((mh.inCompute idx').2 (hl.waits pre i post e k a b hki ho hb V hV r hrk q hq h d1 idx idx' _
          ((cell_congr hs.arrs hs.objs).1 c1) ((cell_congr hs.arrs hs.objs).1 hcell) ((mq.inCompute idx).1 hc)))
    · rw [no_cell hx1 hi, no_cell hx2 hi]
  · have ma := List.mem_of_getElem? ho.1
    obtain ⟨a1, a2⟩ := ready_later hW hr e ma hV
    obtain ⟨m, hm, hmeta⟩ := ready_at a1 (a2 r hrk) hs
    have hwV : WF g (V.world r) := (hops_kept hV hrk (hW r hrk).spec).1
    have hw1 : WF g W1 := by
      have := hwV.mem W1.mem
      have e1 : W1 = { V.world r with mem := W1.mem } := by
        obtain ⟨h1, h2, h3⟩ := hs
        cases W1
        simp only at h1 h2 h3
        subst h1 h2 h3
        rfl
      rw [e1]
      exact this
    obtain ⟨k1, k2⟩ := hw1.kept (os r)
    refine halo_out_compute hx hsq (halos e a ma) hm hrk hmeta (fun q hq => ?_) fun q hq idx hc =>
      hl.computes pre os post e k a ho V hV r hrk W1 hs q hq idx hc
    obtain ⟨x, hx1, hsx⟩ := (hasAxes_congr hs.arrs hs.objs).2 (a2 r hrk q hq)
    unfold World.after
    rw [quantities_eq hx1, quantities_eq (dataOf_kept k1 k2 hx1 hsx)]
    exact ⟨rfl, rfl, rfl, rfl, rfl⟩

end Heap
end FV3
