import Verif.Proofs.AsyncPhase
import Verif.Proofs.CollSpec
import Verif.Spec.FullSession

/-!
# Complete sessions: one call after the other
-/

namespace FV3
variable {α : Type} [Neg α]

/-! ### One collective call, with tile communicators that may have to be made -/

/-- What one call does, on a network on which other calls were made before. -/
def LazyRuns (buf : Buffering) (l : Layout) (junk tjunk : Nat → List Nat → α) (mem : Int → Mem α) (parts : Nat → Parts)
    (tparts : Int → Nat → Parts) (filled : List Nat) (tfilled : Int → List Nat) (k : Nat) (op : UOp α)
    (s : Int → LazyState α) (kt : Option (List (Int × Int))) (sent : Int → Int → Tag → List (Msg α))
    (rcvd : Int → Int → Tag → Nat) : Prop :=
  ∃ (s' : Int → TileState α) (n' : Nat) (tn' : Int → Nat) (sched : List Int)
    (T : Net (Msg α) (Option (Py (LazyState α)))),
    (⟨lazyProcs l junk tjunk op s, sent, rcvd⟩ : Net _ _).run buf sched = some T ∧
    (∀ r, T.procs r = .ret (if r ∈ allRanks l then some (.ok ⟨s' r, kt⟩) else none)) ∧
    Net.CleanOn (ULater (k + op.nTags) n' tn') T.sent T.rcvd ∧
    op.Step l parts tparts (cubeSnapOf l fun r => (s r).s) (cubeSnapOf l s') ∧
    UBetween l mem parts tparts (op.fills filled) (op.tfills tfilled) (k + op.nTags) n' tn' s'

/-- No tile communicator has to be made. -/
theorem lazy_keeps {l : Layout} (hl : FloatSafe l) (hsq : l.y = l.x) (buf : Buffering) (junk tjunk : Nat → List Nat → α)
    {mem : Int → Mem α} {parts : Nat → Parts} {tparts : Int → Nat → Parts} {filled : List Nat}
    {tfilled : Int → List Nat} {k n : Nat} {tn : Int → Nat} {s : Int → LazyState α} {kt : Option (List (Int × Int))}
    (B : UBetween l mem parts tparts filled tfilled k n tn fun r => (s r).s) (hkt : ∀ r ∈ allRanks l, (s r).tile = kt)
    {op : UOp α} (hv : op.Valid l mem parts tparts filled tfilled) (hno : ∀ r ∈ allRanks l, NoNew l r op kt)
    {sent : Int → Int → Tag → List (Msg α)} {rcvd : Int → Int → Tag → Nat}
    (hc : Net.CleanOn (ULater k n tn) sent rcvd) :
    LazyRuns buf l junk tjunk mem parts tparts filled tfilled k op s kt sent rcvd := by
  obtain ⟨s', n', tn', sched, T, b1, b2, b3, b4, b5⟩ := uop_runs hl hsq buf junk tjunk B hv hc
  let K : Int → Option (Py (TileState α)) → Proc (Msg α) (Option (Py (LazyState α))) := fun _ x =>
    .ret (x.map fun y => y.map fun z => ⟨z, kt⟩)
  have r1 := Net.run_andThen K b1
  refine ⟨s', n', tn', sched, T.andThen K, ?_, fun r => ?_, b3, b4, b5⟩
  · refine cast ?_ r1
    congr 2
    unfold Net.andThen
    congr 1
    funext r
    dsimp only [uopProcs, lazyProcs]
    by_cases hr : r ∈ allRanks l
    · have hr' := mem_allRanks.1 hr
      rw [if_pos hr, if_pos hr]
      have e : s r = ⟨(s r).s, kt⟩ := by rw [← hkt r hr]
      rw [e, execLazy_noNew junk tjunk hr'.1 hr'.2 (hno r hr), Proc.bind_bind, Proc.bind_bind]
      congr 1
      funext x
      cases x <;> rfl
    · rw [if_neg hr, if_neg hr]
      rfl
  · show (T.procs r).bind _ = _
    rw [b2 r]
    by_cases hr : r ∈ allRanks l
    · rw [if_pos hr, if_pos hr]
      rfl
    · rw [if_neg hr, if_neg hr]
      rfl

/-- The tile communicators are made. -/
theorem lazy_makes {l : Layout} (hl : FloatSafe l) (hsq : l.y = l.x) (buf : Buffering) (junk tjunk : Nat → List Nat → α)
    {mem : Int → Mem α} {parts : Nat → Parts} {tparts : Int → Nat → Parts} {filled : List Nat}
    {tfilled : Int → List Nat} {k n : Nat} {tn : Int → Nat} {s : Int → LazyState α}
    (B : UBetween l mem parts tparts filled tfilled k n tn fun r => (s r).s) (hkt : ∀ r ∈ allRanks l, (s r).tile = none)
    {o : Int → Option COp} (hv : (UOp.tiles o : UOp α).Valid l mem parts tparts filled tfilled)
    (huse : ∀ t, 0 ≤ t → t < 6 → o t ≠ none)
    {sent : Int → Int → Tag → List (Msg α)} {rcvd : Int → Int → Tag → Nat}
    (hc : Net.CleanOn (ULater k n tn) sent rcvd) :
    LazyRuns buf l junk tjunk mem parts tparts filled tfilled k (.tiles o) s (some (tileKeys l)) sent rcvd := by
  obtain ⟨sched1, T1, a1, a2, a3, a4⟩ := split_runs hl buf B hc
  obtain ⟨s', n', tn', sched, T, b1, b2, b3, b4, b5⟩ := lazy_keeps hl hsq buf junk tjunk
    (s := fun r => ⟨(s r).s.split (n + 2), some (tileKeys l)⟩) a4 (fun _ _ => rfl) hv (fun _ _ => .inl rfl) a3
  refine ⟨s', n', tn', sched1 ++ sched, T, ?_, b2, b3, b4, b5⟩
  let K : Int → Option (Py (LazyState α)) → Proc (Msg α) (Option (Py (LazyState α))) := fun r x =>
    match x with
    | none => .ret none
    | some (.error e) => .ret (some (.error e))
    | some (.ok s') => ((UOp.tiles o).execLazy l junk tjunk r s').bind fun x => .ret (some x)
  have r1 := Net.run_andThen K a1
  have e1 : (⟨splitProcs l fun r => (s r).s, sent, rcvd⟩ : Net _ _).andThen K =
      ⟨lazyProcs l junk tjunk (.tiles o) s, sent, rcvd⟩ := by
    unfold Net.andThen
    congr 1
    funext r
    dsimp only [splitProcs, lazyProcs]
    by_cases hr : r ∈ allRanks l
    · have hr' := mem_allRanks.1 hr
      have hn : 0 < l.tileRanks := tileRanks_pos hl.ypos hl.xpos
      have hd := div_range hn hr'.1 hr'.2
      have ho := huse _ hd.1 hd.2
      rw [← tileColor_eq hl.ypos hl.xpos] at ho
      rw [if_pos hr, if_pos hr]
      have e : s r = ⟨(s r).s, none⟩ := by rw [← hkt r hr]
      rw [e]
      cases ha : o (tileColor l r) with
      | none => exact absurd ha ho
      | some a =>
        simp only [UOp.execLazy, ha]
        simp only [LazyState.getTile]
        simp only [Proc.bind_bind]
        congr 1
        funext x
        obtain ⟨x, m⟩ := x
        cases x with
        | error e => rfl
        | ok ks =>
          simp only [Proc.bind, Except.map, K, UOp.execLazy, ha, LazyState.getTile, Proc.bind_bind]
    · rw [if_neg hr, if_neg hr]
      rfl
  have e2 : T1.andThen K = ⟨lazyProcs l junk tjunk (.tiles o) fun r => ⟨(s r).s.split (n + 2), some (tileKeys l)⟩,
      T1.sent, T1.rcvd⟩ := by
    unfold Net.andThen
    congr 1
    funext r
    rw [a2 r]
    dsimp only [lazyProcs]
    by_cases hr : r ∈ allRanks l
    · rw [if_pos hr, if_pos hr]
      rfl
    · rw [if_neg hr, if_neg hr]
      rfl
  rw [e1, e2] at r1
  rw [Net.run_append, r1]
  exact b1

/-! ### Complete sessions -/

/-- The data of all ranks. -/
def fsnapOf (l : Layout) (s : Int → FState α) (pend : Pending α) : FSnap α :=
  ⟨cubeSnapOf l fun r => (s r).lazy.s, pend⟩

/-- The state of all ranks between two calls. -/
structure FBetween (l : Layout) (buf : Buffering) (mem : Int → Mem α) (parts : Nat → Parts) (tparts : Int → Nat → Parts)
    (filled : List Nat) (tfilled : Int → List Nat) (n : Nat) (tn : Int → Nat) (hist : List (Op α)) (fin : Int → Local α)
    (pend : Pending α) (kt : Option (List (Int × Int))) (sent : Int → Int → Tag → List (Msg α))
    (rcvd : Int → Int → Tag → Nat) (s : Int → FState α) : Prop where
  tracked : Tracked l buf mem hist fin sent rcvd
  pending : PendingIs l pend fin
  comm : ∀ r ∈ allRanks l, (s r).comm = (fin r).toRank
  u : UBetween l mem parts tparts filled tfilled 0 n tn fun r => (s r).lazy.s
  tile : ∀ r ∈ allRanks l, (s r).tile = kt
  clean : Net.CleanOn (fun t => ULater 0 n tn t ∧ NotHalo t) sent rcvd

/-- All ranks make one call. -/
def fProcs (l : Layout) (junk tjunk : Nat → List Nat → α) (op : FOp α) (s : Int → FState α) (r : Int) :
    Proc (Msg α) (Option (Py (FState α))) :=
  if r ∈ allRanks l then (op.exec l junk tjunk r (s r)).bind fun x => .ret (some x) else .ret none

omit [Neg α] in
/-- Quantities of the same shapes in the place of the quantities. -/
theorem UBetween.remem {l : Layout} (hl : FloatSafe l) {mem : Int → Mem α} {parts : Nat → Parts}
    {tparts : Int → Nat → Parts} {filled : List Nat} {tfilled : Int → List Nat} {n : Nat} {tn : Int → Nat}
    {s : Int → FState α} (B : UBetween l mem parts tparts filled tfilled 0 n tn fun r => (s r).lazy.s)
    {c : Int → RankState α} (hm : ∀ r ∈ allRanks l, MetaIs mem r (c r).mem) :
    UBetween l mem parts tparts filled tfilled 0 n tn fun r => ({ s r with comm := c r } : FState α).lazy.s := by
  have hn : 0 < l.tileRanks := tileRanks_pos hl.ypos hl.xpos
  refine ⟨⟨hm, B.base.tag, B.base.coll, B.base.shaped, B.base.filled⟩, fun t t0 t6 => ?_⟩
  have := B.tile t t0 t6
  refine ⟨fun i hi => ?_, this.coll, this.shaped, this.filled⟩
  have hi := (mem_ranks (.tile l) i).1 hi
  refine hm _ (mem_allRanks.2 ⟨?_, ?_⟩)
  · have := Int.mul_nonneg t0 (Int.le_of_lt hn)
    omega
  · have := Int.mul_le_mul_of_nonneg_right (show t ≤ 5 by omega) (Int.le_of_lt hn)
    have e1 : l.cubeRanks = 6 * l.tileRanks := rfl
    have e2 : (Comm.tile l).size = l.tileRanks := rfl
    omega

theorem AOp.Step.globOp {l : Layout} {parts : Nat → Parts} {o : Op α} {w w' : Whole α}
    (h : (AOp.op o).Step l parts w w') : w'.glob = w.glob := by
  cases o <;> exact h.1

/-- A start, wait or computation. -/
theorem fop_phase {l : Layout} (hl : FloatSafe l) (hsq : l.y = l.x) (buf : Buffering) (junk tjunk : Nat → List Nat → α)
    {mem : Int → Mem α} {parts : Nat → Parts} {tparts : Int → Nat → Parts} {filled : List Nat}
    {tfilled : Int → List Nat} {n : Nat} {tn : Int → Nat} {hist done : List (Op α)} {fin : Int → Local α}
    {pend : Pending α} {kt : Option (List (Int × Int))} {s : Int → FState α}
    {sent : Int → Int → Tag → List (Msg α)} {rcvd : Int → Int → Tag → Nat}
    (B : FBetween l buf mem parts tparts filled tfilled n tn hist fin pend kt sent rcvd s) (H : HistOk l mem hist done)
    {o : Op α} (hv : (FOp.op o).Valid l mem parts tparts filled tfilled) (hws : WaitsStarted (done ++ [o]))
    (hwo : WaitsOnce (done ++ [o])) :
    ∃ s' fin' pend' sched T, (⟨fProcs l junk tjunk (.op o) s, sent, rcvd⟩ : Net (Msg α) _).run buf sched = some T ∧
      (∀ r, T.procs r = .ret (if r ∈ allRanks l then some (.ok (s' r)) else none)) ∧
      (FOp.op o).Step l parts tparts (fsnapOf l s pend) (fsnapOf l s' pend') ∧
      FBetween l buf mem parts tparts filled tfilled n tn (hist ++ [o]) fin' pend' kt T.sent T.rcvd s' ∧
      HistOk l mem (hist ++ [o]) (done ++ [o]) := by
  obtain ⟨a', fin', pend', sched, T, t1, t2, t3, t4, t5, t6⟩ := aop_phase hl.xpos hsq buf junk (parts := parts)
    (filled := filled) (n := n) (s := fun r => ⟨(s r).comm, (s r).glob, (s r).coll⟩)
    ⟨B.tracked, B.pending, B.comm, B.u.base.coll, B.u.base.shaped, B.u.base.filled,
      ⟨fun a b t ht => B.clean.sent a b t ⟨.inl (.inr ht), notHalo_coll (ht.imp fun _ h => h.1)⟩,
       fun a b t ht => B.clean.rcvd a b t ⟨.inl (.inr ht), notHalo_coll (ht.imp fun _ h => h.1)⟩⟩⟩ H
    (o := o) (by cases o <;> exact hv) hws hwo
  let K : Int → Option (Py (AState α)) → Proc (Msg α) (Option (Py (FState α))) := fun r x =>
    .ret (x.map fun y => y.map fun z => { s r with comm := z.comm })
  have r1 := Net.run_andThen K t1
  have hmeta : ∀ r ∈ allRanks l, MetaIs mem r (a' r).comm.mem := fun r hr => by
    rw [t4.comm r hr]
    exact t4.tracked.good r hr
  have hg : (a' 0).glob = (s 0).glob := AOp.Step.globOp t3
  refine ⟨fun r => { s r with comm := (a' r).comm }, fin', pend', sched, T.andThen K, ?_, fun r => ?_,
    ⟨?_, fun _ _ => rfl, rfl, fun _ _ _ => ⟨rfl, rfl⟩⟩,
    ⟨t4.tracked, t4.pending, t4.comm, B.u.remem hl hmeta, B.tile, ?_⟩, t5⟩
  · refine cast ?_ r1
    congr 2
    unfold Net.andThen
    congr 1
    funext r
    dsimp only [aProcs, fProcs]
    by_cases hr : r ∈ allRanks l
    · rw [if_pos hr, if_pos hr]
      simp only [AOp.exec, FOp.exec, Proc.bind_bind]
      congr 1
      funext y
      obtain ⟨a | a, y⟩ := y <;> rfl
    · rw [if_neg hr, if_neg hr]
      rfl
  · show (T.procs r).bind _ = _
    rw [t2 r]
    by_cases hr : r ∈ allRanks l
    · rw [if_pos hr, if_pos hr]
      rfl
    · rw [if_neg hr, if_neg hr]
      rfl
  · refine cast ?_ t3
    unfold wholeOf
    dsimp only
    rw [hg]
    rfl
  · constructor
    · intro a b t ht
      show T.sent a b t = []
      rw [(t6 a b t ht.2).1]
      exact B.clean.sent a b t ht
    · intro a b t ht
      show T.rcvd a b t = 0
      rw [(t6 a b t ht.2).2]
      exact B.clean.rcvd a b t ht

/-- A collective call. -/
theorem fcoll_phase {l : Layout} (hl : FloatSafe l) (hsq : l.y = l.x) (buf : Buffering) (junk tjunk : Nat → List Nat → α)
    {mem : Int → Mem α} {parts : Nat → Parts} {tparts : Int → Nat → Parts} {filled : List Nat}
    {tfilled : Int → List Nat} {n : Nat} {tn : Int → Nat} {hist done : List (Op α)} {fin : Int → Local α}
    {pend : Pending α} {kt kt' : Option (List (Int × Int))} {s : Int → FState α}
    {sent : Int → Int → Tag → List (Msg α)} {rcvd : Int → Int → Tag → Nat}
    (B : FBetween l buf mem parts tparts filled tfilled n tn hist fin pend kt sent rcvd s) (H : HistOk l mem hist done)
    (hwo : WaitsOnce done) {op : FOp α} {u : UOp α} (hn : u.nTags = 0)
    (he : ∀ r s, op.exec l junk tjunk r s = (u.execLazy l junk tjunk r s.lazy).bind fun x => .ret (x.map s.after))
    (hs : ∀ r s, (u.execLazy l junk tjunk r s).Spec NotHalo fun _ => True)
    (hruns : ∀ sent rcvd, Net.CleanOn (ULater 0 n tn) sent rcvd →
      LazyRuns buf l junk tjunk mem parts tparts filled tfilled 0 u (fun r => (s r).lazy) kt' sent rcvd)
    (hstep : ∀ S S' : CubeSnap α, u.Step l parts tparts S S' → op.Step l parts tparts ⟨S, pend⟩ ⟨S', pend⟩) :
    ∃ s' fin' hist' n' tn' sched T, (⟨fProcs l junk tjunk op s, sent, rcvd⟩ : Net (Msg α) _).run buf sched = some T ∧
      (∀ r, T.procs r = .ret (if r ∈ allRanks l then some (.ok (s' r)) else none)) ∧
      op.Step l parts tparts (fsnapOf l s pend) (fsnapOf l s' pend) ∧
      FBetween l buf mem parts tparts (u.fills filled) (u.tfills tfilled) n' tn' hist' fin' pend kt' T.sent T.rcvd s' ∧
      HistOk l mem hist' done := by
  classical
  -- the run of the call on a network without the messages of the halo updates
  obtain ⟨z, n', tn', sched, T, r1, r2, r3, r4, r5⟩ := hruns
    (fun a b t => if IsHaloTag t then [] else sent a b t) (fun a b t => if IsHaloTag t then 0 else rcvd a b t)
    ⟨fun a b t ht => by
      split
      · rfl
      · next h => exact B.clean.sent a b t ⟨ht, h⟩,
     fun a b t ht => by
      split
      · rfl
      · next h => exact B.clean.rcvd a b t ⟨ht, h⟩⟩
  rw [hn] at r3 r5
  obtain ⟨T1, t1, t2, t3, t4, t5, t6⟩ := Net.run_embed' (A := NotHalo) (Q := fun _ _ => True)
    (N := ⟨lazyProcs l junk tjunk u fun r => (s r).lazy, fun a b t => if IsHaloTag t then [] else sent a b t,
      fun a b t => if IsHaloTag t then 0 else rcvd a b t⟩)
    (N' := ⟨lazyProcs l junk tjunk u fun r => (s r).lazy, sent, rcvd⟩) (fun r => by
      dsimp only [lazyProcs]
      split
      · exact Proc.Spec.bind (hs _ _) fun _ _ => trivial
      · trivial) rfl
    (fun a b t ht => (if_neg ht).symm) (fun a b t ht => (if_neg ht).symm) r1
  -- the call
  let K : Int → Option (Py (LazyState α)) → Proc (Msg α) (Option (Py (FState α))) := fun r x =>
    .ret (x.map fun y => y.map (s r).after)
  have k1 := Net.run_andThen K t1
  -- the history: as if the quantities were computed
  have hmeta : ∀ r ∈ allRanks l, MetaIs mem r (z r).base.s.mem := fun r hr => r5.base.same r hr
  have H' := H.compute (f := fun r _ => (z r).base.s.mem) fun r hr _ _ => hmeta r hr
  have hwo' : WaitsOnce (hist ++ [.compute fun r _ => (z r).base.s.mem]) := by
    unfold WaitsOnce
    rw [H'.waited]
    exact hwo
  obtain ⟨fin', sched2, T2, u1, u2, u3, u4, -, -⟩ := B.tracked.step hl.xpos hsq H'.ready H'.waits hwo' H'.keeps
  have hT2 := Net.run_done (fun r => by
    dsimp only
    unfold callProcs
    split
    · exact ⟨_, rfl⟩
    · exact ⟨_, rfl⟩) u1
  rw [hT2] at u3
  have hfin : ∀ r ∈ allRanks l, fin' r = { fin r with mem := (z r).base.s.mem } := fun r hr =>
    (Except.ok.inj (u4 r hr)).symm
  have hlz : ∀ r ∈ allRanks l, (z r).base.s.tag = 0 := fun r hr => r5.base.tag r hr
  refine ⟨fun r => (s r).after ⟨z r, kt'⟩, fin', _, n', tn', sched, T1.andThen K, ?_, fun r => ?_, ?_,
    ⟨?_, ?_, ?_, ?_, fun _ _ => rfl, ?_⟩, H'⟩
  · refine cast ?_ k1
    congr 2
    unfold Net.andThen
    congr 1
    funext r
    dsimp only [lazyProcs, fProcs]
    by_cases hr : r ∈ allRanks l
    · rw [if_pos hr, if_pos hr, he]
      simp only [Proc.bind_bind]
      congr 1
    · rw [if_neg hr, if_neg hr]
      rfl
  · show (T1.procs r).bind _ = _
    rw [t2, r2 r]
    by_cases hr : r ∈ allRanks l
    · rw [if_pos hr, if_pos hr]
      rfl
    · rw [if_neg hr, if_neg hr]
      rfl
  · exact hstep _ _ r4
  · exact u3.congr (fun a b t ht => t5 a b t fun h => h ht) (fun a b t ht => t6 a b t fun h => h ht)
  · intro r hr
    rw [hfin r hr]
    exact B.pending r hr
  · intro r hr
    show ({ (s r).comm with mem := (z r).base.s.mem } : RankState α) = _
    rw [hfin r hr, B.comm r hr]
    rfl
  · refine ⟨⟨r5.base.same, fun _ _ => rfl, r5.base.coll, r5.base.shaped, r5.base.filled⟩, fun t t0 t6 => ?_⟩
    have := r5.tile t t0 t6
    exact ⟨this.same, this.coll, this.shaped, this.filled⟩
  · constructor
    · intro a b t ht
      show T1.sent a b t = []
      rw [t3 a b t ht.2]
      exact r3.sent a b t ht.1
    · intro a b t ht
      show T1.rcvd a b t = 0
      rw [t4 a b t ht.2]
      exact r3.rcvd a b t ht.1

theorem notHalo_toU (l : Layout) (junk tjunk : Nat → List Nat → α) (r : Int) (o : COp) (s : LazyState α) :
    ((o.toU : UOp α).execLazy l junk tjunk r s).Spec NotHalo fun _ => True := by
  rw [COp.toU_exec]
  exact Proc.Spec.bind ((COp.exec_only ..).mono (fun _ => notHalo_coll) fun _ h => h) fun _ _ => trivial

omit [Neg α] in
theorem PartsOn.has {l : Layout} {m : Int → Mem α} {q : Nat} {p : Parts} (h : PartsOn (.cube l) m q p) :
    HasParts l m q p :=
  ⟨h.axes, h.small, fun r hr => h.names r ((cube_ranks l r).2 hr), fun r hr => h.shaped r ((cube_ranks l r).2 hr)⟩

/-- One call. -/
theorem f_phase {l : Layout} (hl : FloatSafe l) (hsq : l.y = l.x) (buf : Buffering) (junk tjunk : Nat → List Nat → α)
    {mem : Int → Mem α} {parts : Nat → Parts} {tparts : Int → Nat → Parts} {filled : List Nat}
    {tfilled : Int → List Nat} {n : Nat} {tn : Int → Nat} {hist done : List (Op α)} {fin : Int → Local α}
    {pend : Pending α} {kt : Option (List (Int × Int))} {s : Int → FState α}
    {sent : Int → Int → Tag → List (Msg α)} {rcvd : Int → Int → Tag → Nat}
    (B : FBetween l buf mem parts tparts filled tfilled n tn hist fin pend kt sent rcvd s) (H : HistOk l mem hist done)
    {op : FOp α} {ops : List (FOp α)} (hv : op.Valid l mem parts tparts filled tfilled)
    (hws : WaitsStarted (done ++ op.op?.toList)) (hwo : WaitsOnce (done ++ op.op?.toList))
    (hfirst : kt = some (tileKeys l) ∨ kt = none ∧ FullFirstUse (op :: ops)) :
    ∃ s' fin' pend' hist' n' tn' kt' sched T, (⟨fProcs l junk tjunk op s, sent, rcvd⟩ : Net (Msg α) _).run buf sched = some T ∧
      (∀ r, T.procs r = .ret (if r ∈ allRanks l then some (.ok (s' r)) else none)) ∧
      op.Step l parts tparts (fsnapOf l s pend) (fsnapOf l s' pend') ∧
      FBetween l buf mem parts tparts (op.fills filled) (op.tfills tfilled) n' tn' hist' fin' pend' kt' T.sent T.rcvd s' ∧
      HistOk l mem hist' (done ++ op.op?.toList) ∧ (kt' = some (tileKeys l) ∨ kt' = none ∧ FullFirstUse ops) := by
  cases op with
  | op o =>
    obtain ⟨s', fin', pend', sched, T, h1, h2, h3, h4, h5⟩ := fop_phase hl hsq buf junk tjunk B H hv hws hwo
    exact ⟨s', fin', pend', _, _, _, _, sched, T, h1, h2, h3, h4, h5, hfirst⟩
  | coll o =>
    simp only [FOp.op?, Option.toList_none, List.append_nil] at hwo ⊢
    have hu : (o.toU : UOp α).Valid l mem parts tparts filled tfilled := by
      cases o with
      | scatter q g => exact ⟨hv.1, hv.2.has⟩
      | gather q g => exact PartsOn.has hv
      | scatterState i j vars => exact ⟨hv.1, hv.2.1, fun v h => ⟨(hv.2.2 v h).1, (hv.2.2 v h).2.has⟩⟩
      | gatherState i j vars => exact ⟨hv.1, hv.2.1, fun v h => (hv.2.2 v h).has⟩
    obtain ⟨s', fin', hist', n', tn', sched, T, h1, h2, h3, h4, h5⟩ := fcoll_phase (op := .coll o) (u := o.toU) (kt' := kt)
      hl hsq buf junk tjunk B H hwo (by cases o <;> rfl) (fun r s => by
        rw [COp.toU_exec, Proc.bind_bind]
        simp only [FOp.exec]
        congr 1
        funext x
        cases x <;> rfl) (fun r s => notHalo_toU l junk tjunk r o s)
      (fun sent rcvd hc => lazy_keeps hl hsq buf junk tjunk B.u B.tile hu (fun r _ => .inr fun o' e => by
        cases o <;> cases e) hc)
      (fun S S' h => by
        have hr := fun r => (cube_ranks l r)
        cases o with
        | scatter q g =>
          obtain ⟨⟨⟨g1, v, g2, g3⟩, ht, hgt⟩, h2⟩ := h
          refine ⟨rfl, ⟨g1, hgt, v, g2, fun r hr => ?_⟩, h2⟩
          have hr := (cube_ranks l r).1 hr
          exact ⟨ht r hr, g3 r hr⟩
        | gather q g =>
          obtain ⟨⟨⟨g1, g2⟩, ht, hgt⟩, h2⟩ := h
          refine ⟨rfl, ⟨fun r hr => ?_, hgt, g2⟩, h2⟩
          have hr := (cube_ranks l r).1 hr
          exact ⟨g1 r hr, ht r hr⟩
        | scatterState i j vars =>
          obtain ⟨⟨g1, g2, g3⟩, h2⟩ := h
          exact ⟨rfl, ⟨g1, g2, fun r hr => g3 r ((cube_ranks l r).1 hr)⟩, h2⟩
        | gatherState i j vars =>
          obtain ⟨⟨g1, g2⟩, h2⟩ := h
          exact ⟨rfl, ⟨fun r hr => g1 r ((cube_ranks l r).1 hr), g2⟩, h2⟩)
    have e1 : (o.toU : UOp α).fills filled = o.filledAfter filled := by cases o <;> rfl
    have e2 : (o.toU : UOp α).tfills tfilled = tfilled := by cases o <;> rfl
    rw [e1, e2] at h4
    exact ⟨s', fin', pend, hist', n', tn', kt, sched, T, h1, h2, h3, h4, h5, hfirst⟩
  | tiles o =>
    simp only [FOp.op?, Option.toList_none, List.append_nil] at hwo ⊢
    suffices key : ∃ kt', (∀ sent rcvd, Net.CleanOn (ULater 0 n tn) sent rcvd →
        LazyRuns buf l junk tjunk mem parts tparts filled tfilled 0 (.tiles o) (fun r => (s r).lazy) kt' sent rcvd) ∧
        (kt' = some (tileKeys l) ∨ kt' = none ∧ FullFirstUse ops) by
      obtain ⟨kt', hruns, hk⟩ := key
      obtain ⟨s', fin', hist', n', tn', sched, T, h1, h2, h3, h4, h5⟩ := fcoll_phase (op := .tiles o) (u := .tiles o)
        (kt' := kt') hl hsq buf junk tjunk B H hwo rfl (fun r s => by
          simp only [FOp.exec]
          congr 1
          funext x
          cases x <;> rfl) (fun r s => tiles_notHalo l junk tjunk r o s) hruns (fun S S' h => ⟨rfl, h⟩)
      exact ⟨s', fin', pend, hist', n', tn', kt', sched, T, h1, h2, h3, h4, h5, hk⟩
    rcases hfirst with rfl | ⟨rfl, hall | ⟨hnone, hrest⟩⟩
    · exact ⟨_, fun sent rcvd hc => lazy_keeps hl hsq buf junk tjunk B.u B.tile (op := .tiles o) hv (fun r _ => .inl rfl) hc, .inl rfl⟩
    · exact ⟨_, fun sent rcvd hc => lazy_makes hl hsq buf junk tjunk B.u B.tile hv hall hc, .inl rfl⟩
    · refine ⟨_, fun sent rcvd hc => lazy_keeps hl hsq buf junk tjunk B.u B.tile (op := .tiles o) hv (fun r hr => .inr fun o' e => ?_) hc,
        .inr ⟨rfl, hrest⟩⟩
      cases e
      have hr' := mem_allRanks.1 hr
      have hd := div_range (tileRanks_pos hl.ypos hl.xpos) hr'.1 hr'.2
      rw [tileColor_eq hl.ypos hl.xpos]
      exact hnone _ hd.1 hd.2

/-- All calls. -/
theorem full_from {l : Layout} (hl : FloatSafe l) (hsq : l.y = l.x) (buf : Buffering) (junk tjunk : Nat → List Nat → α)
    {mem : Int → Mem α} {parts : Nat → Parts} {tparts : Int → Nat → Parts} {ops : List (FOp α)} {filled : List Nat}
    {tfilled : Int → List Nat} {n : Nat} {tn : Int → Nat} {hist done : List (Op α)} {fin : Int → Local α}
    {pend : Pending α} {kt : Option (List (Int × Int))} {s : Int → FState α}
    {sent : Int → Int → Tag → List (Msg α)} {rcvd : Int → Int → Tag → Nat}
    (B : FBetween l buf mem parts tparts filled tfilled n tn hist fin pend kt sent rcvd s) (H : HistOk l mem hist done)
    (hv : FullCalls l mem parts tparts filled tfilled ops) (hws : WaitsStarted (done ++ ops.filterMap FOp.op?))
    (hwo : WaitsOnce (done ++ ops.filterMap FOp.op?))
    (hfirst : kt = some (tileKeys l) ∨ kt = none ∧ FullFirstUse ops) :
    ∃ (fin : Int → FState α) (pend' : Pending α), (⟨fun r => if r ∈ allRanks l then
          (execFull l junk tjunk r ops (s r)).bind fun x => .ret (some x) else .ret none, sent, rcvd⟩ :
          Net (Msg α) _).Completes buf (fun r => if r ∈ allRanks l then some (.ok (fin r)) else none) ∧
      FullRun l parts tparts ops (fsnapOf l s pend) (fsnapOf l fin pend') ∧
      ∀ r ∈ allRanks l, MetaIs mem r (fin r).comm.mem := by
  induction ops generalizing s filled tfilled n tn hist done fin pend kt sent rcvd with
  | nil =>
    refine ⟨s, pend, Net.completes_of_run (sched := []) rfl fun r => ?_,
      ⟨rfl, ⟨fun _ _ => rfl, rfl, fun _ _ => rfl, rfl⟩, fun _ _ _ => ⟨rfl, rfl⟩⟩, fun r hr => ?_⟩
    · dsimp only
      split <;> rfl
    · rw [B.comm r hr]
      exact B.tracked.good r hr
  | cons op ops ih =>
    obtain ⟨v1, v2⟩ := hv
    have hcons : done ++ (op :: ops).filterMap FOp.op? = (done ++ op.op?.toList) ++ ops.filterMap FOp.op? := by
      cases op <;> simp [FOp.op?, List.filterMap_cons]
    rw [hcons] at hws hwo
    obtain ⟨s', fin', pend', hist', n', tn', kt', sched, T, b1, b2, a2, B', H', hf'⟩ := f_phase hl hsq buf junk tjunk B H v1
      hws.prefix hwo.prefix hfirst
    obtain ⟨fin, pend2, c1, c2, c3⟩ := ih B' H' v2 hws hwo hf'
    refine ⟨fin, pend2, ?_, ⟨_, a2, c2⟩, c3⟩
    let K : Int → Option (Py (FState α)) → Proc (Msg α) (Option (Py (FState α))) := fun r x =>
      match x with
      | none => .ret none
      | some (.error e) => .ret (some (.error e))
      | some (.ok s') => (execFull l junk tjunk r ops s').bind fun x => .ret (some x)
    have := Net.Completes.andThen (K := K) b1 b2 (out := fun r =>
      if r ∈ allRanks l then some (.ok (fin r)) else none) (by
        refine cast ?_ c1
        congr 2
        funext r
        by_cases hr : r ∈ allRanks l
        · simp only [if_pos hr]
          rfl
        · simp only [if_neg hr]
          rfl)
    refine cast ?_ this
    congr 1
    unfold Net.andThen
    congr 1
    funext r
    unfold fProcs
    by_cases hr : r ∈ allRanks l
    · simp only [if_pos hr]
      show _ = ((op.exec l junk tjunk r (s r)).bind _).bind _
      rw [Proc.bind_bind, Proc.bind_bind]
      congr 1
      funext y
      cases y <;> rfl
    · simp only [if_neg hr]
      rfl

end FV3
