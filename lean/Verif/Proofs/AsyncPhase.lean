import Verif.Proofs.AsyncRun

/-!
# Sessions with outstanding updates: the calls
-/

namespace FV3
variable {α : Type} [Neg α]

theorem Net.run_done {M R : Type} {buf : Buffering} {N T : Net M R} {sched : List Int}
    (hN : ∀ r, ∃ x, N.procs r = .ret x) (h : N.run buf sched = some T) : T = N := by
  cases sched with
  | nil => simp only [Net.run, Option.some.injEq] at h; exact h.symm
  | cons r sched =>
    obtain ⟨x, hx⟩ := hN r
    simp [Net.run, Net.step, hx] at h

theorem Tracked.congr {l : Layout} {buf : Buffering} {mem : Int → Mem α} {hist : List (Op α)} {fin : Int → Local α}
    {sent sent' : Int → Int → Tag → List (Msg α)} {rcvd rcvd' : Int → Int → Tag → Nat}
    (h : Tracked l buf mem hist fin sent rcvd) (hs : ∀ s d t, IsHaloTag t → sent' s d t = sent s d t)
    (hr : ∀ s d t, IsHaloTag t → rcvd' s d t = rcvd s d t) : Tracked l buf mem hist fin sent' rcvd' := by
  obtain ⟨h1, h2, sched, T, r1, r2, r3, r4⟩ := h
  exact ⟨h1, h2, sched, T, r1, r2, fun s d t ht => (hs s d t ht).trans (r3 s d t ht),
    fun s d t ht => (hr s d t ht).trans (r4 s d t ht)⟩

/-- The updates of all ranks are those of `pend`. -/
def PendingIs (l : Layout) (pend : Pending α) (fin : Int → Local α) : Prop :=
  ∀ r ∈ allRanks l, (fin r).ups.length = pend.length ∧ ∀ (k : Nat) o m0, pend[k]? = some (o, m0) →
    ∃ u, (fin r).ups[k]? = some u ∧ o.out l r (m0 r) = .ok u.out ∧ o.inn l r (m0 r) = .ok u.inc

/-- The operations of the past can be followed by any others. -/
structure HistOk (l : Layout) (mem : Int → Mem α) (hist done : List (Op α)) : Prop where
  ready : ∀ op ∈ hist, UpdateReady l mem op
  waits : WaitsStarted hist
  keeps : ComputesKeep l (MetaIs mem) hist
  starts : hist.countP Op.isStart = done.countP Op.isStart
  waited : hist.filterMap Op.waitIdx = done.filterMap Op.waitIdx

theorem HistOk.snoc {l : Layout} {mem : Int → Mem α} {hist done : List (Op α)} (h : HistOk l mem hist done) {o : Op α}
    (hr : UpdateReady l mem o) (hk : ∀ f, o = .compute f → ∀ r ∈ allRanks l, ∀ m, MetaIs mem r m → MetaIs mem r (f r m))
    (hw : ∀ i, o = .wait i → i < hist.countP Op.isStart) : HistOk l mem (hist ++ [o]) (done ++ [o]) := by
  refine ⟨fun op ho => ?_, fun d i hd => ?_, fun f hf => ?_, ?_, ?_⟩
  · rcases List.mem_append.1 ho with h1 | h1
    · exact h.ready op h1
    · rw [List.mem_singleton.1 h1]; exact hr
  · by_cases hlt : d < hist.length
    · rw [List.getElem?_append_left hlt] at hd
      rw [List.take_append_of_le_length (by omega)]
      exact h.waits d i hd
    · rw [List.getElem?_append_right (by omega)] at hd
      have : d = hist.length := by
        have := (List.getElem?_eq_some_iff.1 hd).1
        simp at this
        omega
      subst this
      simp only [Nat.sub_self, List.getElem?_cons_zero, Option.some.injEq] at hd
      rw [List.take_left]
      exact hw i hd
  · rcases List.mem_append.1 hf with h1 | h1
    · exact h.keeps f h1
    · exact hk f (List.mem_singleton.1 h1).symm
  · rw [List.countP_append, List.countP_append, h.starts]
  · rw [List.filterMap_append, List.filterMap_append, h.waited]

theorem HistOk.compute {l : Layout} {mem : Int → Mem α} {hist done : List (Op α)} (h : HistOk l mem hist done)
    {f : Int → Mem α → Mem α} (hk : ∀ r ∈ allRanks l, ∀ m, MetaIs mem r m → MetaIs mem r (f r m)) :
    HistOk l mem (hist ++ [.compute f]) done := by
  have := h.snoc (o := .compute f) trivial (fun f' e => by cases e; exact hk) (fun i e => by cases e)
  refine ⟨this.ready, this.waits, this.keeps, ?_, ?_⟩
  · rw [this.starts, List.countP_append]; rfl
  · rw [this.waited, List.filterMap_append]
    simp [Op.waitIdx]

/-- The state of all ranks between two calls. -/
structure ABetween (l : Layout) (buf : Buffering) (mem : Int → Mem α) (parts : Nat → Parts) (filled : List Nat) (n : Nat)
    (hist : List (Op α)) (fin : Int → Local α) (pend : Pending α)
    (sent : Int → Int → Tag → List (Msg α)) (rcvd : Int → Int → Tag → Nat) (s : Int → AState α) : Prop where
  tracked : Tracked l buf mem hist fin sent rcvd
  pending : PendingIs l pend fin
  comm : ∀ r ∈ allRanks l, (s r).comm = (fin r).toRank
  coll : ∀ r ∈ allRanks l, (s r).coll = n
  shaped : ∀ g v, (s 0).glob g = some v → v.GlobalShaped (.cube l) (parts g).dims (parts g).cells
  filled : ∀ g ∈ filled, ∃ v, (s 0).glob g = some v
  clean : Net.CleanOn (fun t => ∃ i, t = .coll i ∧ n ≤ i) sent rcvd

/-- What all ranks hold. -/
def wholeOf (s : Int → AState α) (pend : Pending α) : Whole α := ⟨fun r => (s r).comm.mem, (s 0).glob, pend⟩

/-- All ranks make one call. -/
def aProcs (l : Layout) (junk : Nat → List Nat → α) (op : AOp α) (s : Int → AState α) (r : Int) :
    Proc (Msg α) (Option (Py (AState α))) :=
  if r ∈ allRanks l then (op.exec l junk r (s r)).bind fun x => .ret (some x) else .ret none

/-- What rank `r` receives in an update started by all ranks. -/
theorem PendingIs.received {l : Layout} {pend : Pending α} {fin fin' : Int → Local α} (h : PendingIs l pend fin)
    (hups : ∀ r ∈ allRanks l, (fin' r).ups = (fin r).ups) (hout : ∀ r, r ∉ allRanks l → (fin' r).ups = [])
    {k : Nat} {o : Op α} {m0 : Int → Mem α} (hk : pend[k]? = some (o, m0)) (r : Int) :
    received fin' r k = packedFor l o m0 r := by
  funext src off
  unfold FV3.received packedFor
  by_cases hs : src ∈ allRanks l
  · obtain ⟨u, h1, h2, -⟩ := (h src hs).2 k o m0 hk
    rw [if_pos hs, hups src hs, h1, h2]
  · rw [if_neg hs, hout src hs]
    rfl

/-- A start, wait or computation. -/
theorem aop_phase {l : Layout} (hx : 0 < l.x) (hsq : l.y = l.x) (buf : Buffering) (junk : Nat → List Nat → α)
    {mem : Int → Mem α} {parts : Nat → Parts} {filled : List Nat} {n : Nat} {hist done : List (Op α)}
    {fin : Int → Local α} {pend : Pending α} {s : Int → AState α}
    {sent : Int → Int → Tag → List (Msg α)} {rcvd : Int → Int → Tag → Nat}
    (B : ABetween l buf mem parts filled n hist fin pend sent rcvd s) (H : HistOk l mem hist done) {o : Op α}
    (hv : (AOp.op o).Valid l mem parts filled) (hws : WaitsStarted (done ++ [o])) (hwo : WaitsOnce (done ++ [o])) :
    ∃ s' fin' pend' sched T, (⟨aProcs l junk (.op o) s, sent, rcvd⟩ : Net (Msg α) _).run buf sched = some T ∧
      (∀ r, T.procs r = .ret (if r ∈ allRanks l then some (.ok (s' r)) else none)) ∧
      (AOp.op o).Step l parts (wholeOf s pend) (wholeOf s' pend') ∧
      ABetween l buf mem parts filled n (hist ++ [o]) fin' pend' T.sent T.rcvd s' ∧
      HistOk l mem (hist ++ [o]) (done ++ [o]) ∧
      ∀ a b t, ¬ IsHaloTag t → T.sent a b t = sent a b t ∧ T.rcvd a b t = rcvd a b t := by
  have hlen : ∀ r ∈ allRanks l, (fin r).ups.length = hist.countP Op.isStart := by
    intro r hr
    have := localRun_ups ((B.tracked.cons r).1 hr)
    simpa using this
  have hready : UpdateReady l mem o := by
    cases o with
    | compute f => trivial
    | _ => exact hv
  have hwi : ∀ i, o = .wait i → i < hist.countP Op.isStart := by
    intro i e
    have := hws done.length i (by rw [e, List.getElem?_append_right (by omega)]; simp)
    rw [List.take_left] at this
    rw [H.starts]
    exact this
  have H' := H.snoc hready (fun f e => by subst e; exact hv) hwi
  have hwo' : WaitsOnce (hist ++ [o]) := by
    unfold WaitsOnce
    rw [H'.waited]
    exact hwo
  obtain ⟨fin', sched, T, t1, t2, t3, t4, t5, t6⟩ := B.tracked.step hx hsq H'.ready H'.waits hwo' H'.keeps
  let f : Int → Py Unit × RankState α → Option (Py (AState α)) := fun r y =>
    if r ∈ allRanks l then some (match y.1 with
      | .error e => Except.error e
      | .ok _ => .ok { s r with comm := y.2 }) else none
  have t1' := Net.run_andThen (fun r y => Proc.ret (f r y)) t1
  have eN : (⟨callProcs l o fun r => (fin r).toRank, sent, rcvd⟩ : Net (Msg α) _).andThen (fun r y => Proc.ret (f r y)) =
      ⟨aProcs l junk (.op o) s, sent, rcvd⟩ := by
    unfold Net.andThen
    congr 1
    funext r
    unfold callProcs aProcs
    by_cases hr : r ∈ allRanks l
    · simp only [if_pos hr, f]
      show _ = ((o.exec l r (s r).comm).bind _).bind _
      rw [B.comm r hr, Proc.bind_bind]
      congr 1
      funext y
      obtain ⟨a | a, y⟩ := y <;> rfl
    · simp only [if_neg hr, f]
      rfl
  rw [eN] at t1'
  have hlocal : ∀ r, r ∉ allRanks l → (fin' r).ups = [] := fun r hr => by rw [(t3.cons r).2 hr]
  have step : ∃ pend', (AOp.op o).Step l parts (wholeOf s pend)
      (wholeOf (fun r => { s r with comm := (fin' r).toRank }) pend') ∧ PendingIs l pend' fin' := by
    have start : ∀ (hst : o.isStart = true), (∀ r ∈ allRanks l, (∃ out, o.out l r (fin r).mem = .ok out) ∧ (fin' r).mem = (fin r).mem) ∧
        PendingIs l (pend ++ [(o, fun r => (s r).comm.mem)]) fin' := by
      intro hst
      refine ⟨fun r hr => ?_, fun r hr => ?_⟩
      · have := localStep_ups (t4 r hr)
        rw [if_pos hst] at this
        obtain ⟨u, h1, -, -, h⟩ := this
        exact ⟨⟨_, h1⟩, h⟩
      · have := localStep_ups (t4 r hr)
        rw [if_pos hst] at this
        obtain ⟨u, h1, h2, h3, h4⟩ := this
        obtain ⟨p1, p2⟩ := B.pending r hr
        refine ⟨by simp [h3, p1], fun k o' m0 hk => ?_⟩
        by_cases hlt : k < pend.length
        · rw [List.getElem?_append_left hlt] at hk
          obtain ⟨u', q1, q2⟩ := p2 k o' m0 hk
          exact ⟨u', by rw [h3, List.getElem?_append_left (by omega)]; exact q1, q2⟩
        · rw [List.getElem?_append_right (by omega)] at hk
          have : k = pend.length := by
            have := (List.getElem?_eq_some_iff.1 hk).1
            simp at this
            omega
          subst this
          simp only [Nat.sub_self, List.getElem?_cons_zero, Option.some.injEq, Prod.mk.injEq] at hk
          obtain ⟨rfl, rfl⟩ := hk
          refine ⟨u, by rw [h3, List.getElem?_append_right (by omega)]; simp [p1], ?_⟩
          dsimp only
          rw [B.comm r hr]
          exact ⟨h1, h2⟩
    have memeq : ∀ r ∈ allRanks l, (fin r).mem = (s r).comm.mem := fun r hr => by rw [B.comm r hr]; rfl
    cases o with
    | wait i =>
      have hups : ∀ r ∈ allRanks l, (fin' r).ups = (fin r).ups := fun r hr => by
        have := localStep_ups (t4 r hr)
        simpa [Op.isStart] using this
      have hi : i < pend.length := by
        have h0 : (0 : Int) ∈ allRanks l :=
          (cube_ranks l 0).1 ((mem_ranks _ 0).2 ⟨by omega, by
            have : 0 < l.y * l.x := Int.mul_pos (by omega) hx
            show 0 < 6 * (l.y * l.x)
            omega⟩)
        rw [← (B.pending 0 h0).1, hlen 0 h0]
        exact hwi i rfl
      obtain ⟨o, m0, hp⟩ : ∃ o m0, pend[i]? = some (o, m0) :=
        ⟨_, _, List.getElem?_eq_getElem hi⟩
      refine ⟨pend, ⟨rfl, rfl, o, m0, hp, fun r hr => ?_⟩, fun r hr => ?_⟩
      · obtain ⟨u, h1, h2, h3⟩ := (B.pending r hr).2 i o m0 hp
        have h4 := t4 r hr
        rw [localStep_wait, h1] at h4
        dsimp only at h4
        rw [B.pending.received hups hlocal hp r] at h4
        refine ⟨u.inc, h3, ?_⟩
        show deliver (packedFor l o m0 r) u.inc (s r).comm.mem = .ok (fin' r).mem
        rw [← memeq r hr]
        cases hd : deliver (packedFor l o m0 r) u.inc (fin r).mem with
        | error e => rw [hd] at h4; cases h4
        | ok m =>
          rw [hd] at h4
          have := Except.ok.inj h4
          rw [← this]
      · rw [hups r hr]
        exact B.pending r hr
    | compute f =>
      refine ⟨pend, ⟨rfl, rfl, fun r hr => ?_⟩, fun r hr => ?_⟩
      · have := Except.ok.inj (t4 r hr)
        show (fin' r).mem = f r (s r).comm.mem
        rw [← this, ← memeq r hr]
      · have := Except.ok.inj (t4 r hr)
        rw [← this]
        exact B.pending r hr
    | halo q h =>
      obtain ⟨a, b⟩ := start rfl
      exact ⟨_, ⟨rfl, rfl, fun r hr => (memeq r hr ▸ a r hr :
        (∃ out, Op.out l r (s r).comm.mem _ = .ok out) ∧ (fin' r).mem = (s r).comm.mem)⟩, b⟩
    | vector x y h =>
      obtain ⟨a, b⟩ := start rfl
      exact ⟨_, ⟨rfl, rfl, fun r hr => (memeq r hr ▸ a r hr :
        (∃ out, Op.out l r (s r).comm.mem _ = .ok out) ∧ (fin' r).mem = (s r).comm.mem)⟩, b⟩
    | sync x y =>
      obtain ⟨a, b⟩ := start rfl
      exact ⟨_, ⟨rfl, rfl, fun r hr => (memeq r hr ▸ a r hr :
        (∃ out, Op.out l r (s r).comm.mem _ = .ok out) ∧ (fin' r).mem = (s r).comm.mem)⟩, b⟩
  obtain ⟨pend', st, hp⟩ := step
  refine ⟨fun r => { s r with comm := (fin' r).toRank }, fin', pend', sched, _, t1', fun r => ?_, st,
    ⟨t3, hp, fun _ _ => rfl, B.coll, B.shaped, B.filled, ⟨?_, ?_⟩⟩, H', fun a b t ht => ⟨t5 a b t ht, t6 a b t ht⟩⟩
  · show (T.procs r).bind _ = _
    rw [t2 r]
    show Proc.ret (f r (.ok (), (fin' r).toRank)) = _
    by_cases hr : r ∈ allRanks l
    · simp only [f, if_pos hr]
    · simp only [f, if_neg hr]
  · rintro a b t ⟨i, rfl, hi⟩
    show T.sent a b _ = []
    rw [t5 a b _ (by rintro ⟨j, hj⟩; cases hj)]
    exact B.clean.sent a b _ ⟨i, rfl, hi⟩
  · rintro a b t ⟨i, rfl, hi⟩
    show T.rcvd a b _ = 0
    rw [t6 a b _ (by rintro ⟨j, hj⟩; cases hj)]
    exact B.clean.rcvd a b _ ⟨i, rfl, hi⟩

/-- The state without requests. -/
def AState.toS (s : AState α) : SState α := ⟨s.comm.mem, s.glob, 0, s.coll⟩

/-- The state after a collective call. -/
def AState.after (s : AState α) (s' : SState α) : AState α := ⟨{ s.comm with mem := s'.mem }, s'.glob, s'.coll⟩

/-- A scatter or gather. -/
theorem acoll_phase {l : Layout} (hl : FloatSafe l) (hsq : l.y = l.x) (buf : Buffering) (junk : Nat → List Nat → α)
    {mem : Int → Mem α} {parts : Nat → Parts} {filled : List Nat} {n : Nat} {hist done : List (Op α)}
    {fin : Int → Local α} {pend : Pending α} {s : Int → AState α}
    {sent : Int → Int → Tag → List (Msg α)} {rcvd : Int → Int → Tag → Nat}
    (B : ABetween l buf mem parts filled n hist fin pend sent rcvd s) (H : HistOk l mem hist done)
    (hwo : WaitsOnce done) {op : AOp α} {sop : SOp α}
    (he : ∀ r s, op.exec l junk r s = (sop.exec l junk r s.toS).bind fun x => .ret (x.map s.after))
    (hnc : ∀ c, sop ≠ .call c) (hv : sop.Valid l mem parts filled)
    (hstep : ∀ s s', sop.Step l parts (fun r => (s r).comm.mem) (s 0).glob (fun r => (s' r).comm.mem) (s' 0).glob →
      op.Step l parts (wholeOf s pend) (wholeOf s' pend)) :
    ∃ s' fin' hist' sched T, (⟨aProcs l junk op s, sent, rcvd⟩ : Net (Msg α) _).run buf sched = some T ∧
      (∀ r, T.procs r = .ret (if r ∈ allRanks l then some (.ok (s' r)) else none)) ∧
      op.Step l parts (wholeOf s pend) (wholeOf s' pend) ∧
      ABetween l buf mem parts (sop.fills filled) (n + sop.nColl) hist' fin' pend T.sent T.rcvd s' ∧
      HistOk l mem hist' done := by
  have hmem : ∀ r ∈ allRanks l, (s r).comm.mem = (fin r).mem := fun r hr => by rw [B.comm r hr]; rfl
  obtain ⟨z, a1, a2, a3⟩ := op_phase hl hsq buf junk (k := 0) (n := n) (s := fun r => (s r).toS)
    (mem := mem) (parts := parts) (filled := filled) (op := sop)
    ⟨fun r hr => by show MetaIs mem r (s r).comm.mem; rw [hmem r hr]; exact B.tracked.good r hr,
      fun _ _ => rfl, B.coll, B.shaped, B.filled⟩ hv
  have hst := hstep s (fun r => (s r).after (z r)) a2
  -- the run of the call
  have a4 := a1.map fun r (y : Option (Py (SState α))) => y.map fun x => x.map (s r).after
  have eP : (opNet l junk sop fun r => (s r).toS).andThen (fun r y => Proc.ret (y.map fun x => x.map (s r).after)) =
      Net.start (aProcs l junk op s) := by
    unfold Net.andThen opNet Net.start
    congr 1
    funext r
    unfold aProcs
    by_cases hr : r ∈ allRanks l
    · simp only [if_pos hr]
      rw [he, Proc.bind_bind, Proc.bind_bind]
      rfl
    · simp only [if_neg hr]
      rfl
  rw [eP] at a4
  obtain ⟨sched, T, r1, r2⟩ := a4.run
  obtain ⟨T', t1, t2, -, -, t5, t6⟩ := Net.run_embed' (A := IsCollTag n (n + sop.nColl)) (Q := fun _ _ => True)
    (N := Net.start (aProcs l junk op s)) (N' := ⟨aProcs l junk op s, sent, rcvd⟩) (fun r => by
      show (aProcs l junk op s r).Spec _ _
      unfold aProcs
      split
      · next hr =>
        refine Proc.Spec.bind (Q := fun _ => True) ?_ fun _ _ => trivial
        rw [he]
        refine Proc.Spec.bind (Q := fun _ => True) ?_ fun _ _ => trivial
        have h1 := SOp.exec_tags l junk r sop (s r).toS
        have h2 : (s r).toS.coll = n := B.coll r hr
        have h3 : (s r).toS.tag = 0 := rfl
        rw [h2, h3] at h1
        refine h1.mono (fun t ht => ?_) fun _ h => h
        rcases ht with ⟨i, -, h4, h5⟩ | ht
        · exfalso
          have : sop.nTags = 0 := by
            cases sop with
            | call c => exact absurd rfl (hnc c)
            | _ => rfl
          omega
        · exact ht
      · trivial) rfl
    (fun a b t ht => by
      obtain ⟨i, rfl, h1, -⟩ := ht
      exact B.clean.sent a b _ ⟨i, rfl, h1⟩)
    (fun a b t ht => by
      obtain ⟨i, rfl, h1, -⟩ := ht
      exact B.clean.rcvd a b _ ⟨i, rfl, h1⟩) r1
  -- the history: as if the quantities were computed
  have hk : ∀ r ∈ allRanks l, ∀ m, MetaIs mem r m → MetaIs mem r ((fun r _ => (z r).mem : Int → Mem α → Mem α) r m) :=
    fun r hr _ _ => a3.same r hr
  have H' := H.compute hk
  have hwo' : WaitsOnce (hist ++ [.compute fun r _ => (z r).mem]) := by
    unfold WaitsOnce
    rw [H'.waited]
    exact hwo
  obtain ⟨fin', sched2, T2, u1, u2, u3, u4, -, -⟩ := B.tracked.step hl.xpos hsq H'.ready H'.waits hwo' H'.keeps
  have hT2 := Net.run_done (fun r => by
    dsimp only
    unfold callProcs
    split
    · exact ⟨_, rfl⟩
    · exact ⟨_, rfl⟩) u1
  rw [hT2] at u3
  have hfin : ∀ r ∈ allRanks l, fin' r = { fin r with mem := (z r).mem } := fun r hr => (Except.ok.inj (u4 r hr)).symm
  refine ⟨fun r => (s r).after (z r), fin', _, sched, T', t1, fun r => ?_, hst, ⟨?_, ?_, ?_, ?_, ?_, ?_, ?_⟩, H'⟩
  · rw [t2, r2 r]
    by_cases hr : r ∈ allRanks l
    · simp only [if_pos hr]
      rfl
    · simp only [if_neg hr]
      rfl
  · exact u3.congr (fun a b t ht => t5 a b t (by rintro ⟨i, rfl, -⟩; obtain ⟨j, hj⟩ := ht; cases hj))
      (fun a b t ht => t6 a b t (by rintro ⟨i, rfl, -⟩; obtain ⟨j, hj⟩ := ht; cases hj))
  · intro r hr
    rw [hfin r hr]
    exact B.pending r hr
  · intro r hr
    show AState.comm ((s r).after (z r)) = _
    unfold AState.after
    dsimp only
    rw [hfin r hr, B.comm r hr]
    rfl
  · intro r hr
    exact a3.coll r hr
  · exact a3.shaped
  · exact a3.filled
  · constructor
    · rintro a b t ⟨i, rfl, hi⟩
      rw [t5 a b _ (by rintro ⟨j, hj, -, h2⟩; cases hj; omega)]
      exact B.clean.sent a b _ ⟨i, rfl, by omega⟩
    · rintro a b t ⟨i, rfl, hi⟩
      rw [t6 a b _ (by rintro ⟨j, hj, -, h2⟩; cases hj; omega)]
      exact B.clean.rcvd a b _ ⟨i, rfl, by omega⟩

/-- Global quantities that exist after the call. -/
def AOp.fills (filled : List Nat) : AOp α → List Nat
  | .gather _ g => g :: filled
  | _ => filled

/-- One call. -/
theorem a_phase {l : Layout} (hx : 0 < l.x) (hsq : l.y = l.x) (buf : Buffering) (junk : Nat → List Nat → α)
    {mem : Int → Mem α} {parts : Nat → Parts} {filled : List Nat} {n : Nat} {hist done : List (Op α)}
    {fin : Int → Local α} {pend : Pending α} {s : Int → AState α}
    {sent : Int → Int → Tag → List (Msg α)} {rcvd : Int → Int → Tag → Nat}
    (B : ABetween l buf mem parts filled n hist fin pend sent rcvd s) (H : HistOk l mem hist done) {op : AOp α}
    (hl : op.op? = none → FloatSafe l)
    (hv : op.Valid l mem parts filled) (hws : WaitsStarted (done ++ op.op?.toList))
    (hwo : WaitsOnce (done ++ op.op?.toList)) :
    ∃ s' fin' pend' hist' n' sched T, (⟨aProcs l junk op s, sent, rcvd⟩ : Net (Msg α) _).run buf sched = some T ∧
      (∀ r, T.procs r = .ret (if r ∈ allRanks l then some (.ok (s' r)) else none)) ∧
      op.Step l parts (wholeOf s pend) (wholeOf s' pend') ∧
      ABetween l buf mem parts (op.fills filled) n' hist' fin' pend' T.sent T.rcvd s' ∧
      HistOk l mem hist' (done ++ op.op?.toList) := by
  cases op with
  | op o =>
    obtain ⟨s', fin', pend', sched, T, h1, h2, h3, h4, h5, -⟩ := aop_phase hx hsq buf junk B H hv hws hwo
    exact ⟨s', fin', pend', _, _, sched, T, h1, h2, h3, h4, h5⟩
  | scatter q g =>
    simp only [AOp.op?, Option.toList_none, List.append_nil] at hwo ⊢
    obtain ⟨s', fin', hist', sched, T, h1, h2, h3, h4, h5⟩ := acoll_phase (op := .scatter q g) (sop := .scatter q g)
      (hl rfl) hsq buf junk B H hwo (fun r s => by
        unfold AOp.exec SOp.exec
        dsimp only
        rw [Proc.bind_bind]
        show _ = Proc.bind (FV3.scatter (.cube l) (junk s.coll) r (s.glob g) (some (s.comm.mem q)) s.coll) _
        congr 1
        funext y
        obtain ⟨a | a, y⟩ := y <;> rfl) (fun c h => by cases h) hv (fun s s' h => ⟨rfl, h⟩)
    exact ⟨s', fin', pend, hist', _, sched, T, h1, h2, h3, h4, h5⟩
  | gather q g =>
    simp only [AOp.op?, Option.toList_none, List.append_nil] at hwo ⊢
    obtain ⟨s', fin', hist', sched, T, h1, h2, h3, h4, h5⟩ := acoll_phase (op := .gather q g) (sop := .gather q g)
      (hl rfl) hsq buf junk B H hwo (fun r s => by
        unfold AOp.exec SOp.exec
        dsimp only
        rw [Proc.bind_bind]
        show _ = Proc.bind (FV3.gather (.cube l) (junk s.coll) r (s.comm.mem q) (s.glob g) s.coll) _
        congr 1
        funext y
        obtain ⟨a | a, y⟩ := y <;> rfl) (fun c h => by cases h) hv (fun s s' h => ⟨rfl, h⟩)
    exact ⟨s', fin', pend, hist', _, sched, T, h1, h2, h3, h4, h5⟩

theorem WaitsStarted.prefix {a b : List (Op α)} (h : WaitsStarted (a ++ b)) : WaitsStarted a := by
  intro d i hd
  have hlt := (List.getElem?_eq_some_iff.1 hd).1
  have := h d i (by rw [List.getElem?_append_left hlt]; exact hd)
  rw [List.take_append_of_le_length (by omega)] at this
  exact this

theorem WaitsOnce.prefix {a b : List (Op α)} (h : WaitsOnce (a ++ b)) : WaitsOnce a := by
  unfold WaitsOnce at h ⊢
  rw [List.filterMap_append] at h
  exact h.of_append_left

/-- All calls. -/
theorem async_from {l : Layout} (hx : 0 < l.x) (hsq : l.y = l.x) (buf : Buffering) (junk : Nat → List Nat → α)
    {mem : Int → Mem α} {parts : Nat → Parts} {ops : List (AOp α)} {filled : List Nat} {n : Nat} {hist done : List (Op α)}
    {fin : Int → Local α} {pend : Pending α} {s : Int → AState α}
    {sent : Int → Int → Tag → List (Msg α)} {rcvd : Int → Int → Tag → Nat}
    (B : ABetween l buf mem parts filled n hist fin pend sent rcvd s) (H : HistOk l mem hist done)
    (hl : (∃ op ∈ ops, op.op? = none) → FloatSafe l) (hv : CallsValid l mem parts filled ops) (hws : WaitsStarted (done ++ ops.filterMap AOp.op?))
    (hwo : WaitsOnce (done ++ ops.filterMap AOp.op?)) :
    ∃ (fin : Int → AState α) (pend' : Pending α), (⟨fun r => if r ∈ allRanks l then
          (execAsync l junk r ops (s r)).bind fun x => .ret (some x) else .ret none, sent, rcvd⟩ : Net (Msg α) _).Completes
        buf (fun r => if r ∈ allRanks l then some (.ok (fin r)) else none) ∧
      AsyncRun l parts ops (wholeOf s pend) (wholeOf fin pend') ∧
      ∀ r ∈ allRanks l, MetaIs mem r (fin r).comm.mem := by
  induction ops generalizing s filled n hist done fin pend sent rcvd with
  | nil =>
    refine ⟨s, pend, Net.completes_of_run (sched := []) rfl fun r => ?_, ⟨fun _ _ => rfl, rfl, rfl⟩, fun r hr => ?_⟩
    · dsimp only
      split <;> rfl
    · rw [B.comm r hr]
      exact B.tracked.good r hr
  | cons op ops ih =>
    obtain ⟨v1, v2⟩ := hv
    have hcons : done ++ (op :: ops).filterMap AOp.op? = (done ++ op.op?.toList) ++ ops.filterMap AOp.op? := by
      cases op <;> simp [AOp.op?, List.filterMap_cons]
    rw [hcons] at hws hwo
    obtain ⟨s', fin', pend', hist', n', sched, T, b1, b2, a2, B', H'⟩ := a_phase hx hsq buf junk B H
      (fun h => hl ⟨op, List.mem_cons_self, h⟩) v1 hws.prefix hwo.prefix
    have hfill : CallsValid l mem parts (op.fills filled) ops := by
      cases op <;> exact v2
    obtain ⟨fin, pend2, c1, c2, c3⟩ := ih B' H'
      (fun ⟨o, h1, h2⟩ => hl ⟨o, List.mem_cons_of_mem _ h1, h2⟩) hfill hws hwo
    refine ⟨fin, pend2, ?_, ⟨_, a2, c2⟩, c3⟩
    let K : Int → Option (Py (AState α)) → Proc (Msg α) (Option (Py (AState α))) := fun r x =>
      match x with
      | none => .ret none
      | some (.error e) => .ret (some (.error e))
      | some (.ok s') => (execAsync l junk r ops s').bind fun x => .ret (some x)
    have := Net.Completes.andThen (K := K) b1 b2 (out := fun r =>
      if r ∈ allRanks l then some (.ok (fin r)) else none) (by
        refine cast ?_ c1
        congr 2
        funext r
        by_cases hr : r ∈ allRanks l
        · simp only [if_pos hr]
          rfl
        · simp only [if_neg hr]
          rfl)
    refine cast ?_ this
    congr 1
    unfold Net.andThen
    congr 1
    funext r
    unfold aProcs
    by_cases hr : r ∈ allRanks l
    · simp only [if_pos hr]
      show _ = ((op.exec l junk r (s r)).bind _).bind _
      rw [Proc.bind_bind, Proc.bind_bind]
      congr 1
      funext y
      cases y <;> rfl
    · simp only [if_neg hr]
      rfl

end FV3
