import Verif.Proofs.Shift
import Verif.Proofs.SessionRun
import Verif.Model.ManyComm

/-!
# Calls of several communicator objects, one after the other
-/

namespace FV3
variable {M R : Type}

/-- `Net.run_embed`, with the messages of the phase. -/
theorem Net.run_embed_full {buf : Buffering} {A : Tag → Prop} {Q : Int → R → Prop} {sched : List Int} {N N' T : Net M R}
    (hspec : ∀ r, (N.procs r).Spec A (Q r)) (hp : N'.procs = N.procs)
    (hs : ∀ s d t, A t → N'.sent s d t = N.sent s d t) (hr : ∀ s d t, A t → N'.rcvd s d t = N.rcvd s d t)
    (h : N.run buf sched = some T) :
    ∃ T', N'.run buf sched = some T' ∧ T'.procs = T.procs ∧
      (∀ s d t, A t → T'.sent s d t = T.sent s d t ∧ T'.rcvd s d t = T.rcvd s d t) ∧
      (∀ s d t, ¬ A t → T'.sent s d t = N'.sent s d t ∧ T'.rcvd s d t = N'.rcvd s d t) := by
  induction sched generalizing N N' with
  | nil =>
    simp only [Net.run, Option.some.injEq] at h
    subst h
    exact ⟨N', rfl, hp, fun _ _ _ ht => ⟨hs _ _ _ ht, hr _ _ _ ht⟩, fun _ _ _ _ => ⟨rfl, rfl⟩⟩
  | cons r sched ih =>
    unfold Net.run at h
    cases h1 : N.step buf r with
    | none => rw [h1] at h; cases h
    | some N1 =>
      rw [h1] at h
      obtain ⟨a1, N1', a2, a3, a4, a5, a6, a7⟩ := Net.step_embed hspec hp hs hr h1
      obtain ⟨T', b1, b2, b3, b4⟩ := ih a1 a3 a4 a5 h
      refine ⟨T', ?_, b2, b3, fun s d t ht => ?_⟩
      · unfold Net.run
        rw [a2]
        exact b1
      · rw [(b4 s d t ht).1, (b4 s d t ht).2, a6 s d t ht, a7 s d t ht]
        exact ⟨rfl, rfl⟩

/-- The tags of halo updates. -/
def IsHalo (t : Tag) : Prop := ∃ i, t = .halo i

variable {α : Type} [Neg α]

/-- The network between two calls: the messages of halo updates have been received, and the tags of later collective
calls have not been used. -/
structure Quiet (n : Nat) (sent : Int → Int → Tag → List (Msg α)) (rcvd : Int → Int → Tag → Nat) : Prop where
  halo : Net.SettledOn IsHalo sent rcvd
  coll : Net.CleanOn (fun t => ∃ i, t = .coll i ∧ n ≤ i) sent rcvd

/-- One call on a quiet network. -/
theorem quiet_phase {l : Layout} (hl : FloatSafe l) (hsq : l.y = l.x) (buf : Buffering) (junk : Nat → List Nat → α)
    {mem : Int → Mem α} {parts : Nat → Parts} {filled : List Nat} {n : Nat} {hist : List (Call α)} {s : Int → SState α}
    (B : Between l mem parts filled (hist.map Call.nTags).sum n s) {op : SOp α}
    (hh : ∀ c' ∈ hist, (SOp.call c').Valid l mem parts filled) (hv : op.Valid l mem parts filled)
    {sent : Int → Int → Tag → List (Msg α)} {rcvd : Int → Int → Tag → Nat} (hc : Quiet n sent rcvd) :
    ∃ s' sched T, (⟨(opNet l junk op s).procs, sent, rcvd⟩ : Net (Msg α) _).run buf sched = some T ∧
      (∀ r, T.procs r = .ret (if r ∈ allRanks l then some (.ok (s' r)) else none)) ∧
      op.Step l parts (fun r => (s r).mem) (s 0).glob (fun r => (s' r).mem) (s' 0).glob ∧
      Between l mem parts (op.fills filled) ((hist.map Call.nTags).sum + op.nTags) (n + op.nColl) s' ∧
      Quiet (n + op.nColl) T.sent T.rcvd := by
  obtain ⟨s', a1, a2, a3⟩ := op_phase hl hsq (match op with | .call _ => fun _ _ _ _ => false | _ => buf) junk B hv
  have htags : ∀ r, ((opNet l junk op s).procs r).Spec
      (SessTag (hist.map Call.nTags).sum ((hist.map Call.nTags).sum + op.nTags) n (n + op.nColl)) fun _ => True := by
    intro r
    show (if r ∈ allRanks l then _ else _ : Proc _ _).Spec _ _
    split
    · next hr =>
      refine Proc.Spec.bind (Q := fun _ => True) ?_ fun _ _ => trivial
      have := SOp.exec_tags l junk r op (s r)
      rw [B.tag r hr, B.coll r hr] at this
      exact this
    · trivial
  cases op with
  | call c =>
    have hhalo : ∀ r, ((opNet l junk (.call c) s).procs r).Spec IsHalo fun _ => True := fun r =>
      (htags r).mono (fun t h => by
        rcases h with ⟨i, h, -⟩ | ⟨i, -, h1, h2⟩
        · exact ⟨i, h⟩
        · exact absurd h2 (Nat.not_lt.2 h1)) fun _ _ => trivial
    classical
    let sent' : Int → Int → Tag → List (Msg α) := fun a b t => if IsHalo t then sent a b t else []
    let rcvd' : Int → Int → Tag → Nat := fun a b t => if IsHalo t then rcvd a b t else 0
    obtain ⟨sched, T, b1, b2, b3⟩ := Net.phase_settled (buf := buf) (procs := (opNet l junk (.call c) s).procs)
      (sent := sent') (rcvd := rcvd') (ok := fun x => ∀ e, x ≠ some (.error e)) a1
      (fun r e => by split <;> simp)
      (fun a b t _ => by
        dsimp only [sent', rcvd']
        split
        · next h => exact hc.halo a b t h
        · rfl)
      (fun r => by
        show Shift _ _ (if r ∈ allRanks l then _ else _) (if r ∈ allRanks l then _ else _) _
        split
        · refine Shift.bind (Q := fun x y L => x = y ∧ ((∀ e, x ≠ .error e) → ∀ z, ¬ L z)) ?_ ?_
          · refine Shift.bind (CommM.Sh.exec l r c ⟨(s r).mem, (s r).tag, []⟩) ?_
            rintro ⟨x, s1⟩ ⟨y, s2⟩ L' ⟨h1, h2⟩
            dsimp only at h1 h2
            subst h1
            rcases h2 with ⟨e, rfl, rfl⟩ | ⟨a, b, rfl, rfl, h⟩
            · exact .ret ⟨rfl, fun h => absurd rfl (h e)⟩
            · exact .ret ⟨rfl, fun _ => h⟩
          · rintro x y L' ⟨rfl, h⟩
            exact .ret ⟨rfl, fun h' => h fun e he => h' e (by rw [he])⟩
        · exact .ret ⟨rfl, fun _ _ h => h⟩)
    obtain ⟨T', d1, d2, d3, d4⟩ := Net.run_embed_full (N := ⟨(opNet l junk (.call c) s).procs, sent', rcvd'⟩)
      (N' := ⟨(opNet l junk (.call c) s).procs, sent, rcvd⟩) (A := IsHalo) (Q := fun _ _ => True) hhalo rfl
      (fun a b t ht => (if_pos ht).symm) (fun a b t ht => (if_pos ht).symm) b1
    refine ⟨s', sched, T', d1, fun r => by rw [d2]; exact b2 r, a2, a3, fun a b t ht => ?_, fun a b t ht => ?_,
      fun a b t ht => ?_⟩
    · rw [(d3 a b t ht).1, (d3 a b t ht).2]
      exact b3 a b t trivial
    · have hn : ¬ IsHalo t := by
        obtain ⟨i, rfl, -⟩ := ht
        rintro ⟨j, h⟩
        cases h
      rw [(d4 a b t hn).1]
      exact hc.coll.sent a b t ht
    · have hn : ¬ IsHalo t := by
        obtain ⟨i, rfl, -⟩ := ht
        rintro ⟨j, h⟩
        cases h
      rw [(d4 a b t hn).2]
      exact hc.coll.rcvd a b t ht
  | _ =>
    all_goals
      obtain ⟨sched, T, b1, b2⟩ := a1.run
      have hcoll := fun r => (htags r).mono (A' := IsCollTag n (n + _)) (fun t h => by
        rcases h with ⟨i, -, h1, h2⟩ | h
        · exact absurd h2 (Nat.not_le.2 h1)
        · exact h) fun _ h => h
      obtain ⟨T', d1, d2, d3, d4⟩ := Net.run_embed_full (N' := ⟨(opNet l junk _ s).procs, sent, rcvd⟩) hcoll rfl
        (fun a b t ht => by
          obtain ⟨i, rfl, h1, -⟩ := ht
          exact hc.coll.sent a b _ ⟨i, rfl, h1⟩)
        (fun a b t ht => by
          obtain ⟨i, rfl, h1, -⟩ := ht
          exact hc.coll.rcvd a b _ ⟨i, rfl, h1⟩) b1
      refine ⟨s', sched, T', d1, fun r => by rw [d2]; exact b2 r, a2, a3, fun a b t ht => ?_, fun a b t ht => ?_,
        fun a b t ht => ?_⟩
      · have hn : ∀ hi, ¬ IsCollTag n hi t := by
          obtain ⟨i, rfl⟩ := ht
          rintro hi ⟨j, h, -⟩
          cases h
        rw [(d4 a b t (hn _)).1, (d4 a b t (hn _)).2]
        exact hc.halo a b t ht
      · obtain ⟨i, rfl, hi⟩ := ht
        rw [(d4 a b _ (by rintro ⟨j, h, -, h'⟩; cases h; omega)).1]
        exact hc.coll.sent a b _ ⟨i, rfl, by omega⟩
      · obtain ⟨i, rfl, hi⟩ := ht
        rw [(d4 a b _ (by rintro ⟨j, h, -, h'⟩; cases h; omega)).2]
        exact hc.coll.rcvd a b _ ⟨i, rfl, by omega⟩

/-- All calls. -/
theorem many_from {l : Layout} (hl : FloatSafe l) (hsq : l.y = l.x) (buf : Buffering) (junk : Nat → List Nat → α)
    {mem : Int → Mem α} {parts : Nat → Parts} {ops : List (Nat × SOp α)} {filled : List Nat} {n : Nat}
    {hist : Nat → List (Call α)} {s : Int → MState α}
    (B : ∀ c, Between l mem parts filled ((hist c).map Call.nTags).sum n fun r => (s r).view c)
    (hh : ∀ c, ∀ c' ∈ hist c, (SOp.call c').Valid l mem parts filled)
    (hv : SessionValid l mem parts filled (ops.map (·.2)))
    {sent : Int → Int → Tag → List (Msg α)} {rcvd : Int → Int → Tag → Nat} (hc : Quiet n sent rcvd) :
    ∃ (fin : Int → MState α) (sched : List Int) (T : Net (Msg α) (Option (Py (MState α)))),
      (⟨fun r => if r ∈ allRanks l then
          (execMany l junk r ops (s r)).bind fun x => .ret (some x) else .ret none, sent, rcvd⟩ : Net (Msg α) _).run
        buf sched = some T ∧
      (∀ r, T.procs r = .ret (if r ∈ allRanks l then some (.ok (fin r)) else none)) ∧
      SessionRun l parts (ops.map (·.2)) (fun r => (s r).mem) (s 0).glob (fun r => (fin r).mem) (fin 0).glob ∧
      (∀ r ∈ allRanks l, MetaIs mem r (fin r).mem) ∧ Net.SettledOn IsHalo T.sent T.rcvd := by
  induction ops generalizing s filled n hist sent rcvd with
  | nil =>
    refine ⟨s, [], _, rfl, fun r => ?_, ⟨fun _ _ => rfl, rfl⟩, (B 0).same, hc.halo⟩
    dsimp only
    split <;> rfl
  | cons o ops ih =>
    obtain ⟨c, op⟩ := o
    obtain ⟨v1, v2⟩ := hv
    obtain ⟨s', sched, T, b1, b2, a2, a3, b3⟩ := quiet_phase hl hsq buf junk (B c) (hh c) v1 hc
    let hist' : Nat → List (Call α) := fun c' => if c' = c then hist c ++ op.calls else hist c'
    have hk : ((hist c ++ op.calls).map Call.nTags).sum = ((hist c).map Call.nTags).sum + op.nTags := by
      cases op <;> simp [SOp.calls, SOp.nTags]
    have hfill : SessionValid l mem parts (op.fills filled) (ops.map (·.2)) := by
      cases op <;> exact v2
    obtain ⟨fin, sched', T', c1, c0, c2, c3, c4⟩ := ih (s := fun r => (s r).back c (s' r)) (hist := hist') (n := n + op.nColl)
      (filled := op.fills filled) (fun c' => by
        refine ⟨a3.same, fun r hr => ?_, a3.coll, a3.shaped, a3.filled⟩
        dsimp only [MState.view, MState.back, hist']
        split
        · rw [hk]
          exact a3.tag r hr
        · exact (B c').tag r hr)
      (fun c' d hd => by
        dsimp only [hist'] at hd
        split at hd
        · rcases List.mem_append.1 hd with h | h
          · exact SOp.valid_call (hh c d h)
          · cases op with
            | call c =>
              simp only [SOp.calls, List.mem_singleton] at h
              rw [h]
              exact SOp.valid_call v1
            | scatter q g => simp [SOp.calls] at h
            | gather q g => simp [SOp.calls] at h
        · exact SOp.valid_call (hh c' d hd)) hfill b3
    refine ⟨fin, sched ++ sched', T', ?_, c0, ⟨_, _, a2, c2⟩, c3, c4⟩
    let K : Int → Option (Py (SState α)) → Proc (Msg α) (Option (Py (MState α))) := fun r x =>
      match x with
      | none => .ret none
      | some (.error e) => .ret (some (.error e))
      | some (.ok s') => (execMany l junk r ops ((s r).back c s')).bind fun x => .ret (some x)
    have h1 := Net.run_andThen K b1
    have e1 : T.andThen K = ⟨fun r => if r ∈ allRanks l then
          (execMany l junk r ops ((s r).back c (s' r))).bind fun x => .ret (some x) else .ret none, T.sent, T.rcvd⟩ := by
      unfold Net.andThen
      congr 1
      funext r
      rw [b2 r]
      by_cases hr : r ∈ allRanks l
      · simp only [if_pos hr]
        rfl
      · simp only [if_neg hr]
        rfl
    have e2 : (⟨fun r => if r ∈ allRanks l then
          (execMany l junk r ((c, op) :: ops) (s r)).bind fun x => .ret (some x) else .ret none, sent, rcvd⟩ :
        Net (Msg α) (Option (Py (MState α)))) =
        Net.andThen ⟨(opNet l junk op fun r => (s r).view c).procs, sent, rcvd⟩ K := by
      unfold Net.andThen opNet Net.start
      congr 1
      funext r
      dsimp only
      by_cases hr : r ∈ allRanks l
      · simp only [if_pos hr]
        show ((op.exec l junk r ((s r).view c)).bind _).bind _ = _
        rw [Proc.bind_bind, Proc.bind_bind]
        congr 1
        funext y
        cases y <;> rfl
      · simp only [if_neg hr]
        rfl
    rw [e2, Net.run_append, h1, e1]
    exact c1

end FV3
