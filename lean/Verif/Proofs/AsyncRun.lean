import Verif.Spec.AsyncSession
import Verif.Proofs.SessionRun
import Mathlib.Data.List.Induction

/-!
# Sessions with outstanding updates: one call after the other
-/

namespace FV3
variable {α : Type}

/-- `Net.run_embed`, with the messages on the tags in `A`. -/
theorem Net.run_embed' {M R : Type} {buf : Buffering} {A : Tag → Prop} {Q : Int → R → Prop} {sched : List Int}
    {N N' T : Net M R}
    (hspec : ∀ r, (N.procs r).Spec A (Q r)) (hp : N'.procs = N.procs)
    (hs : ∀ s d t, A t → N'.sent s d t = N.sent s d t) (hr : ∀ s d t, A t → N'.rcvd s d t = N.rcvd s d t)
    (h : N.run buf sched = some T) :
    ∃ T', N'.run buf sched = some T' ∧ T'.procs = T.procs ∧
      (∀ s d t, A t → T'.sent s d t = T.sent s d t) ∧ (∀ s d t, A t → T'.rcvd s d t = T.rcvd s d t) ∧
      (∀ s d t, ¬ A t → T'.sent s d t = N'.sent s d t) ∧ (∀ s d t, ¬ A t → T'.rcvd s d t = N'.rcvd s d t) := by
  induction sched generalizing N N' with
  | nil =>
    simp only [Net.run, Option.some.injEq] at h
    subst h
    exact ⟨N', rfl, hp, hs, hr, fun _ _ _ _ => rfl, fun _ _ _ _ => rfl⟩
  | cons r sched ih =>
    unfold Net.run at h
    cases h1 : N.step buf r with
    | none => rw [h1] at h; cases h
    | some N1 =>
      rw [h1] at h
      obtain ⟨a1, N1', a2, a3, a4, a5, a6, a7⟩ := Net.step_embed hspec hp hs hr h1
      obtain ⟨T', b1, b2, b5, b6, b3, b4⟩ := ih a1 a3 a4 a5 h
      refine ⟨T', ?_, b2, b5, b6, fun s d t ht => ?_, fun s d t ht => ?_⟩
      · unfold Net.run
        rw [a2]
        exact b1
      · rw [b3 s d t ht, a6 s d t ht]
      · rw [b4 s d t ht, a7 s d t ht]

variable [Neg α]

/-- Starts and waits use the tags of halo updates. -/
theorem CommM.Halo.op (l : Layout) (r : Int) (o : Op α) : (o.exec l r).Halo := by
  have push : ∀ req, (pushReq req : CommM α Unit).Halo := fun _ _ => trivial
  cases o with
  | halo q n =>
    refine CommM.Halo.bind ?_ push
    unfold startHaloUpdate
    split
    · exact CommM.Halo.raise _
    · exact CommM.Halo.getTag.bind fun _ => CommM.Halo.bind
        ((CommM.Halo.lift _).bind fun _ => CommM.Halo.forEach (fun _ => (CommM.Halo.quantity _).bind fun _ => (CommM.Halo.lift _).bind fun _ =>
          (CommM.Halo.lift _).bind fun _ => CommM.Halo.isend _ _ _) _)
        fun _ => (CommM.Halo.irecvHalos _ _ _ _ _).bind fun _ => CommM.Halo.pure _
  | vector x y n =>
    refine CommM.Halo.bind ?_ push
    unfold startVectorHaloUpdate
    split
    · exact CommM.Halo.raise _
    · exact CommM.Halo.getTag.bind fun _ => CommM.Halo.getTag.bind fun _ => CommM.Halo.bind
        ((CommM.Halo.lift _).bind fun _ => CommM.Halo.bind (CommM.Halo.forEach (fun _ => (CommM.Halo.quantity _).bind fun _ => (CommM.Halo.quantity _).bind fun _ =>
          (CommM.Halo.lift _).bind fun _ => (CommM.Halo.lift _).bind fun _ => (CommM.Halo.lift _).bind fun _ => (CommM.Halo.isend _ _ _).bind fun _ =>
          (CommM.Halo.isend _ _ _).bind fun _ => CommM.Halo.pure _) _) fun _ => CommM.Halo.pure _)
        fun _ => (CommM.Halo.irecvHalos _ _ _ _ _).bind fun _ => (CommM.Halo.irecvHalos _ _ _ _ _).bind fun _ => CommM.Halo.pure _
  | sync x y =>
    refine CommM.Halo.bind ?_ push
    unfold startSynchronize
    refine (CommM.Halo.quantity _).bind fun _ => (CommM.Halo.quantity _).bind fun _ => ?_
    split
    · exact CommM.Halo.raise _
    · exact CommM.Halo.getTag.bind fun _ => CommM.Halo.bind
        ((CommM.Halo.lift _).bind fun _ => (CommM.Halo.lift _).bind fun _ => (CommM.Halo.quantity _).bind fun _ => (CommM.Halo.quantity _).bind fun _ =>
          (CommM.Halo.lift _).bind fun _ => (CommM.Halo.lift _).bind fun _ => (CommM.Halo.isend _ _ _).bind fun _ => (CommM.Halo.isend _ _ _).bind fun _ => CommM.Halo.pure _)
        fun _ => CommM.Halo.bind
          ((CommM.Halo.lift _).bind fun _ => (CommM.Halo.lift _).bind fun _ => (CommM.Halo.quantity _).bind fun _ => (CommM.Halo.quantity _).bind fun _ =>
            (CommM.Halo.lift _).bind fun _ => (CommM.Halo.lift _).bind fun _ => CommM.Halo.pure _)
          fun _ => CommM.Halo.pure _
  | wait i =>
    refine CommM.Halo.bind (fun _ => trivial) fun s => ?_
    split
    · exact CommM.Halo.raise _
    · exact CommM.Halo.waitRequest _
  | compute f => exact fun _ => trivial

/-! ### What the ranks know locally -/

theorem localStep_wait {l : Layout} {r : Int} {arr : Nat → Int → Nat → Option (NDArray α)} {i : Nat} (s : Local α) :
    (Op.wait i).localStep l r arr s = (match s.ups[i]? with
      | none => .error .indexError
      | some u => (deliver (arr i) u.inc s.mem).bind fun mem => .ok { s with mem := mem }) := rfl

/-- A local run only depends on the arrays received in the updates waited for. -/
theorem localRun_congr {l : Layout} {r : Int} {arr arr' : Nat → Int → Nat → Option (NDArray α)} {ops : List (Op α)}
    (h : ∀ i, Op.wait i ∈ ops → arr i = arr' i) (s : Local α) : localRun l r arr ops s = localRun l r arr' ops s := by
  induction ops generalizing s with
  | nil => rfl
  | cons op ops ih =>
    have e : op.localStep l r arr s = op.localStep l r arr' s := by
      cases op with
      | wait i =>
        rw [localStep_wait, localStep_wait, h i (List.mem_cons_self ..)]
      | _ => rfl
    unfold localRun
    rw [e]
    cases op.localStep l r arr' s with
    | error e => rfl
    | ok s' => exact ih (fun i hi => h i (List.mem_cons_of_mem _ hi)) s'

/-- The updates after one operation. -/
theorem localStep_ups {l : Layout} {r : Int} {arr : Nat → Int → Nat → Option (NDArray α)} {op : Op α} {s s' : Local α}
    (h : op.localStep l r arr s = .ok s') :
    if op.isStart then ∃ u, op.out l r s.mem = .ok u.out ∧ op.inn l r s.mem = .ok u.inc ∧ s'.ups = s.ups ++ [u] ∧
        s'.mem = s.mem
    else s'.ups = s.ups := by
  cases op with
  | wait i =>
    rw [localStep_wait] at h
    cases hu : s.ups[i]? with
    | none => rw [hu] at h; cases h
    | some u =>
      rw [hu] at h
      dsimp only at h
      cases hd : deliver (arr i) u.inc s.mem with
      | error e => rw [hd] at h; cases h
      | ok m => rw [hd] at h; cases h; exact rfl
  | compute f => cases h; exact rfl
  | _ =>
    simp only [Op.isStart, if_true]
    rw [localStep_start rfl] at h
    obtain ⟨o, h1, h2⟩ := bind_ok h
    obtain ⟨i, h3, h4⟩ := bind_ok h2
    cases h4
    exact ⟨⟨s.lastTag, o, i⟩, h1, h3, rfl, rfl⟩

theorem localRun_ups {l : Layout} {r : Int} {arr : Nat → Int → Nat → Option (NDArray α)} {ops : List (Op α)}
    {s s' : Local α} (h : localRun l r arr ops s = .ok s') :
    s'.ups.length = s.ups.length + ops.countP Op.isStart := by
  induction ops generalizing s with
  | nil => cases h; simp
  | cons op ops ih =>
    unfold localRun at h
    obtain ⟨s1, h1, h2⟩ := bind_ok h
    have e := localStep_ups h1
    rw [ih h2, List.countP_cons]
    split at e
    · next hs =>
      obtain ⟨u, -, -, hu, -⟩ := e
      simp [hu, hs]; omega
    · next hs => simp [e, hs]

/-- The outcome before the last operation. -/
theorem Consistent.snoc {l : Layout} {ops : List (Op α)} {op : Op α} {mem : Int → Mem α} {fin : Int → Local α}
    (h : Consistent l (fun _ => ops ++ [op]) mem fin) (hw : WaitsStarted ops) :
    ∃ fin1, Consistent l (fun _ => ops) mem fin1 ∧
      ∀ r ∈ allRanks l, op.localStep l r (received fin r) (fin1 r) = .ok (fin r) := by
  classical
  have h1 : ∀ r, ∃ s, (r ∈ allRanks l → localRun l r (received fin r) ops ⟨mem r, 0, []⟩ = .ok s ∧
      op.localStep l r (received fin r) s = .ok (fin r)) ∧ (r ∉ allRanks l → s = ⟨mem r, 0, []⟩) := by
    intro r
    by_cases hr : r ∈ allRanks l
    · have := (h r).1 hr
      rw [localRun_append] at this
      obtain ⟨s, a1, a2⟩ := bind_ok this
      unfold localRun at a2
      obtain ⟨s', a3, a4⟩ := bind_ok a2
      cases a4
      exact ⟨s, fun _ => ⟨a1, a3⟩, fun h => absurd hr h⟩
    · exact ⟨_, fun h => absurd h hr, fun _ => rfl⟩
  choose fin1 h1 h2 using h1
  refine ⟨fin1, fun r => ⟨fun hr => ?_, h2 r⟩, fun r hr => (h1 r hr).2⟩
  rw [← (h1 r hr).1]
  refine localRun_congr (fun i hi => ?_) _
  funext src off
  obtain ⟨d, hd⟩ := List.mem_iff_getElem?.1 hi
  have hlt := hw d i hd
  have hle := (List.take_sublist d ops).countP_le (p := Op.isStart)
  unfold received
  by_cases hs : src ∈ allRanks l
  · have e := localStep_ups (h1 src hs).2
    have hn := localRun_ups (h1 src hs).1
    split at e
    · obtain ⟨u, -, -, hu, -⟩ := e
      rw [hu, List.getElem?_append_left (by simp at hn; omega)]
    · rw [e]
  · rw [h2 src hs, (h src).2 hs]

theorem WaitsStarted.init {ops : List (Op α)} {op : Op α} (h : WaitsStarted (ops ++ [op])) : WaitsStarted ops := by
  intro d i hd
  have hlt := (List.getElem?_eq_some_iff.1 hd).1
  have := h d i (by rw [List.getElem?_append_left hlt]; exact hd)
  rw [List.take_append_of_le_length (by omega)] at this
  exact this

/-- The outcome is determined. -/
theorem Consistent.unique {l : Layout} {ops : List (Op α)} {mem : Int → Mem α} {fin fin' : Int → Local α}
    (h : Consistent l (fun _ => ops) mem fin) (h' : Consistent l (fun _ => ops) mem fin') (hw : WaitsStarted ops) :
    fin = fin' := by
  induction ops using List.reverseRecOn generalizing fin fin' with
  | nil =>
    funext r
    by_cases hr : r ∈ allRanks l
    · have a := (h r).1 hr
      have b := (h' r).1 hr
      rw [show localRun l r (received fin r) [] ⟨mem r, 0, []⟩ = .ok ⟨mem r, 0, []⟩ from rfl] at a
      rw [show localRun l r (received fin' r) [] ⟨mem r, 0, []⟩ = .ok ⟨mem r, 0, []⟩ from rfl] at b
      rw [a] at b
      exact Except.ok.inj b
    · rw [(h r).2 hr, (h' r).2 hr]
  | append_singleton ops op ih =>
    obtain ⟨f, a1, a2⟩ := h.snoc hw.init
    obtain ⟨f', b1, b2⟩ := h'.snoc hw.init
    have e := ih a1 b1 hw.init
    subst e
    funext r
    by_cases hr : r ∈ allRanks l
    · have e : op.localStep l r (received fin r) (f r) = op.localStep l r (received fin' r) (f r) := by
        cases op with
        | wait i =>
          have : received fin r i = received fin' r i := by
            funext src off
            unfold received
            by_cases hs : src ∈ allRanks l
            · have c1 := localStep_ups (a2 src hs)
              have c2 := localStep_ups (b2 src hs)
              simp only [Op.isStart, Bool.false_eq_true, if_false] at c1 c2
              rw [c1, c2]
            · rw [(h src).2 hs, (h' src).2 hs]
          rw [localStep_wait, localStep_wait, this]
        | _ => rfl
      have a := a2 r hr
      rw [e, b2 r hr] at a
      exact (Except.ok.inj a).symm
    · rw [(h r).2 hr, (h' r).2 hr]

/-! ### The network of the starts and waits -/

theorem execOps_snoc (l : Layout) (r : Int) (ops : List (Op α)) (o : Op α) :
    execOps l r (ops ++ [o]) = execOps l r ops >>= fun _ => o.exec l r := by
  induction ops with
  | nil =>
    funext s
    show (o.exec l r s).bind _ = o.exec l r s
    refine (congrArg _ ?_).trans (Proc.bind_ret _)
    funext y
    obtain ⟨a | a, y⟩ := y <;> rfl
  | cons op ops ih =>
    funext s
    show (op.exec l r s).bind _ = ((op.exec l r s).bind _).bind _
    rw [Proc.bind_bind]
    congr 1
    funext y
    obtain ⟨a | a, y⟩ := y
    · rfl
    · show execOps l r (ops ++ [o]) y = _
      rw [ih]
      rfl

/-- All ranks make call `o`, the others nothing. -/
def callProcs (l : Layout) (o : Op α) (s : Int → RankState α) (r : Int) : Proc (Msg α) (Py Unit × RankState α) :=
  if r ∈ allRanks l then o.exec l r (s r) else .ret (.ok (), s r)

/-- The ranks have started and waited for updates as in `hist`; `sent` and `rcvd` are the messages, where only those of
halo updates matter. -/
structure Tracked (l : Layout) (buf : Buffering) (mem : Int → Mem α) (hist : List (Op α)) (fin : Int → Local α)
    (sent : Int → Int → Tag → List (Msg α)) (rcvd : Int → Int → Tag → Nat) : Prop where
  cons : Consistent l (fun _ => hist) mem fin
  good : ∀ r ∈ allRanks l, MetaIs mem r (fin r).mem
  run : ∃ sched T, (cubeNet l (fun _ => hist) mem).run buf sched = some T ∧
    (∀ r, T.procs r = .ret (.ok (), (fin r).toRank)) ∧ (∀ s d t, IsHaloTag t → sent s d t = T.sent s d t) ∧
    ∀ s d t, IsHaloTag t → rcvd s d t = T.rcvd s d t

theorem Tracked.step {l : Layout} {buf : Buffering} {mem : Int → Mem α} {hist : List (Op α)} {fin : Int → Local α}
    {sent : Int → Int → Tag → List (Msg α)} {rcvd : Int → Int → Tag → Nat} (h : Tracked l buf mem hist fin sent rcvd)
    (hx : 0 < l.x) (hsq : l.y = l.x) {o : Op α} (hr : ∀ op ∈ hist ++ [o], UpdateReady l mem op)
    (hws : WaitsStarted (hist ++ [o])) (hwo : WaitsOnce (hist ++ [o]))
    (hc : ComputesKeep l (MetaIs mem) (hist ++ [o])) :
    ∃ fin' sched T', (⟨callProcs l o fun r => (fin r).toRank, sent, rcvd⟩ : Net (Msg α) _).run buf sched = some T' ∧
      (∀ r, T'.procs r = .ret (.ok (), (fin' r).toRank)) ∧ Tracked l buf mem (hist ++ [o]) fin' T'.sent T'.rcvd ∧
      (∀ r ∈ allRanks l, o.localStep l r (received fin' r) (fin r) = .ok (fin' r)) ∧
      (∀ s d t, ¬ IsHaloTag t → T'.sent s d t = sent s d t) ∧ ∀ s d t, ¬ IsHaloTag t → T'.rcvd s d t = rcvd s d t := by
  obtain ⟨fin', c1, c2, T2, n, c3, c4⟩ := same_order_completes hx hsq hr hws hwo hc buf
  obtain ⟨f, d1, d2⟩ := c1.snoc hws.init
  have e := d1.unique h.cons hws.init
  subst e
  obtain ⟨sched, T, r1, r2, r3, r4⟩ := h.run
  let K : Int → Py Unit × RankState α → Proc (Msg α) (Py Unit × RankState α) := fun r y =>
    if r ∈ allRanks l then
      match y with
      | (.error e, s) => .ret (.error e, s)
      | (.ok _, s) => o.exec l r s
    else .ret y
  have eN : (cubeNet l (fun _ => hist) mem).andThen K = cubeNet l (fun _ => hist ++ [o]) mem := by
    unfold Net.andThen cubeNet Net.start
    congr 1
    funext r
    by_cases hm : r ∈ allRanks l
    · simp only [K, if_pos hm]
      rw [execOps_snoc]
      show _ = (execOps l r hist _).bind _
      congr 1
      funext y
      obtain ⟨a | a, y⟩ := y <;> rfl
    · simp only [K, if_neg hm]
      rfl
  have eT : T.andThen K = ⟨callProcs l o fun r => (f r).toRank, T.sent, T.rcvd⟩ := by
    unfold Net.andThen
    congr 1
    funext r
    rw [r2 r]
    unfold callProcs
    by_cases hm : r ∈ allRanks l
    · simp only [K, if_pos hm]
      rfl
    · simp only [K, if_neg hm]
      rfl
  have r5 := Net.run_andThen K r1
  rw [eN] at r5
  obtain ⟨sched2, r6, -⟩ := c4 sched _ r5
  have r7 : (cubeNet l (fun _ => hist ++ [o]) mem).run buf (sched ++ sched2) = some T2 := by
    rw [Net.run_append, r5]
    exact r6
  rw [eT] at r6
  obtain ⟨T', t1, t2, t3, t4, t5, t6⟩ := Net.run_embed' (A := IsHaloTag) (Q := fun _ _ => True)
    (N := ⟨callProcs l o fun r => (f r).toRank, T.sent, T.rcvd⟩)
    (N' := ⟨callProcs l o fun r => (f r).toRank, sent, rcvd⟩) (fun r => by
      show (callProcs l o (fun r => (f r).toRank) r).Spec _ _
      unfold callProcs
      split
      · exact CommM.Halo.op l r o _
      · trivial) rfl r3 r4 r6
  exact ⟨fin', sched2, T', t1, fun r => by rw [t2]; exact c3 r,
    ⟨c1, c2, _, T2, r7, c3, t3, t4⟩, d2, t5, t6⟩

end FV3
