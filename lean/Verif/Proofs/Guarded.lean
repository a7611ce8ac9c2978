import Verif.Spec.Guarded
import Verif.Proofs.StateSession
import Verif.Proofs.Errors
import Verif.Props.Sync

/-!
# Sessions with rejected calls
-/

namespace FV3
variable {α : Type}

section
variable {M R : Type}

theorem Proc.OnlySends.run_one {buf : Buffering} {r : Int} {x : R} {p : Proc M R} (h : p.OnlySends (· = x)) :
    ∀ N : Net M R, N.procs r = p → ∃ sched T, N.run buf sched = some T ∧ T.procs r = .ret x ∧
      ∀ r', r' ≠ r → T.procs r' = N.procs r' := by
  induction h with
  | ret h => intro N hN; exact ⟨[], N, rfl, by rw [hN, h], fun _ _ => rfl⟩
  | @isend d t m k h ih =>
    intro N hN
    obtain ⟨sched, T, h1, h2, h3⟩ := ih (N.sent r d t).length
      ⟨updRank N.procs r (k (N.sent r d t).length), updCh N.sent r d t (N.sent r d t ++ [m]), N.rcvd⟩
      (by simp [updRank])
    refine ⟨r :: sched, T, ?_, h2, fun r' hr' => ?_⟩
    · have hs : N.step buf r = some ⟨updRank N.procs r (k (N.sent r d t).length),
          updCh N.sent r d t (N.sent r d t ++ [m]), N.rcvd⟩ := by
        unfold Net.step
        rw [hN]
      unfold Net.run
      rw [hs]
      exact h1
    · rw [h3 r' hr']
      simp [updRank, hr']

/-- Programs that only send complete. -/
theorem Net.completes_of_onlySends {buf : Buffering} {procs : Int → Proc M R} {res : Int → R} (L : List Int)
    (h : ∀ r ∈ L, (procs r).OnlySends (· = res r)) (h' : ∀ r, r ∉ L → procs r = .ret (res r)) :
    (Net.start procs).Completes buf res := by
  have key : ∀ (L' : List Int) (N : Net M R), (∀ r, (N.procs r).OnlySends (· = res r)) →
      ∃ sched T, N.run buf sched = some T ∧ (∀ r ∈ L', T.procs r = .ret (res r)) ∧
        ∀ r, r ∉ L' → T.procs r = N.procs r := by
    intro L'
    induction L' with
    | nil => exact fun N _ => ⟨[], N, rfl, (fun r hr => by cases hr), fun _ _ => rfl⟩
    | cons a L' ih =>
      intro N hN
      obtain ⟨s1, T1, a1, a2, a3⟩ := (hN a).run_one (buf := buf) N rfl
      obtain ⟨s2, T2, b1, b2, b3⟩ := ih T1 fun r => by
        by_cases e : r = a
        · rw [e, a2]; exact .ret rfl
        · rw [a3 r e]; exact hN r
      refine ⟨s1 ++ s2, T2, by rw [Net.run_append, a1]; exact b1, fun r hr => ?_, fun r hr => ?_⟩
      · by_cases e : r ∈ L'
        · exact b2 r e
        · rw [b3 r e, (List.mem_cons.1 hr).resolve_right e, a2]
      · rw [b3 r fun e => hr (List.mem_cons_of_mem _ e), a3 r fun e => hr (e ▸ List.mem_cons_self ..)]
  have all : ∀ r, ((Net.start procs).procs r).OnlySends (· = res r) := fun r => by
    by_cases e : r ∈ L
    · exact h r e
    · show (procs r).OnlySends _
      rw [h' r e]
      exact .ret rfl
  obtain ⟨sched, T, h1, h2, h3⟩ := key L _ all
  refine Net.completes_of_run h1 fun r => ?_
  by_cases e : r ∈ L
  · exact h2 r e
  · rw [h3 r e]
    exact h' r e

end

variable [Neg α]

/-- The tags that a rejected call takes. -/
def rejTags (c : Call α) : PyErr → Nat
  | .outOfBounds => c.nTags
  | _ => 0

omit [Neg α] in
theorem HaloFits.congr {q q' : Quantity α} (h : SameMeta q q') {ky kx : Nat} {n : Int} (hf : HaloFits q' ky kx n) :
    HaloFits q ky kx n := by
  unfold HaloFits Quantity.o Quantity.e Quantity.n at *
  rw [h.origin, h.extent, h.shape] at hf
  exact hf

/-- A rejected call, on one rank. -/
theorem rejected_exec {l : Layout} (hx : 0 < l.x) (hsq : l.y = l.x) {mem : Int → Mem α} {c : Call α} {e : PyErr}
    (h : Rejected l mem c e) {r : Int} (hr : r ∈ allRanks l) {m : Mem α} (hm : MetaIs mem r m) (k : Nat) :
    (c.exec l r ⟨m, k, []⟩).OnlySends (· = (.error e, ⟨m, k + rejTags c e, []⟩)) ∧
    (c.exec l r ⟨m, k, []⟩).Spec (IsHaloIn k (k + rejTags c e)) fun _ => True := by
  cases c with
  | compute f => exact h.elim
  | haloUpdate q n =>
    rcases h with ⟨rfl, rfl⟩ | ⟨hn, rfl, h⟩
    · exact ⟨.ret rfl, trivial⟩
    · refine ⟨?_, (CommM.Uses.exec (n := k) l r (.haloUpdate q n) ⟨m, k, []⟩ rfl).mono (fun _ h => h) fun _ _ => trivial⟩
      obtain ⟨hw, ky, kx, hA, hf⟩ := h r hr
      have h1 := startHalo_fails (s := ⟨m, k, []⟩) hx hsq hr ((hm q).wf hw)
        (show HAxes (m q).dims ky kx by rw [(hm q).dims]; exact hA) hn fun h' => hf (HaloFits.congr (hm q) h')
      refine Proc.OnlySends.bind h1 ?_
      rintro ⟨x1, x2⟩ ⟨h2, h3⟩
      simp only at h2 h3
      subst h2 h3
      exact .ret rfl
  | vectorHaloUpdate x y n =>
    rcases h with ⟨rfl, rfl⟩ | ⟨hn, rfl, h⟩
    · exact ⟨.ret rfl, trivial⟩
    · refine ⟨?_, (CommM.Uses.exec (n := k) l r (.vectorHaloUpdate x y n) ⟨m, k, []⟩ rfl).mono (fun _ h => h)
        fun _ _ => trivial⟩
      obtain ⟨hw, hw', hd, ky, kx, hA, hA', hf⟩ := h r hr
      have h1 := startVector_fails (s := ⟨m, k, []⟩) (x := x) (y := y) hx hsq hr ((hm x).wf hw) ((hm y).wf hw')
        (show HAxes (m x).dims ky kx by rw [(hm x).dims]; exact hA)
        (show HAxes (m y).dims ky kx by rw [(hm y).dims]; exact hA')
        (by
          show (m y).dims.length = (m x).dims.length
          rw [(hm x).dims, (hm y).dims]
          exact hd) hn
        fun h' => hf ⟨HaloFits.congr (hm x) h'.1, HaloFits.congr (hm y) h'.2⟩
      refine Proc.OnlySends.bind h1 ?_
      rintro ⟨x1, x2⟩ ⟨h2, h3⟩
      simp only at h2 h3
      subst h2 h3
      exact .ret rfl
  | synchronize x y =>
    obtain ⟨rfl, h⟩ := h
    have : (Call.synchronize x y).exec l r (⟨m, k, []⟩ : RankState α) = .ret (.error .valueError, ⟨m, k, []⟩) :=
      C20_not_cgrid l r x y ⟨m, k, []⟩ (by
        rw [show (⟨m, k, []⟩ : RankState α).mem = m from rfl, (hm x).dims, (hm y).dims]
        exact h r hr)
    rw [this]
    exact ⟨.ret rfl, trivial⟩

/-- The state after an attempt. -/
def SessState.tried (s : SessState α) (x : RankState α) : SessState α :=
  { s with s := { s.s with mem := x.mem, tag := x.lastTag } }

/-- An attempt. -/
theorem attempt_runs {l : Layout} (hl : FloatSafe l) (hsq : l.y = l.x) (buf : Buffering)
    {mem : Int → Mem α} {parts : Nat → Parts} {filled : List Nat} {k n : Nat} {s : Int → SessState α}
    (B : TBetween l mem parts filled k n s) {c : Call α} {out : Option PyErr}
    (hv : match out with | none => (TOp.op (.call c)).Valid l mem parts filled | some e => Rejected l mem c e)
    {sent : Int → Int → Tag → List (Msg α)} {rcvd : Int → Int → Tag → Nat}
    (hc : Net.CleanOn (LaterTag k n) sent rcvd) :
    ∃ (o : Py Unit) (x : Int → RankState α) (k' : Nat) (sched : List Int) (T : Net (Msg α) (Option (Py Unit × RankState α))),
      caught o = out ∧
      (⟨fun r => if r ∈ allRanks l then (c.exec l r ⟨(s r).s.mem, (s r).s.tag, []⟩).bind fun y => .ret (some y)
        else .ret none, sent, rcvd⟩ : Net _ _).run buf sched = some T ∧
      (∀ r, T.procs r = .ret (if r ∈ allRanks l then some (o, x r) else none)) ∧
      Net.CleanOn (LaterTag k' n) T.sent T.rcvd ∧
      (match out with
        | none => (TOp.op (.call c)).Step l parts (snapOf s) (snapOf fun r => (s r).tried (x r))
        | some _ => ∀ r, (x r).mem = (s r).s.mem) ∧
      TBetween l mem parts filled k' n fun r => (s r).tried (x r) := by
  have hx := hl.xpos
  -- what the call does on an empty network
  obtain ⟨o, x, k', e1, e2, e3, e4, e5, e6⟩ : ∃ (o : Py Unit) (x : Int → RankState α) (k' : Nat), caught o = out ∧ k ≤ k' ∧
      (Net.start fun r => if r ∈ allRanks l then (c.exec l r ⟨(s r).s.mem, (s r).s.tag, []⟩).bind fun y => .ret (some y)
        else .ret none).Completes buf (fun r => if r ∈ allRanks l then some (o, x r) else none) ∧
      (∀ r ∈ allRanks l, (c.exec l r ⟨(s r).s.mem, (s r).s.tag, []⟩).Spec (IsHaloIn k k') fun _ => True) ∧
      (match out with
        | none => CallStep l c (fun r => (s r).s.mem) fun r => (x r).mem
        | some _ => ∀ r, (x r).mem = (s r).s.mem) ∧
      ∀ r ∈ allRanks l, MetaIs mem r (x r).mem ∧ (x r).lastTag = k' := by
    cases out with
    | none =>
      obtain ⟨m', a1, a2, a3⟩ := call_at (l := l) (Good := MetaIs mem) buf k (c := c)
        (m := fun r => (s r).s.mem) B.same
        (fun op ho => by
          have hr : UpdateReady l mem op := by
            cases c with
            | compute f => simp [Call.start] at ho
            | _ => exact hv op ho
          exact ready_sound hx hsq (Call.start_isStart ho) hr)
        (fun f hf r hr m hm => by subst hf; exact hv r hr m hm)
      refine ⟨.ok (), fun r => ⟨m' r, k + c.nTags, []⟩, k + c.nTags, rfl, by omega, ?_, fun r hr => ?_, a1,
        fun r hr => ⟨a2 r hr, rfl⟩⟩
      · have := a3.map fun r (y : Py Unit × RankState α) => if r ∈ allRanks l then some y else none
        refine cast ?_ this
        congr 1
        · unfold Net.andThen Net.start
          congr 1
          funext r
          dsimp only
          by_cases hr : r ∈ allRanks l
          · simp only [if_pos hr]
            rw [B.tag r hr]
          · simp only [if_neg hr]
            rfl
        · funext r
          by_cases hr : r ∈ allRanks l
          · simp only [if_pos hr]
          · simp only [if_neg hr]
      · rw [B.tag r hr]
        exact (CommM.Uses.exec (n := k) l r c ⟨(s r).s.mem, k, []⟩ rfl).mono (fun _ h => h) fun _ _ => trivial
    | some e =>
      refine ⟨.error e, fun r => ⟨(s r).s.mem, k + rejTags c e, []⟩, k + rejTags c e, rfl, by omega, ?_, fun r hr => ?_,
        fun _ => rfl, fun r hr => ⟨B.same r hr, rfl⟩⟩
      · refine Net.completes_of_onlySends (allRanks l) (fun r hr => ?_) fun r hr => ?_
        · simp only [if_pos hr]
          refine Proc.OnlySends.bind (Q := (· = (.error e, ⟨(s r).s.mem, k + rejTags c e, []⟩))) ?_ fun y hy => .ret (by rw [hy])
          rw [B.tag r hr]
          exact (rejected_exec hx hsq hv hr (B.same r hr) k).1
        · simp only [if_neg hr]
      · rw [B.tag r hr]
        exact (rejected_exec hx hsq hv hr (B.same r hr) k).2
  obtain ⟨sched, T, b1, b2, b3⟩ := Net.phase (A := SessTag k k' n n) e3 (fun r => by
      split
      · next hr =>
        exact Proc.Spec.bind ((e4 r hr).mono (fun t h => .inl h) fun _ _ => trivial) fun _ _ => trivial
      · trivial) (sent := sent) (rcvd := rcvd)
    ⟨fun a b t ht => hc.sent a b t ht.later, fun a b t ht => hc.rcvd a b t ht.later⟩
  have hc' := b3 (LaterTag k' n) (fun t ht => ht.not)
    ⟨fun a b t ht => hc.sent a b t (ht.mono e2 (Nat.le_refl _)), fun a b t ht => hc.rcvd a b t (ht.mono e2 (Nat.le_refl _))⟩
  refine ⟨o, x, k', sched, T, e1, b1, b2, hc', ?_, ⟨fun r hr => (e6 r hr).1, fun r hr => (e6 r hr).2, B.coll,
    B.shaped, B.filled⟩⟩
  cases out with
  | none => exact ⟨⟨e5, rfl⟩, fun _ _ => rfl, rfl⟩
  | some e => exact e5

/-- All statements. -/
theorem guarded_from {l : Layout} (hl : FloatSafe l) (hsq : l.y = l.x) (buf : Buffering) (junk : Nat → List Nat → α)
    {mem : Int → Mem α} {parts : Nat → Parts} {ops : List (GOp α)} {outs : List (Option PyErr)} {filled : List Nat}
    {k n : Nat} {s : Int → SessState α} (B : TBetween l mem parts filled k n s)
    (hv : GuardedValid l mem parts filled ops outs)
    {sent : Int → Int → Tag → List (Msg α)} {rcvd : Int → Int → Tag → Nat}
    (hc : Net.CleanOn (LaterTag k n) sent rcvd) :
    ∃ fin : Int → SessState α, (⟨fun r => if r ∈ allRanks l then
          (execGuarded l junk r ops (s r)).bind fun x => .ret (some x) else .ret none, sent, rcvd⟩ : Net (Msg α) _).Completes
        buf (fun r => if r ∈ allRanks l then some (.ok (outs, fin r)) else none) ∧
      StatesRun l parts (accepted ops outs) (snapOf s) (snapOf fin) ∧
      ∀ r ∈ allRanks l, MetaIs mem r (fin r).s.mem := by
  induction ops generalizing s filled k n sent rcvd outs with
  | nil =>
    have hv : outs = [] := by simpa only [GuardedValid] using hv
    subst hv
    refine ⟨s, Net.completes_of_run (sched := []) rfl fun r => ?_, ⟨fun _ _ => ⟨rfl, rfl⟩, rfl, rfl⟩, B.same⟩
    dsimp only
    split <;> rfl
  | cons op ops ih =>
    cases op with
    | plain op =>
      have hv : op.Valid l mem parts filled ∧ GuardedValid l mem parts (op.fills filled) ops outs := by
        cases op with
        | op o => cases o <;> exact hv
        | _ => exact hv
      obtain ⟨v1, v2⟩ := hv
      obtain ⟨s', n', sched, T, b1, b2, hc', -, a2, a3⟩ := top_runs hl hsq buf junk B v1 hc
      obtain ⟨fin, c1, c2, c3⟩ := ih (s := s') a3 v2 hc'
      refine ⟨fin, ?_, ⟨_, a2, c2⟩, c3⟩
      let K : Int → Option (Py (SessState α)) → Proc (Msg α) (Option (Py (List (Option PyErr) × SessState α))) := fun r x =>
        match x with
        | none => .ret none
        | some (.error e) => .ret (some (.error e))
        | some (.ok s') => (execGuarded l junk r ops s').bind fun x => .ret (some x)
      have := Net.Completes.andThen (K := K) b1 b2 (out := fun r =>
        if r ∈ allRanks l then some (.ok (outs, fin r)) else none) (by
          refine cast ?_ c1
          congr 2
          funext r
          by_cases hr : r ∈ allRanks l
          · simp only [if_pos hr]
            rfl
          · simp only [if_neg hr]
            rfl)
      refine cast ?_ this
      congr 1
      unfold Net.andThen
      congr 1
      funext r
      dsimp only [topProcs]
      by_cases hr : r ∈ allRanks l
      · simp only [if_pos hr]
        show _ = ((op.exec l junk r (s r)).bind _).bind _
        rw [Proc.bind_bind, Proc.bind_bind]
        congr 1
        funext y
        cases y <;> rfl
      · simp only [if_neg hr]
        rfl
    | attempt c =>
      obtain ⟨out, outs', rfl, hv1, hv2⟩ : ∃ out outs', outs = out :: outs' ∧
          (match out with | none => (TOp.op (.call c)).Valid l mem parts filled | some e => Rejected l mem c e) ∧
          GuardedValid l mem parts filled ops outs' := by
        match outs, hv with
        | [], hv => exact absurd hv id
        | none :: outs', hv => exact ⟨none, outs', rfl, hv.1, hv.2⟩
        | some e :: outs', hv => exact ⟨some e, outs', rfl, hv.1, hv.2⟩
      obtain ⟨o, x, k', sched, T, e1, b1, b2, hc', a2, a3⟩ := attempt_runs hl hsq buf B hv1 hc
      obtain ⟨fin, c1, c2, c3⟩ := ih (s := fun r => (s r).tried (x r)) a3 hv2 hc'
      refine ⟨fin, ?_, ?_, c3⟩
      · have c1' := c1.map fun r (z : Option (Py (List (Option PyErr) × SessState α))) =>
          z.map fun z => z.map fun w => (out :: w.1, w.2)
        let K : Int → Option (Py Unit × RankState α) → Proc (Msg α) (Option (Py (List (Option PyErr) × SessState α))) :=
          fun r y => match y with
          | none => .ret none
          | some y => ((execGuarded l junk r ops ((s r).tried y.2)).bind fun z =>
              .ret (z.map fun w => (caught y.1 :: w.1, w.2))).bind fun x => .ret (some x)
        have := Net.Completes.andThen (K := K) b1 b2 (out := fun r =>
          if r ∈ allRanks l then some (.ok (out :: outs', fin r)) else none) (by
            refine cast ?_ c1'
            congr 1
            · unfold Net.andThen
              congr 1
              funext r
              dsimp only
              by_cases hr : r ∈ allRanks l
              · simp only [if_pos hr]
                show _ = Proc.bind (Proc.bind _ _) _
                rw [Proc.bind_bind, Proc.bind_bind]
                congr 1
                funext z
                rw [← e1]
                rfl
              · simp only [if_neg hr]
                rfl
            · funext r
              by_cases hr : r ∈ allRanks l
              · simp only [if_pos hr]
                rfl
              · simp only [if_neg hr]
                rfl)
        refine cast ?_ this
        congr 1
        unfold Net.andThen
        congr 1
        funext r
        dsimp only
        by_cases hr : r ∈ allRanks l
        · simp only [if_pos hr]
          show _ = ((c.exec l r _).bind _).bind _
          rw [Proc.bind_bind, Proc.bind_bind]
          rfl
        · simp only [if_neg hr]
          rfl
      · cases out with
        | none => exact ⟨_, a2, c2⟩
        | some e =>
          have : snapOf (fun r => (s r).tried (x r)) = snapOf s := by
            unfold snapOf
            congr 1
            funext r
            exact a2 r
          rw [this] at c2
          exact c2

end FV3
