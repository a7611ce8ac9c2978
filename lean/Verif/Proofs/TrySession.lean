import Verif.Proofs.Retag
import Verif.Proofs.FullSession
import Verif.Proofs.Guarded
import Verif.Spec.TrySession

/-!
# Complete sessions with rejected starts: one statement after the other
-/

namespace FV3
variable {α : Type}

/-! ### The tags of the session and those of the session without the rejected starts -/

/-- The tags that a rejected start takes. -/
def Op.rejTags (o : Op α) : PyErr → Nat
  | .outOfBounds => o.nTags
  | _ => 0

/-- The tags that a call takes. -/
def FOp.nTags : FOp α → Nat
  | .op o => o.nTags
  | _ => 0

/-- The tag which the session uses where the one without the rejected starts uses `k`: `cur` and `cur + d` are the tag
counters. -/
def tagMap : List (TryOp α) → List (Option PyErr) → Nat → Nat → Nat → Nat
  | .plain o :: ops, outs, cur, d, k => if k ≤ cur + o.nTags then k + d else tagMap ops outs (cur + o.nTags) d k
  | .attempt o :: ops, none :: outs, cur, d, k =>
    if k ≤ cur + o.nTags then k + d else tagMap ops outs (cur + o.nTags) d k
  | .attempt o :: ops, some e :: outs, cur, d, k => if k ≤ cur then k + d else tagMap ops outs cur (d + o.rejTags e) k
  | .attempt _ :: _, [], _, d, k => k + d
  | [], _, _, d, k => k + d

theorem le_tagMap (ops : List (TryOp α)) (outs : List (Option PyErr)) (cur d k : Nat) : k + d ≤ tagMap ops outs cur d k := by
  induction ops generalizing outs cur d with
  | nil => exact Nat.le_refl _
  | cons op ops ih =>
    cases op with
    | plain o =>
      unfold tagMap
      split
      · exact Nat.le_refl _
      · exact ih ..
    | attempt o =>
      match outs with
      | [] => exact Nat.le_refl _
      | none :: outs =>
        unfold tagMap
        split
        · exact Nat.le_refl _
        · exact ih ..
      | some e :: outs =>
        unfold tagMap
        split
        · exact Nat.le_refl _
        · have := ih outs cur (d + o.rejTags e)
          omega

theorem tagMap_old (ops : List (TryOp α)) (outs : List (Option PyErr)) {cur d k : Nat} (h : k ≤ cur) :
    tagMap ops outs cur d k = k + d := by
  match ops, outs with
  | [], _ => rfl
  | .plain o :: ops, _ => unfold tagMap; rw [if_pos (by omega)]
  | .attempt o :: ops, [] => rfl
  | .attempt o :: ops, none :: outs => unfold tagMap; rw [if_pos (by omega)]
  | .attempt o :: ops, some e :: outs => unfold tagMap; rw [if_pos h]

theorem tagMap_strict (ops : List (TryOp α)) (outs : List (Option PyErr)) (cur d : Nat) {j k : Nat} (h : j < k) :
    tagMap ops outs cur d j < tagMap ops outs cur d k := by
  have key : ∀ (ops : List (TryOp α)) (outs : List (Option PyErr)) (cur c d d' : Nat), d ≤ d' →
      tagMap ops outs cur d' j < tagMap ops outs cur d' k →
      (if j ≤ c then j + d else tagMap ops outs cur d' j) < if k ≤ c then k + d else tagMap ops outs cur d' k := by
    intro ops outs cur c d d' hd ih
    have := le_tagMap ops outs cur d' k
    by_cases h1 : k ≤ c
    · rw [if_pos h1, if_pos (by omega)]
      omega
    · rw [if_neg h1]
      by_cases h2 : j ≤ c
      · rw [if_pos h2]
        omega
      · rw [if_neg h2]
        exact ih
  induction ops generalizing outs cur d with
  | nil => exact Nat.add_lt_add_right h d
  | cons op ops ih =>
    cases op with
    | plain o =>
      unfold tagMap
      exact key _ _ _ _ _ _ (Nat.le_refl _) (ih ..)
    | attempt o =>
      match outs with
      | [] => exact Nat.add_lt_add_right h d
      | none :: outs =>
        unfold tagMap
        exact key _ _ _ _ _ _ (Nat.le_refl _) (ih ..)
      | some e :: outs =>
        unfold tagMap
        exact key _ _ _ _ _ _ (by omega) (ih ..)

theorem tagMap_injective (ops : List (TryOp α)) (outs : List (Option PyErr)) (cur d : Nat) :
    Function.Injective (tagMap ops outs cur d) := by
  intro j k e
  rcases Nat.lt_trichotomy j k with h | h | h
  · have := tagMap_strict ops outs cur d h
    omega
  · exact h
  · have := tagMap_strict ops outs cur d h
    omega

/-- `σ` maps the tags from here on: the tag counters are `cur` and `cur + d`. -/
structure MapsTags (σ : Nat → Nat) (ops : List (TryOp α)) (outs : List (Option PyErr)) (cur d : Nat) : Prop where
  past : ∀ k, k ≤ cur → σ k ≤ cur + d
  next : ∀ k, cur < k → σ k = tagMap ops outs cur d k

theorem MapsTags.plain {σ : Nat → Nat} {o : FOp α} {ops : List (TryOp α)} {outs : List (Option PyErr)} {cur d : Nat}
    (h : MapsTags σ (.plain o :: ops) outs cur d) :
    (∀ k, cur < k → k ≤ cur + o.nTags → σ k = k + d) ∧ MapsTags σ ops outs (cur + o.nTags) d := by
  have h1 : ∀ k, cur < k → k ≤ cur + o.nTags → σ k = k + d := fun k h1 h2 => by
    rw [h.next k h1]
    unfold tagMap
    rw [if_pos h2]
  refine ⟨h1, fun k hk => ?_, fun k hk => ?_⟩
  · by_cases hk' : k ≤ cur
    · have := h.past k hk'
      omega
    · rw [h1 k (by omega) hk]
      omega
  · rw [h.next k (by omega)]
    conv => lhs; unfold tagMap
    rw [if_neg (by omega)]

theorem MapsTags.accepted {σ : Nat → Nat} {o : Op α} {ops : List (TryOp α)} {outs : List (Option PyErr)} {cur d : Nat}
    (h : MapsTags σ (.attempt o :: ops) (none :: outs) cur d) :
    (∀ k, cur < k → k ≤ cur + o.nTags → σ k = k + d) ∧ MapsTags σ ops outs (cur + o.nTags) d :=
  MapsTags.plain (o := .op o) ⟨h.past, fun k hk => by rw [h.next k hk]; rfl⟩

theorem MapsTags.rejected {σ : Nat → Nat} {o : Op α} {e : PyErr} {ops : List (TryOp α)} {outs : List (Option PyErr)}
    {cur d : Nat} (h : MapsTags σ (.attempt o :: ops) (some e :: outs) cur d) :
    (∀ k, ¬ (cur + d < σ k ∧ σ k ≤ cur + d + o.rejTags e)) ∧ MapsTags σ ops outs cur (d + o.rejTags e) := by
  have h1 : ∀ k, cur < k → σ k = tagMap ops outs cur (d + o.rejTags e) k := fun k hk => by
    rw [h.next k hk]
    conv => lhs; unfold tagMap
    rw [if_neg (by omega)]
  refine ⟨fun k hk => ?_, fun k hk => ?_, h1⟩
  · by_cases hc : k ≤ cur
    · have := h.past k hc
      omega
    · have := le_tagMap ops outs cur (d + o.rejTags e) k
      rw [← h1 k (by omega)] at this
      omega
  · have := h.past k hk
    omega

/-! ### The calls -/

/-- The state with other tags. -/
def FState.retag (σ : Nat → Nat) (d : Nat) (s : FState α) : FState α := { s with comm := s.comm.retag σ d }

theorem Proc.Spec.of_bind {M R S : Type} {A : Tag → Prop} {Q : S → Prop} {p : Proc M R} {f : R → Proc M S}
    (h : (p.bind f).Spec A Q) : p.Spec A fun _ => True := by
  induction p with
  | ret x => trivial
  | isend d t m k ih => exact ⟨h.1, fun i => ih i (h.2 i)⟩
  | recv s t k ih => exact ⟨h.1, fun i => ih i (h.2 i)⟩
  | await d t i k ih => exact ⟨h.1, fun i => ih i (h.2 i)⟩

variable [Neg α]

/-- What the results of the two programs have to do with each other, after a call of the session. -/
def CallMirror (σ : Nat → Nat) (d m : Nat) : Py (FState α) → Py (FState α) → Prop
  | .ok a, y => y = .ok (a.retag σ d) ∧ a.comm.lastTag = m
  | .error _, _ => True

theorem FOp.mirror {σ : Nat → Nat} {d n : Nat} (l : Layout) (junk tjunk : Nat → List Nat → α) (r : Int) (op : FOp α)
    (hσ : ∀ k, n < k → k ≤ n + op.nTags → σ k = k + d) (s : FState α) (hs : s.comm.lastTag = n) :
    (op.exec l junk tjunk r s).Mirror (haloMap σ) (CallMirror σ d (n + op.nTags)) (op.exec l junk tjunk r (s.retag σ d)) := by
  cases op with
  | op o =>
    refine Proc.Mirror.bind (CommM.Mirror.op l r o hσ s.comm hs) ?_
    rintro ⟨a, s1⟩ ⟨b, s2⟩ ⟨h1, h2⟩
    dsimp only at h1 h2
    subst h1
    match a, b, h2 with
    | .ok a, .ok b, h2 => exact .ret ⟨rfl, h2.2⟩
    | .error e, .error e', h2 => exact .ret trivial
  | coll o =>
    refine Proc.Mirror.bind (Proc.Spec.mirror (COp.exec_only (.cube l) junk r o s.lazy.s.base)
      fun t ht => haloMap_not (notHalo_coll ht)) ?_
    rintro x y rfl
    cases y with
    | error e => exact .ret trivial
    | ok b => exact .ret ⟨rfl, hs⟩
  | tiles o =>
    refine Proc.Mirror.bind (Proc.Spec.mirror (tiles_notHalo l junk tjunk r o s.lazy) fun t ht => haloMap_not ht) ?_
    rintro x y rfl
    cases y with
    | error e => exact .ret trivial
    | ok b => exact .ret ⟨rfl, hs⟩

/-- One attempt to start an update, on one rank. -/
def attemptProc (l : Layout) (o : Op α) (r : Int) (s : FState α) : Proc (Msg α) (Option (Option PyErr × FState α)) :=
  (o.exec l r s.comm).bind fun y => .ret (some (caught y.1, { s with comm := y.2 }))

/-- An attempt is made as the call would be. -/
theorem attempt_mirror {σ : Nat → Nat} {d n : Nat} (l : Layout) (junk tjunk : Nat → List Nat → α) (r : Int) (o : Op α)
    (hσ : ∀ k, n < k → k ≤ n + o.nTags → σ k = k + d) (s : FState α) (hs : s.comm.lastTag = n) :
    (((FOp.op o).exec l junk tjunk r s).bind fun x => .ret (some x)).Mirror (haloMap σ)
      (fun x y => x ≠ none ∧ ∀ a, x = some (.ok a) → y = some (none, a.retag σ d) ∧ a.comm.lastTag = n + o.nTags)
      (attemptProc l o r (s.retag σ d)) := by
  simp only [FOp.exec, Proc.bind_bind]
  refine Proc.Mirror.bind (CommM.Mirror.op l r o hσ s.comm hs) ?_
  rintro ⟨a, s1⟩ ⟨b, s2⟩ ⟨h1, h2⟩
  dsimp only at h1 h2
  subst h1
  match a, b, h2 with
  | .ok a, .ok b, h2 =>
    refine .ret ⟨fun e => (by cases e), fun a' e => ?_⟩
    cases e
    exact ⟨rfl, h2.2⟩
  | .error e, .error e', h2 =>
    refine .ret ⟨fun e => (by cases e), fun a' e => ?_⟩
    cases e

/-- A rejected start, on one rank. -/
theorem rejected_start {l : Layout} (hx : 0 < l.x) (hsq : l.y = l.x) {mem : Int → Mem α} {o : Op α} {e : PyErr}
    (h : o.Rejected l mem e) {r : Int} (hr : r ∈ allRanks l) {s : RankState α} (hm : MetaIs mem r s.mem) :
    (o.exec l r s).OnlySends (· = (.error e, { s with lastTag := s.lastTag + o.rejTags e })) ∧
    (o.exec l r s).Spec (IsHaloIn s.lastTag (s.lastTag + o.rejTags e)) fun _ => True := by
  cases o with
  | wait i => exact h.elim
  | compute f => exact h.elim
  | halo q n =>
    rcases h with ⟨rfl, rfl⟩ | ⟨hn, rfl, h⟩
    · exact ⟨.ret rfl, trivial⟩
    · constructor
      · obtain ⟨hw, ky, kx, hA, hf⟩ := h r hr
        have h1 := startHalo_fails (s := s) hx hsq hr ((hm q).wf hw)
          (show HAxes (s.mem q).dims ky kx by rw [(hm q).dims]; exact hA) hn fun h' => hf (HaloFits.congr (hm q) h')
        refine Proc.OnlySends.bind h1 ?_
        rintro ⟨x1, x2⟩ ⟨h2, h3⟩
        simp only at h2 h3
        subst h2 h3
        exact .ret rfl
      · refine Proc.Spec.bind (Proc.Spec.of_bind (CommM.Uses.haloUpdate (n := s.lastTag) l r q n s rfl)) ?_
        rintro ⟨a | a, s1⟩ - <;> trivial
  | vector x y n =>
    rcases h with ⟨rfl, rfl⟩ | ⟨hn, rfl, h⟩
    · exact ⟨.ret rfl, trivial⟩
    · constructor
      · obtain ⟨hw, hw', hd, ky, kx, hA, hA', hf⟩ := h r hr
        have h1 := startVector_fails (s := s) (x := x) (y := y) hx hsq hr ((hm x).wf hw) ((hm y).wf hw')
          (show HAxes (s.mem x).dims ky kx by rw [(hm x).dims]; exact hA)
          (show HAxes (s.mem y).dims ky kx by rw [(hm y).dims]; exact hA')
          (by
            show (s.mem y).dims.length = (s.mem x).dims.length
            rw [(hm x).dims, (hm y).dims]
            exact hd) hn
          fun h' => hf ⟨HaloFits.congr (hm x) h'.1, HaloFits.congr (hm y) h'.2⟩
        refine Proc.OnlySends.bind h1 ?_
        rintro ⟨x1, x2⟩ ⟨h2, h3⟩
        simp only at h2 h3
        subst h2 h3
        exact .ret rfl
      · refine Proc.Spec.bind (Proc.Spec.of_bind (CommM.Uses.vectorHaloUpdate (n := s.lastTag) l r x y n s rfl)) ?_
        rintro ⟨a | a, s1⟩ - <;> trivial
  | sync x y =>
    obtain ⟨rfl, h⟩ := h
    have hc : onCGrid (s.mem x).dims (s.mem y).dims = false := by
      have := h r hr
      rw [(hm x).dims, (hm y).dims]
      unfold onCGrid
      simp only [Bool.and_eq_false_iff, Bool.not_eq_false', Bool.or_eq_true, decide_eq_true_eq]
      tauto
    have : (Op.sync x y).exec l r s = .ret (.error .valueError, s) := by
      show (startSynchronize l r x y s).bind _ = _
      have : startSynchronize l r x y s = .ret (.error .valueError, s) := by
        show (if onCGrid (s.mem x).dims (s.mem y).dims = false then CommM.raise PyErr.valueError else _ : CommM α Request) s = _
        rw [if_pos hc]
        rfl
      rw [this]
      rfl
    rw [this]
    exact ⟨.ret rfl, trivial⟩

/-! ### The session -/

theorem Proc.Mirror.of_ret {M R R' : Type} {f : Tag → Tag} {Q : R → R' → Prop} {x : R} {p' : Proc M R'}
    (h : (Proc.ret x : Proc M R).Mirror f Q p') : ∃ y, p' = .ret y ∧ Q x y := by
  cases h with
  | ret h => exact ⟨_, rfl, h⟩

/-- A call, and the calls after it. -/
theorem full_cons {l : Layout} {buf : Buffering} {junk tjunk : Nat → List Nat → α} {op : FOp α} {ops : List (FOp α)}
    {s s' fin : Int → FState α} {sent : Int → Int → Tag → List (Msg α)} {rcvd : Int → Int → Tag → Nat} {sched : List Int}
    {T : Net (Msg α) (Option (Py (FState α)))}
    (b1 : (⟨fProcs l junk tjunk op s, sent, rcvd⟩ : Net (Msg α) _).run buf sched = some T)
    (b2 : ∀ r, T.procs r = .ret (if r ∈ allRanks l then some (.ok (s' r)) else none))
    (c1 : (⟨fun r => if r ∈ allRanks l then (execFull l junk tjunk r ops (s' r)).bind fun x => .ret (some x)
        else .ret none, T.sent, T.rcvd⟩ : Net (Msg α) _).Completes buf
      (fun r => if r ∈ allRanks l then some (.ok (fin r)) else none)) :
    (⟨fun r => if r ∈ allRanks l then (execFull l junk tjunk r (op :: ops) (s r)).bind fun x => .ret (some x)
        else .ret none, sent, rcvd⟩ : Net (Msg α) _).Completes buf
      (fun r => if r ∈ allRanks l then some (.ok (fin r)) else none) := by
  let K : Int → Option (Py (FState α)) → Proc (Msg α) (Option (Py (FState α))) := fun r x =>
    match x with
    | none => .ret none
    | some (.error e) => .ret (some (.error e))
    | some (.ok s') => (execFull l junk tjunk r ops s').bind fun x => .ret (some x)
  have := Net.Completes.andThen (K := K) b1 b2 (out := fun r =>
    if r ∈ allRanks l then some (.ok (fin r)) else none) (by
      refine cast ?_ c1
      congr 2
      funext r
      by_cases hr : r ∈ allRanks l
      · simp only [if_pos hr]
        rfl
      · simp only [if_neg hr]
        rfl)
  refine cast ?_ this
  congr 1
  unfold Net.andThen
  congr 1
  funext r
  unfold fProcs
  by_cases hr : r ∈ allRanks l
  · simp only [if_pos hr]
    show _ = ((op.exec l junk tjunk r (s r)).bind _).bind _
    rw [Proc.bind_bind, Proc.bind_bind]
    congr 1
    funext y
    cases y <;> rfl
  · simp only [if_neg hr]
    rfl

/-- All statements. -/
theorem try_from {l : Layout} (hl : FloatSafe l) (hsq : l.y = l.x) (buf : Buffering) (junk tjunk : Nat → List Nat → α)
    {σ : Nat → Nat} (hinj : Function.Injective σ)
    {mem : Int → Mem α} {parts : Nat → Parts} {tparts : Int → Nat → Parts} {ops : List (TryOp α)}
    {outs : List (Option PyErr)} {cur d : Nat} {filled : List Nat}
    {tfilled : Int → List Nat} {n : Nat} {tn : Int → Nat} {hist done : List (Op α)} {fin : Int → Local α}
    {pend : Pending α} {kt : Option (List (Int × Int))} {s : Int → FState α}
    {sent sent' : Int → Int → Tag → List (Msg α)} {rcvd rcvd' : Int → Int → Tag → Nat}
    (B : FBetween l (fun a b t i => buf a b (haloMap σ t) i) mem parts tparts filled tfilled n tn hist fin pend kt sent rcvd s)
    (H : HistOk l mem hist done) (hcur : ∀ r ∈ allRanks l, (s r).comm.lastTag = cur) (hσ : MapsTags σ ops outs cur d)
    (hs : ∀ a b t, sent' a b (haloMap σ t) = sent a b t) (hr : ∀ a b t, rcvd' a b (haloMap σ t) = rcvd a b t)
    (hdue : OutcomesDue l mem ops outs)
    (hv : FullCalls l mem parts tparts filled tfilled (kept ops outs))
    (hws : WaitsStarted (done ++ (kept ops outs).filterMap FOp.op?))
    (hwo : WaitsOnce (done ++ (kept ops outs).filterMap FOp.op?))
    (hfirst : kt = some (tileKeys l) ∨ kt = none ∧ FullFirstUse (kept ops outs)) :
    ∃ (fin fin0 : Int → FState α) (d' : Nat) (pend' : Pending α), (⟨fun r => if r ∈ allRanks l then
          (execTry l junk tjunk r ops ((s r).retag σ d)).bind fun x => .ret (some x) else .ret none, sent', rcvd'⟩ :
          Net (Msg α) _).Completes buf (fun r => if r ∈ allRanks l then some (.ok (outs, fin r)) else none) ∧
      FullRun l parts tparts (kept ops outs) (fsnapOf l s pend) (fsnapOf l fin pend') ∧
      (∀ r ∈ allRanks l, MetaIs mem r (fin r).comm.mem) ∧
      (⟨fun r => if r ∈ allRanks l then (execFull l junk tjunk r (kept ops outs) (s r)).bind fun x => .ret (some x)
          else .ret none, sent, rcvd⟩ : Net (Msg α) _).Completes (fun a b t i => buf a b (haloMap σ t) i)
        (fun r => if r ∈ allRanks l then some (.ok (fin0 r)) else none) ∧
      ∀ r, fin r = (fin0 r).retag σ d' := by
  induction ops generalizing s filled tfilled n tn hist done fin pend kt sent rcvd sent' rcvd' outs cur d with
  | nil =>
    have hdue : outs = [] := by simpa only [OutcomesDue] using hdue
    subst hdue
    refine ⟨fun r => (s r).retag σ d, s, d, pend, Net.completes_of_run (sched := []) rfl fun r => ?_,
      ⟨rfl, ⟨fun _ _ => rfl, rfl, fun _ _ => rfl, rfl⟩, fun _ _ _ => ⟨rfl, rfl⟩⟩, fun r hr => ?_,
      Net.completes_of_run (sched := []) rfl fun r => ?_, fun _ => rfl⟩
    · dsimp only
      split <;> rfl
    · show MetaIs mem r (s r).comm.mem
      rw [B.comm r hr]
      exact B.tracked.good r hr
    · dsimp only
      split <;> rfl
  | cons op ops ih =>
    cases op with
    | plain op =>
      obtain ⟨v1, v2⟩ := hv
      obtain ⟨hσ1, hσ2⟩ := hσ.plain
      have hcons : done ++ (kept (.plain op :: ops) outs).filterMap FOp.op? =
          (done ++ op.op?.toList) ++ (kept ops outs).filterMap FOp.op? := by
        cases op <;> simp [FOp.op?, kept, List.filterMap_cons]
      rw [hcons] at hws hwo
      obtain ⟨s', fin', pend', hist', n', tn', kt', sched, T, b1, b2, a2, B', H', hf'⟩ := f_phase hl hsq _ junk tjunk B H v1
        hws.prefix hwo.prefix hfirst
      obtain ⟨T', t1, t2⟩ := Net.Mirror.run (haloMap_injective hinj)
        (N := ⟨fProcs l junk tjunk op s, sent, rcvd⟩)
        (N' := ⟨fProcs l junk tjunk op fun r => (s r).retag σ d, sent', rcvd'⟩)
        (Q := fun _ x y => (x = none → y = none) ∧
          ∀ a, x = some (.ok a) → y = some (.ok (a.retag σ d)) ∧ a.comm.lastTag = cur + op.nTags)
        ⟨fun r => by
          dsimp only [fProcs]
          by_cases h : r ∈ allRanks l
          · simp only [if_pos h]
            refine Proc.Mirror.bind (FOp.mirror l junk tjunk r op hσ1 (s r) (hcur r h)) fun x y hxy =>
              .ret ⟨(fun e => by cases e), fun a e => ?_⟩
            cases e
            exact ⟨by rw [hxy.1], hxy.2⟩
          · simp only [if_neg h]
            exact .ret ⟨fun _ => rfl, fun a e => by cases e⟩, hs, hr⟩ b1
      have hres : ∀ r, T'.procs r = .ret (if r ∈ allRanks l then some (.ok ((s' r).retag σ d)) else none) ∧
          (r ∈ allRanks l → (s' r).comm.lastTag = cur + op.nTags) := by
        intro r
        have := t2.procs r
        rw [b2 r] at this
        obtain ⟨y, e1, e2, e3⟩ := this.of_ret
        by_cases h : r ∈ allRanks l
        · rw [if_pos h] at e3 ⊢
          obtain ⟨e4, e5⟩ := e3 _ rfl
          rw [e1, e4]
          exact ⟨rfl, fun _ => e5⟩
        · rw [if_neg h] at e2 ⊢
          rw [e1, e2 rfl]
          exact ⟨rfl, fun h' => absurd h' h⟩
      obtain ⟨fin, fin0, d', pend2, c1, c2, c3, c4, c5⟩ := ih B' H' (fun r h => (hres r).2 h) hσ2 t2.sent t2.rcvd hdue v2 hws hwo hf'
      refine ⟨fin, fin0, d', pend2, ?_, ⟨_, a2, c2⟩, c3, full_cons b1 b2 c4, c5⟩
      let K : Int → Option (Py (FState α)) → Proc (Msg α) (Option (Py (List (Option PyErr) × FState α))) := fun r x =>
        match x with
        | none => .ret none
        | some (.error e) => .ret (some (.error e))
        | some (.ok s') => (execTry l junk tjunk r ops s').bind fun x => .ret (some x)
      have := Net.Completes.andThen (K := K) t1 (fun r => (hres r).1) (out := fun r =>
        if r ∈ allRanks l then some (.ok (outs, fin r)) else none) (by
          refine cast ?_ c1
          congr 2
          funext r
          by_cases hr : r ∈ allRanks l
          · simp only [if_pos hr]
            rfl
          · simp only [if_neg hr]
            rfl)
      refine cast ?_ this
      congr 1
      unfold Net.andThen
      congr 1
      funext r
      unfold fProcs
      by_cases hr : r ∈ allRanks l
      · simp only [if_pos hr]
        show _ = ((op.exec l junk tjunk r _).bind _).bind _
        rw [Proc.bind_bind, Proc.bind_bind]
        congr 1
        funext y
        cases y <;> rfl
      · simp only [if_neg hr]
        rfl
    | attempt o =>
      -- the attempt, and what is left to show
      suffices step : ∃ (out : Option PyErr) (outs' : List (Option PyErr)) (z : Int → FState α) (sched : List Int)
          (T' : Net (Msg α) (Option (Option PyErr × FState α))), outs = out :: outs' ∧
          (⟨fun r => if r ∈ allRanks l then attemptProc l o r ((s r).retag σ d) else .ret none, sent', rcvd'⟩ :
            Net (Msg α) _).run buf sched = some T' ∧
          (∀ r, T'.procs r = .ret (if r ∈ allRanks l then some (out, z r) else none)) ∧
          ∃ (fin fin0 : Int → FState α) (d' : Nat) (pend' : Pending α), (⟨fun r => if r ∈ allRanks l then
              (execTry l junk tjunk r ops (z r)).bind fun x => .ret (some x) else .ret none, T'.sent, T'.rcvd⟩ :
              Net (Msg α) _).Completes buf (fun r => if r ∈ allRanks l then some (.ok (outs', fin r)) else none) ∧
            FullRun l parts tparts (kept (.attempt o :: ops) outs) (fsnapOf l s pend) (fsnapOf l fin pend') ∧
            (∀ r ∈ allRanks l, MetaIs mem r (fin r).comm.mem) ∧
            (⟨fun r => if r ∈ allRanks l then (execFull l junk tjunk r (kept (.attempt o :: ops) outs) (s r)).bind
                fun x => .ret (some x) else .ret none, sent, rcvd⟩ : Net (Msg α) _).Completes
              (fun a b t i => buf a b (haloMap σ t) i) (fun r => if r ∈ allRanks l then some (.ok (fin0 r)) else none) ∧
            ∀ r, fin r = (fin0 r).retag σ d' by
        obtain ⟨out, outs', z, sched, T', rfl, t1, t2, fin, fin0, d', pend', c1, c2, c3, c4, c5⟩ := step
        refine ⟨fin, fin0, d', pend', ?_, c2, c3, c4, c5⟩
        have c1' := c1.map fun r (z : Option (Py (List (Option PyErr) × FState α))) =>
          z.map fun z => z.map fun w => (out :: w.1, w.2)
        let K : Int → Option (Option PyErr × FState α) → Proc (Msg α) (Option (Py (List (Option PyErr) × FState α))) :=
          fun r y => match y with
          | none => .ret none
          | some y => ((execTry l junk tjunk r ops y.2).bind fun z => .ret (z.map fun w => (y.1 :: w.1, w.2))).bind
            fun x => .ret (some x)
        have := Net.Completes.andThen (K := K) t1 t2 (out := fun r =>
          if r ∈ allRanks l then some (.ok (out :: outs', fin r)) else none) (by
            refine cast ?_ c1'
            congr 1
            · unfold Net.andThen
              congr 1
              funext r
              dsimp only
              by_cases hr : r ∈ allRanks l
              · simp only [if_pos hr]
                show _ = Proc.bind (Proc.bind _ _) _
                rw [Proc.bind_bind, Proc.bind_bind]
                rfl
              · simp only [if_neg hr]
                rfl
            · funext r
              by_cases hr : r ∈ allRanks l
              · simp only [if_pos hr]
                rfl
              · simp only [if_neg hr]
                rfl)
        refine cast ?_ this
        congr 1
        unfold Net.andThen
        congr 1
        funext r
        dsimp only
        by_cases hr : r ∈ allRanks l
        · simp only [if_pos hr]
          show (Proc.bind (Proc.bind _ _) _) = ((o.exec l r _).bind _).bind _
          rw [Proc.bind_bind, Proc.bind_bind]
          rfl
        · simp only [if_neg hr]
          rfl
      match outs, hdue, hv, hws, hwo, hfirst, hσ with
      | none :: outs, hdue, hv, hws, hwo, hfirst, hσ =>
        obtain ⟨v1, v2⟩ := hv
        obtain ⟨hσ1, hσ2⟩ := hσ.accepted
        have hcons : done ++ (kept (.attempt o :: ops) (none :: outs)).filterMap FOp.op? =
            (done ++ (FOp.op o).op?.toList) ++ (kept ops outs).filterMap FOp.op? := by
          simp [FOp.op?, kept]
        rw [hcons] at hws hwo
        obtain ⟨s', fin', pend', hist', n', tn', kt', sched, T, b1, b2, a2, B', H', hf'⟩ := f_phase hl hsq _ junk tjunk B H v1
          hws.prefix hwo.prefix hfirst
        obtain ⟨T', t1, t2⟩ := Net.Mirror.run (haloMap_injective hinj)
          (N := ⟨fProcs l junk tjunk (.op o) s, sent, rcvd⟩)
          (N' := ⟨fun r => if r ∈ allRanks l then attemptProc l o r ((s r).retag σ d) else .ret none, sent', rcvd'⟩)
          (Q := fun _ x y => (x = none → y = none) ∧
            ∀ a, x = some (.ok a) → y = some (none, a.retag σ d) ∧ a.comm.lastTag = cur + o.nTags)
          ⟨fun r => by
            dsimp only [fProcs]
            by_cases h : r ∈ allRanks l
            · simp only [if_pos h]
              exact (attempt_mirror l junk tjunk r o hσ1 (s r) (hcur r h)).mono fun x y h =>
                ⟨fun e => absurd e h.1, h.2⟩
            · simp only [if_neg h]
              exact .ret ⟨fun _ => rfl, fun a e => by cases e⟩, hs, hr⟩ b1
        have hres : ∀ r, T'.procs r = .ret (if r ∈ allRanks l then some (none, (s' r).retag σ d) else none) ∧
            (r ∈ allRanks l → (s' r).comm.lastTag = cur + o.nTags) := by
          intro r
          have := t2.procs r
          rw [b2 r] at this
          obtain ⟨y, e1, e2, e3⟩ := this.of_ret
          by_cases h : r ∈ allRanks l
          · rw [if_pos h] at e3 ⊢
            obtain ⟨e4, e5⟩ := e3 _ rfl
            rw [e1, e4]
            exact ⟨rfl, fun _ => e5⟩
          · rw [if_neg h] at e2 ⊢
            rw [e1, e2 rfl]
            exact ⟨rfl, fun h' => absurd h' h⟩
        obtain ⟨fin, fin0, d', pend2, c1, c2, c3, c4, c5⟩ := ih B' H' (fun r h => (hres r).2 h) hσ2 t2.sent t2.rcvd hdue v2
          hws hwo hf'
        exact ⟨none, outs, _, sched, T', rfl, t1, fun r => (hres r).1, fin, fin0, d', pend2, c1, ⟨_, a2, c2⟩, c3,
          full_cons b1 b2 c4, c5⟩
      | some e :: outs, hdue, hv, hws, hwo, hfirst, hσ =>
        obtain ⟨d1, d2⟩ := hdue
        obtain ⟨hσ1, hσ2⟩ := hσ.rejected
        have hmeta : ∀ r ∈ allRanks l, MetaIs mem r (s r).comm.mem := fun r h => by
          rw [B.comm r h]
          exact B.tracked.good r h
        obtain ⟨sched, T', t1, t2, t3, t4, t5⟩ := Net.sends_run (buf := buf)
          (A := IsHaloIn (cur + d) (cur + d + o.rejTags e)) (res := fun r =>
            if r ∈ allRanks l then some (some e, (s r).retag σ (d + o.rejTags e)) else none) (allRanks l)
          (⟨fun r => if r ∈ allRanks l then attemptProc l o r ((s r).retag σ d) else .ret none, sent', rcvd'⟩ :
            Net (Msg α) _) (fun r => by
              dsimp only
              by_cases h : r ∈ allRanks l
              · simp only [if_pos h]
                obtain ⟨h1, h2⟩ := rejected_start hl.xpos hsq d1 h (s := ((s r).retag σ d).comm) (hmeta r h)
                have e1 : ((s r).retag σ d).comm.lastTag = cur + d := by
                  show (s r).comm.lastTag + d = _
                  rw [hcur r h]
                rw [e1] at h1 h2
                refine ⟨Proc.OnlySends.bind h1 fun y hy => .ret ?_, Proc.Spec.bind h2 fun _ _ => trivial⟩
                rw [hy]
                have e2 : (s r).comm.lastTag + (d + o.rejTags e) = cur + d + o.rejTags e := by
                  rw [hcur r h]
                  omega
                unfold FState.retag RankState.retag
                dsimp only
                rw [e2]
                rfl
              · simp only [if_neg h]
                exact ⟨.ret rfl, trivial⟩)
        have hn : ∀ t, ¬ IsHaloIn (cur + d) (cur + d + o.rejTags e) (haloMap σ t) := by
          rintro t ⟨i, h1, h2⟩
          cases t with
          | halo k =>
            simp only [haloMap, Tag.halo.injEq] at h1
            subst h1
            exact hσ1 k h2
          | _ => cases h1
        obtain ⟨fin, fin0, d', pend2, c1, c2, c3, c4, c5⟩ := ih B H hcur hσ2 (sent' := T'.sent) (rcvd' := T'.rcvd)
          (fun a b t => by rw [t4 a b _ (hn t)]; exact hs a b t) (fun a b t => by rw [t5]; exact hr a b t)
          d2 hv hws hwo hfirst
        refine ⟨some e, outs, _, sched, T', rfl, t1, fun r => ?_, fin, fin0, d', pend2, c1, c2, c3, c4, c5⟩
        by_cases h : r ∈ allRanks l
        · rw [t2 r h]
        · rw [t3 r h]
          simp only [if_neg h]

end FV3
