import Verif.Proofs.CollOps

/-!
# Sessions with states: one call after the other
-/

namespace FV3
variable {α : Type} [Neg α]

/-- Number of halo tags. -/
def TOp.nTags : TOp α → Nat
  | .op o => o.nTags
  | _ => 0

/-- Global quantities that exist after the call. -/
def TOp.fills (filled : List Nat) : TOp α → List Nat
  | .op o => o.fills filled
  | .gatherState _ _ vars => vars.map StateVar.g ++ filled
  | .scatterState _ _ _ => filled

/-- The state of all ranks between two calls. -/
def TBetween (l : Layout) (mem : Int → Mem α) (parts : Nat → Parts) (filled : List Nat) (k n : Nat)
    (s : Int → SessState α) : Prop := Between l mem parts filled k n fun r => (s r).s

/-- All ranks make one call. -/
def topProcs (l : Layout) (junk : Nat → List Nat → α) (op : TOp α) (s : Int → SessState α) (r : Int) :
    Proc (Msg α) (Option (Py (SessState α))) :=
  if r ∈ allRanks l then (op.exec l junk r (s r)).bind fun x => .ret (some x) else .ret none

/-- What one call does, on a network on which other calls were made before. -/
def OpRuns (buf : Buffering) (l : Layout) (junk : Nat → List Nat → α) (mem : Int → Mem α) (parts : Nat → Parts)
    (filled : List Nat) (k : Nat) (op : TOp α) (s : Int → SessState α) (sent : Int → Int → Tag → List (Msg α))
    (rcvd : Int → Int → Tag → Nat) : Prop :=
  ∃ (s' : Int → SessState α) (n' : Nat) (sched : List Int) (T : Net (Msg α) (Option (Py (SessState α)))),
    (⟨topProcs l junk op s, sent, rcvd⟩ : Net _ _).run buf sched = some T ∧
    (∀ r, T.procs r = .ret (if r ∈ allRanks l then some (.ok (s' r)) else none)) ∧
    Net.CleanOn (LaterTag (k + op.nTags) n') T.sent T.rcvd ∧
    (∀ A : Tag → Prop, (∀ t, A t → ∃ c i, t = .tile c i) → Net.CleanOn A sent rcvd → Net.CleanOn A T.sent T.rcvd) ∧
    op.Step l parts (snapOf s) (snapOf s') ∧
    TBetween l mem parts (op.fills filled) (k + op.nTags) n' s'

omit [Neg α] in
theorem not_sessTag {k k' n n' : Nat} {t : Tag} (h : ∃ c i, t = .tile c i) : ¬ SessTag k k' n n' t := by
  obtain ⟨c, j, rfl⟩ := h
  rintro (⟨i, e, -⟩ | ⟨i, e, -⟩) <;> cases e

theorem op_runs {l : Layout} (hl : FloatSafe l) (hsq : l.y = l.x) (buf : Buffering) (junk : Nat → List Nat → α)
    {mem : Int → Mem α} {parts : Nat → Parts} {filled : List Nat} {k n : Nat} {s : Int → SessState α}
    (B : TBetween l mem parts filled k n s) {o : SOp α} (hv : o.Valid l mem parts filled)
    {sent : Int → Int → Tag → List (Msg α)} {rcvd : Int → Int → Tag → Nat}
    (hc : Net.CleanOn (LaterTag k n) sent rcvd) :
    OpRuns buf l junk mem parts filled k (.op o) s sent rcvd := by
  obtain ⟨s', a1, a2, a3⟩ := op_phase hl hsq buf junk B hv
  have a4 := a1.map fun r (y : Option (Py (SState α))) => match y with
    | none => none
    | some (.error e) => some (Except.error e)
    | some (.ok x) => some (.ok ({ s r with s := x } : SessState α))
  have a5 : (Net.start (topProcs l junk (.op o) s)).Completes buf fun r =>
      if r ∈ allRanks l then some (.ok ({ s r with s := s' r } : SessState α)) else none := by
    refine cast ?_ a4
    congr 1
    · unfold Net.andThen opNet Net.start
      congr 1
      funext r
      dsimp only [topProcs]
      by_cases hr : r ∈ allRanks l
      · simp only [if_pos hr]
        show _ = ((o.exec l junk r (s r).s).bind _).bind _
        rw [Proc.bind_bind, Proc.bind_bind]
        congr 1
        funext y
        cases y <;> rfl
      · simp only [if_neg hr]
        rfl
    · funext r
      by_cases hr : r ∈ allRanks l
      · simp only [if_pos hr]
      · simp only [if_neg hr]
  obtain ⟨sched, T, b1, b2, b3⟩ := Net.phase
    (A := SessTag k (k + o.nTags) n (n + o.nColl)) a5 (fun r => by
      unfold topProcs
      split
      · next hr =>
        refine Proc.Spec.bind (Q := fun _ => True) ?_ fun _ _ => trivial
        refine Proc.Spec.bind (Q := fun _ => True) ?_ fun y _ => by cases y <;> trivial
        have := SOp.exec_tags l junk r o (s r).s
        rw [B.tag r hr, B.coll r hr] at this
        exact this
      · trivial) (sent := sent) (rcvd := rcvd)
    ⟨fun a b t ht => hc.sent a b t ht.later, fun a b t ht => hc.rcvd a b t ht.later⟩
  have hc' := b3 (LaterTag (k + o.nTags) (n + o.nColl)) (fun t ht => ht.not)
    ⟨fun a b t ht => hc.sent a b t (ht.mono (by omega) (by omega)),
     fun a b t ht => hc.rcvd a b t (ht.mono (by omega) (by omega))⟩
  exact ⟨_, _, sched, T, b1, b2, hc', fun A hA => b3 A fun t ht => not_sessTag (hA t ht), ⟨a2, fun _ _ => rfl, rfl⟩, a3⟩

/-- The parts of a global quantity of the cubed sphere. -/
theorem HasParts.on {l : Layout} {m : Int → Mem α} {q : Nat} {p : Parts} (h : HasParts l m q p) :
    PartsOn (.cube l) m q p :=
  ⟨h.axes, h.small, fun r hr => h.names r ((cube_ranks l r).1 hr), fun r hr => h.shaped r ((cube_ranks l r).1 hr)⟩

/-- A collective call of the cubed-sphere communicator. -/
theorem coll_runs {l : Layout} (hl : FloatSafe l) (buf : Buffering) (junk : Nat → List Nat → α)
    {mem : Int → Mem α} {parts : Nat → Parts} {filled : List Nat} {k n : Nat} {s : Int → SessState α}
    (B : TBetween l mem parts filled k n s) {op : TOp α} {cop : COp} (hv : cop.Valid (.cube l) mem parts filled)
    (he : ∀ r s, op.exec l junk r s = cop.exec (.cube l) junk r s) (ht : op.nTags = 0)
    (hf : op.fills filled = cop.filledAfter filled)
    (hst : ∀ S S' : Snap α, cop.Step (.cube l) parts S S' → op.Step l parts S S')
    {sent : Int → Int → Tag → List (Msg α)} {rcvd : Int → Int → Tag → Nat}
    (hc : Net.CleanOn (LaterTag k n) sent rcvd) :
    OpRuns buf l junk mem parts filled k op s sent rcvd := by
  obtain ⟨s', n', plan, h1, h2, h3, h4, h5⟩ := cop_does (c := .cube l) hl buf junk (n := n) (s := s)
    ⟨fun r hr => B.same r ((cube_ranks l r).1 hr), fun r hr => B.coll r ((cube_ranks l r).1 hr), B.shaped, B.filled⟩ hv
  have hle := h1.le
  obtain ⟨sched, T, t1, t2, t3⟩ := h1.phase (procs := topProcs l junk op s)
    (res := fun r => if r ∈ allRanks l then some (.ok (s' r)) else none) (by
      intro r
      unfold topProcs
      by_cases hm : r ∈ allRanks l
      · rw [if_pos hm, if_pos hm, he]
        have := Real.bind (f := fun x : Py (SessState α) => Proc.ret (some x)) (h2 r ((cube_ranks l r).2 hm))
          (Real.ret (M := Msg α) (some (Except.ok (ε := PyErr) (s' r))))
        rwa [List.append_nil] at this
      · rw [if_neg hm, if_neg hm, h1.ok.idle r fun h => hm ((cube_ranks l r).1 h)]
        exact .ret _) (sent := sent) (rcvd := rcvd)
    ⟨fun a b t ⟨i, e, h1, h2⟩ => hc.sent a b t (.inr ⟨i, e, h1⟩), fun a b t ⟨i, e, h1, h2⟩ => hc.rcvd a b t (.inr ⟨i, e, h1⟩)⟩
  refine ⟨s', n', sched, T, t1, t2, t3 _ ?_ ⟨fun a b t ht => hc.sent a b t (ht.mono (by omega) hle),
    fun a b t ht => hc.rcvd a b t (ht.mono (by omega) hle)⟩,
    fun A hA => t3 A fun t ht ⟨i, e, _⟩ => (by obtain ⟨c, j, rfl⟩ := hA t ht; cases e), hst _ _ h3,
    ⟨fun r hr => h4.same r ((cube_ranks l r).2 hr), fun r hr => ?_, fun r hr => h4.coll r ((cube_ranks l r).2 hr),
      h4.shaped, ?_⟩⟩
  · rw [ht]
    rintro t (⟨i, rfl, -⟩ | ⟨i, rfl, h⟩) ⟨j, e, h1, h2⟩
    · cases e
    · cases e
      omega
  · rw [ht, h5 r]
    exact B.tag r hr
  · rw [hf]
    exact h4.filled

theorem top_runs {l : Layout} (hl : FloatSafe l) (hsq : l.y = l.x) (buf : Buffering) (junk : Nat → List Nat → α)
    {mem : Int → Mem α} {parts : Nat → Parts} {filled : List Nat} {k n : Nat} {s : Int → SessState α}
    (B : TBetween l mem parts filled k n s) {op : TOp α} (hv : op.Valid l mem parts filled)
    {sent : Int → Int → Tag → List (Msg α)} {rcvd : Int → Int → Tag → Nat}
    (hc : Net.CleanOn (LaterTag k n) sent rcvd) :
    OpRuns buf l junk mem parts filled k op s sent rcvd := by
  cases op with
  | op o => exact op_runs hl hsq buf junk B hv hc
  | scatterState i j vars =>
    refine coll_runs hl buf junk B (cop := .scatterState i j vars)
      ⟨hv.1, hv.2.1, fun v h => ⟨(hv.2.2 v h).1, (hv.2.2 v h).2.on⟩⟩ (fun _ _ => rfl) rfl rfl (fun S S' h => ?_) hc
    exact ⟨h.1, h.2.1, fun r hr => h.2.2 r ((cube_ranks l r).2 hr)⟩
  | gatherState i j vars =>
    refine coll_runs hl buf junk B (cop := .gatherState i j vars)
      ⟨hv.1, hv.2.1, fun v h => (hv.2.2 v h).on⟩ (fun _ _ => rfl) rfl rfl (fun S S' h => ?_) hc
    exact ⟨fun r hr => h.1 r ((cube_ranks l r).2 hr), h.2⟩

/-- All calls. -/
theorem states_from {l : Layout} (hl : FloatSafe l) (hsq : l.y = l.x) (buf : Buffering) (junk : Nat → List Nat → α)
    {mem : Int → Mem α} {parts : Nat → Parts} {ops : List (TOp α)} {filled : List Nat} {k n : Nat}
    {s : Int → SessState α} (B : TBetween l mem parts filled k n s) (hv : StatesValid l mem parts filled ops)
    {sent : Int → Int → Tag → List (Msg α)} {rcvd : Int → Int → Tag → Nat}
    (hc : Net.CleanOn (LaterTag k n) sent rcvd) :
    ∃ fin : Int → SessState α, (⟨fun r => if r ∈ allRanks l then
          (execStates l junk r ops (s r)).bind fun x => .ret (some x) else .ret none, sent, rcvd⟩ : Net (Msg α) _).Completes
        buf (fun r => if r ∈ allRanks l then some (.ok (fin r)) else none) ∧
      StatesRun l parts ops (snapOf s) (snapOf fin) ∧
      ∀ r ∈ allRanks l, MetaIs mem r (fin r).s.mem := by
  induction ops generalizing s filled k n sent rcvd with
  | nil =>
    refine ⟨s, Net.completes_of_run (sched := []) rfl fun r => ?_, ⟨fun _ _ => ⟨rfl, rfl⟩, rfl, rfl⟩, B.same⟩
    dsimp only
    split <;> rfl
  | cons op ops ih =>
    obtain ⟨v1, v2⟩ := hv
    obtain ⟨s', n', sched, T, b1, b2, hc', -, a2, a3⟩ := top_runs hl hsq buf junk B v1 hc
    have hfill : StatesValid l mem parts (op.fills filled) ops := by
      cases op with
      | op o => cases o <;> exact v2
      | _ => exact v2
    obtain ⟨fin, c1, c2, c3⟩ := ih (s := s') a3 hfill hc'
    refine ⟨fin, ?_, ⟨_, a2, c2⟩, c3⟩
    let K : Int → Option (Py (SessState α)) → Proc (Msg α) (Option (Py (SessState α))) := fun r x =>
      match x with
      | none => .ret none
      | some (.error e) => .ret (some (.error e))
      | some (.ok s') => (execStates l junk r ops s').bind fun x => .ret (some x)
    have := Net.Completes.andThen (K := K) b1 b2 (out := fun r =>
      if r ∈ allRanks l then some (.ok (fin r)) else none) (by
        refine cast ?_ c1
        congr 2
        funext r
        by_cases hr : r ∈ allRanks l
        · simp only [if_pos hr]
          rfl
        · simp only [if_neg hr]
          rfl)
    refine cast ?_ this
    congr 1
    unfold Net.andThen
    congr 1
    funext r
    dsimp only [topProcs]
    by_cases hr : r ∈ allRanks l
    · simp only [if_pos hr]
      show _ = ((op.exec l junk r (s r)).bind _).bind _
      rw [Proc.bind_bind, Proc.bind_bind]
      congr 1
      funext y
      cases y <;> rfl
    · simp only [if_neg hr]
      rfl

end FV3
