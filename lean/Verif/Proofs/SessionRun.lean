import Verif.Spec.Session
import Verif.Proofs.TagShift
import Verif.Props.Protocol
import Verif.Props.Scatter

/-!
# Sessions: one call after the other
-/

namespace FV3
variable {α : Type}

theorem Net.Completes.map {M R S : Type} {buf : Buffering} {N : Net M R} {res : Int → R} (h : N.Completes buf res)
    (f : Int → R → S) : (N.andThen fun r x => .ret (f r x)).Completes buf fun r => f r (res r) := by
  obtain ⟨sched, T, h1, h2⟩ := h.run
  exact Net.Completes.andThen h1 h2 _ (Net.completes_of_run (sched := []) rfl fun _ => rfl)

/-- The tags of a call. -/
def SessTag (k k' n n' : Nat) (t : Tag) : Prop := IsHaloIn k k' t ∨ IsCollTag n n' t

/-- The tags that have not been used. -/
def LaterTag (k n : Nat) (t : Tag) : Prop := (∃ i, t = .halo i ∧ k < i) ∨ ∃ i, t = .coll i ∧ n ≤ i

theorem SessTag.later {k k' n n' : Nat} {t : Tag} (h : SessTag k k' n n' t) : LaterTag k n t := by
  rcases h with ⟨i, h1, h2, -⟩ | ⟨i, h1, h2, -⟩
  · exact .inl ⟨i, h1, h2⟩
  · exact .inr ⟨i, h1, h2⟩

theorem LaterTag.not {k k' n n' : Nat} {t : Tag} (h : LaterTag k' n' t) : ¬ SessTag k k' n n' t := by
  rintro (⟨i, rfl, -, h2⟩ | ⟨i, rfl, -, h2⟩) <;> rcases h with ⟨j, h, h'⟩ | ⟨j, h, h'⟩ <;> cases h <;> omega

theorem LaterTag.mono {k k' n n' : Nat} {t : Tag} (h : LaterTag k' n' t) (h1 : k ≤ k') (h2 : n ≤ n') :
    LaterTag k n t := by
  rcases h with ⟨j, h, h'⟩ | ⟨j, h, h'⟩
  · exact .inl ⟨j, h, by omega⟩
  · exact .inr ⟨j, h, by omega⟩

/-- Number of halo tags. -/
def SOp.nTags : SOp α → Nat
  | .call c => c.nTags
  | _ => 0

/-- Number of collective MPI calls. -/
def SOp.nColl : SOp α → Nat
  | .scatter _ _ => 2
  | .gather _ _ => 1
  | .call _ => 0

/-- The halo updates and computations. -/
def SOp.calls : SOp α → List (Call α)
  | .call c => [c]
  | _ => []

/-- Global quantities that exist after the call. -/
def SOp.fills (filled : List Nat) : SOp α → List Nat
  | .gather _ g => g :: filled
  | _ => filled

variable [Neg α]

theorem SOp.exec_tags (l : Layout) (junk : Nat → List Nat → α) (r : Int) (op : SOp α) (s : SState α) :
    (op.exec l junk r s).Spec (SessTag s.tag (s.tag + op.nTags) s.coll (s.coll + op.nColl)) fun _ => True := by
  cases op with
  | call c =>
    refine Proc.Spec.bind ((CommM.Uses.exec (n := s.tag) l r c ⟨s.mem, s.tag, []⟩ rfl).mono (fun t h => .inl h)
      fun _ _ => trivial) fun y _ => ?_
    split <;> trivial
  | scatter q g =>
    refine Proc.Spec.bind ((calls_scatter _ _ _ _ _ s.coll).mono (fun t h => .inr h) fun _ _ => trivial) fun y _ => ?_
    split <;> trivial
  | gather q g =>
    refine Proc.Spec.bind ((calls_gather _ _ _ _ _ s.coll).mono (fun t h => .inr h) fun _ _ => trivial) fun y _ => ?_
    split <;> trivial

/-- The state of all ranks between two calls. -/
structure Between (l : Layout) (mem : Int → Mem α) (parts : Nat → Parts) (filled : List Nat) (k n : Nat)
    (s : Int → SState α) : Prop where
  same : ∀ r ∈ allRanks l, MetaIs mem r (s r).mem
  tag : ∀ r ∈ allRanks l, (s r).tag = k
  coll : ∀ r ∈ allRanks l, (s r).coll = n
  shaped : ∀ g v, (s 0).glob g = some v → v.GlobalShaped (.cube l) (parts g).dims (parts g).cells
  filled : ∀ g ∈ filled, ∃ v, (s 0).glob g = some v

/-- All ranks make one call. -/
def opNet (l : Layout) (junk : Nat → List Nat → α) (op : SOp α) (s : Int → SState α) :
    Net (Msg α) (Option (Py (SState α))) :=
  Net.start fun r => if r ∈ allRanks l then (op.exec l junk r (s r)).bind fun x => .ret (some x) else .ret none

omit [Neg α] in
theorem MetaIs.trans {m : Int → Mem α} {r : Int} {mem mem' : Mem α} (h : MetaIs m r mem)
    (h' : ∀ q, SameMeta (mem q) (mem' q)) : MetaIs m r mem' := fun q => (h q).trans (h' q)

omit [Neg α] in
theorem Quantity.Refilled.sameMeta {q q' : Quantity α} (h : q.Refilled q') : SameMeta q q' :=
  ⟨h.shape, h.dims, h.units, h.origin, h.extent⟩

theorem call_phase {l : Layout} (hl : FloatSafe l) (hsq : l.y = l.x) (buf : Buffering) (junk : Nat → List Nat → α)
    {mem : Int → Mem α} {parts : Nat → Parts} {filled : List Nat} {k n : Nat} {s : Int → SState α}
    (B : Between l mem parts filled k n s) {c : Call α} (hv : (SOp.call c).Valid l mem parts filled) :
    ∃ s', (opNet l junk (.call c) s).Completes buf (fun r => if r ∈ allRanks l then some (.ok (s' r)) else none) ∧
      (SOp.call c).Step l parts (fun r => (s r).mem) (s 0).glob (fun r => (s' r).mem) (s' 0).glob ∧
      Between l mem parts filled (k + c.nTags) n s' := by
  have hx := hl.xpos
  obtain ⟨m', a1, a2, a3⟩ := call_at (l := l) (Good := MetaIs mem) buf k (c := c)
    (m := fun r => (s r).mem) B.same
    (fun op ho => by
      have hr : UpdateReady l mem op := by
        cases c with
        | compute f => simp [Call.start] at ho
        | _ => exact hv op ho
      exact ready_sound hx hsq (Call.start_isStart ho) hr)
    (fun f hf r hr m hm => by subst hf; exact hv r hr m hm)
  refine ⟨fun r => { s r with mem := m' r, tag := k + c.nTags }, ?_, ⟨a1, rfl⟩,
    ⟨a2, fun _ _ => rfl, B.coll, B.shaped, B.filled⟩⟩
  have := a3.map fun r (y : Py Unit × RankState α) => if r ∈ allRanks l then
    some (match y.1 with
      | .error e => Except.error e
      | .ok _ => .ok { s r with mem := y.2.mem, tag := y.2.lastTag }) else none
  refine cast ?_ this
  congr 1
  · unfold Net.andThen opNet Net.start
    congr 1
    funext r
    dsimp only
    by_cases hr : r ∈ allRanks l
    · simp only [if_pos hr]
      show _ = ((c.exec l r ⟨(s r).mem, (s r).tag, []⟩).bind _).bind _
      rw [B.tag r hr, Proc.bind_bind]
      congr 1
      funext y
      obtain ⟨a | a, y⟩ := y <;> rfl
    · simp only [if_neg hr]
      rfl
  · funext r
    by_cases hr : r ∈ allRanks l
    · simp only [if_pos hr]
    · simp only [if_neg hr]

theorem allDo_map {l : Layout} {buf : Buffering} {A : Type} {p : Int → CollM α A} {n c : Nat} {res : Int → A}
    (h : AllDo buf (.cube l) p n c fun r => .ok (res r)) (f : Int → A × Nat → SState α) :
    (Net.start fun r => if r ∈ allRanks l then ((p r n).bind fun x =>
      match x.1 with
      | .error e => .ret (.error e)
      | .ok a => .ret (Except.ok (f r (a, x.2)))).bind fun x => .ret (some x) else .ret none).Completes buf fun r =>
        if r ∈ allRanks l then some (Except.ok (ε := PyErr) (f r (res r, c))) else none := by
  have := h.completes.map fun r (y : Option (Py A × Nat)) => match y with
    | none => none
    | some y => some (match y.1 with
      | .error e => Except.error e
      | .ok a => .ok (f r (a, y.2)))
  refine cast ?_ this
  congr 1
  · unfold Net.andThen Net.start
    congr 1
    funext r
    dsimp only
    by_cases hr : r ∈ allRanks l
    · simp only [if_pos hr, if_pos ((cube_ranks l r).2 hr)]
      rw [Proc.bind_bind, Proc.bind_bind]
      congr 1
      funext y
      obtain ⟨a | a, y⟩ := y <;> rfl
    · simp only [if_neg hr, if_neg (fun h => hr ((cube_ranks l r).1 h))]
      rfl
  · funext r
    by_cases hr : r ∈ allRanks l
    · simp only [if_pos hr, if_pos ((cube_ranks l r).2 hr)]
    · simp only [if_neg hr, if_neg (fun h => hr ((cube_ranks l r).1 h))]

theorem scatter_phase {l : Layout} (hl : FloatSafe l) (buf : Buffering) (junk : Nat → List Nat → α)
    {mem : Int → Mem α} {parts : Nat → Parts} {filled : List Nat} {k n : Nat} {s : Int → SState α}
    (B : Between l mem parts filled k n s) {q g : Nat} (hv : (SOp.scatter q g).Valid l mem parts filled) :
    ∃ s', (opNet l junk (.scatter q g) s).Completes buf (fun r => if r ∈ allRanks l then some (.ok (s' r)) else none) ∧
      (SOp.scatter q g).Step l parts (fun r => (s r).mem) (s 0).glob (fun r => (s' r).mem) (s' 0).glob ∧
      Between l mem parts filled k (n + 2) s' := by
  obtain ⟨hf, hp⟩ := hv
  obtain ⟨v, hv⟩ := B.filled g hf
  obtain ⟨ky, kx, ha⟩ := hp.axes
  have hpos : 0 < (parts g).dims.length := by have := ha.ylt; omega
  obtain ⟨part, s1, s2⟩ := scatter_does buf (c := .cube l) hl (junk n) hpos (B.shaped g v hv)
    (fun r => (s r).glob g) (fun r => some ((s r).mem q)) hv
    (fun r hr q' hq' => by
      cases hq'
      have hr' := (cube_ranks l r).1 hr
      have h1 := B.same r hr' q
      have h2 := hp.shaped r hr'
      exact ⟨h1.wf h2.wf, by rw [h1.extent]; exact h2.extent⟩) n
  have hpart : ∀ r ∈ allRanks l, ((s r).mem q).Refilled (part r) := fun r hr =>
    (s2 r ((cube_ranks l r).2 hr)).given _ rfl
  have hput : ∀ r, (s r).mem.put q (part r) q = part r := fun r => by unfold Mem.put; rw [if_pos rfl]
  refine ⟨fun r => { s r with mem := (s r).mem.put q (part r), coll := n + 2 }, ?_, ⟨rfl, v, hv, fun r hr => ⟨?_, ?_, ?_⟩⟩,
    ⟨fun r hr => (B.same r hr).trans fun q' => ?_, B.tag, fun _ _ => rfl, B.shaped, B.filled⟩⟩
  · have := allDo_map s1 fun r x => { s r with mem := (s r).mem.put q x.1, coll := x.2 }
    refine cast ?_ this
    congr 1
    unfold opNet
    congr 1
    funext r
    by_cases hr : r ∈ allRanks l
    · simp only [if_pos hr]
      unfold SOp.exec
      dsimp only
      rw [B.coll r hr, Proc.bind_bind, Proc.bind_bind]
      congr 1
      funext y
      obtain ⟨a | a, y⟩ := y <;> rfl
    · simp only [if_neg hr]
  · dsimp only
    rw [hput]
    exact (s2 r ((cube_ranks l r).2 hr)).part
  · dsimp only
    rw [hput]
    exact hpart r hr
  · intro q' hq'
    dsimp only
    unfold Mem.put
    rw [if_neg hq']
  · dsimp only
    unfold Mem.put
    split
    · next e =>
      subst e
      exact (hpart r hr).sameMeta
    · exact SameMeta.refl _

theorem gather_phase {l : Layout} (hl : FloatSafe l) (buf : Buffering) (junk : Nat → List Nat → α)
    {mem : Int → Mem α} {parts : Nat → Parts} {filled : List Nat} {k n : Nat} {s : Int → SState α}
    (B : Between l mem parts filled k n s) {q g : Nat} (hv : (SOp.gather q g).Valid l mem parts filled) :
    ∃ s', (opNet l junk (.gather q g) s).Completes buf (fun r => if r ∈ allRanks l then some (.ok (s' r)) else none) ∧
      (SOp.gather q g).Step l parts (fun r => (s r).mem) (s 0).glob (fun r => (s' r).mem) (s' 0).glob ∧
      Between l mem parts (g :: filled) k (n + 1) s' := by
  have hp : HasParts l mem q (parts g) := hv
  obtain ⟨ky, kx, ha⟩ := hp.axes
  have hpos : 0 < (parts g).dims.length := by have := ha.ylt; omega
  have hsize := comm_size_pos (c := .cube l) hl
  have h0 : (0 : Int) ∈ allRanks l := (cube_ranks l 0).1 ((mem_ranks _ 0).2 ⟨by omega, hsize⟩)
  have hsh : ∀ r ∈ allRanks l, ((s r).mem q).RankShaped (parts g).dims (parts g).cells := by
    intro r hr
    have h1 := B.same r hr q
    have h2 := hp.shaped r hr
    exact ⟨h1.wf h2.wf, by rw [h1.extent]; exact h2.extent⟩
  obtain ⟨root, g1, g2⟩ := gather_does buf (c := .cube l) hl (junk n) hpos hp.small (fun r => (s r).mem q)
    (fun r => (s r).glob g) (fun r hr => hsh r ((cube_ranks l r).1 hr)) (fun v hv => B.shaped g v hv)
    (fun _ => (B.same 0 h0 q).dims.trans (hp.names 0 h0)) n
  let G : Int → Nat → Option (Quantity α) := fun r g' =>
    if g' = g then (if r = 0 then some root else none) else (s r).glob g'
  refine ⟨fun r => { s r with glob := G r, coll := n + 1 }, ?_, ⟨fun _ _ => rfl, fun g' hg' => ?_, root, ?_, g2.shaped,
      GatherOut.gathered (c := .cube l) hl ha g2 (hsh 0 h0), g2.given, fun h => (g2.fresh h).1⟩,
      ⟨B.same, B.tag, fun _ _ => rfl, ?_, ?_⟩⟩
  · have := allDo_map g1 fun r x => { s r with glob := fun g' => if g' = g then x.1 else (s r).glob g', coll := x.2 }
    refine cast ?_ this
    congr 1
    unfold opNet
    congr 1
    funext r
    by_cases hr : r ∈ allRanks l
    · simp only [if_pos hr]
      unfold SOp.exec
      dsimp only
      rw [B.coll r hr, Proc.bind_bind, Proc.bind_bind]
      congr 1
      funext y
      obtain ⟨a | a, y⟩ := y <;> rfl
    · simp only [if_neg hr]
  · simp [G, if_neg hg']
  · simp [G]
  · intro g' v hv
    dsimp only [G] at hv
    by_cases e : g' = g
    · subst e
      simp only [if_pos, Option.some.injEq] at hv
      subst hv
      exact g2.shaped
    · simp only [if_neg e] at hv
      exact B.shaped g' v hv
  · intro g' hg'
    by_cases e : g' = g
    · exact ⟨root, by simp [G, e]⟩
    · simp only [G, if_neg e]
      exact B.filled g' ((List.mem_cons.1 hg').resolve_left e)

/-- The valid calls stay valid when more global quantities exist. -/
theorem SOp.valid_call {l : Layout} {m : Int → Mem α} {parts : Nat → Parts} {filled filled' : List Nat} {c : Call α}
    (h : (SOp.call c).Valid l m parts filled) : (SOp.call c).Valid l m parts filled' := by
  cases c <;> exact h

/-- One call. -/
theorem op_phase {l : Layout} (hl : FloatSafe l) (hsq : l.y = l.x) (buf : Buffering) (junk : Nat → List Nat → α)
    {mem : Int → Mem α} {parts : Nat → Parts} {filled : List Nat} {k n : Nat} {s : Int → SState α}
    (B : Between l mem parts filled k n s) {op : SOp α} (hv : op.Valid l mem parts filled) :
    ∃ s', (opNet l junk op s).Completes buf (fun r => if r ∈ allRanks l then some (.ok (s' r)) else none) ∧
      op.Step l parts (fun r => (s r).mem) (s 0).glob (fun r => (s' r).mem) (s' 0).glob ∧
      Between l mem parts (op.fills filled) (k + op.nTags) (n + op.nColl) s' := by
  cases op with
  | call c => exact call_phase hl hsq buf junk B hv
  | scatter q g => exact scatter_phase hl buf junk B hv
  | gather q g => exact gather_phase hl buf junk B hv

/-- All calls. -/
theorem session_from {l : Layout} (hl : FloatSafe l) (hsq : l.y = l.x) (buf : Buffering) (junk : Nat → List Nat → α)
    {mem : Int → Mem α} {parts : Nat → Parts} {ops : List (SOp α)} {filled : List Nat} {k n : Nat}
    {s : Int → SState α} (B : Between l mem parts filled k n s) (hv : SessionValid l mem parts filled ops)
    {sent : Int → Int → Tag → List (Msg α)} {rcvd : Int → Int → Tag → Nat}
    (hc : Net.CleanOn (LaterTag k n) sent rcvd) :
    ∃ fin : Int → SState α, (⟨fun r => if r ∈ allRanks l then
          (execSession l junk r ops (s r)).bind fun x => .ret (some x) else .ret none, sent, rcvd⟩ : Net (Msg α) _).Completes
        buf (fun r => if r ∈ allRanks l then some (.ok (fin r)) else none) ∧
      SessionRun l parts ops (fun r => (s r).mem) (s 0).glob (fun r => (fin r).mem) (fin 0).glob ∧
      ∀ r ∈ allRanks l, MetaIs mem r (fin r).mem := by
  induction ops generalizing s filled k n sent rcvd with
  | nil =>
    refine ⟨s, Net.completes_of_run (sched := []) rfl fun r => ?_, ⟨fun _ _ => rfl, rfl⟩, B.same⟩
    dsimp only
    split <;> rfl
  | cons op ops ih =>
    obtain ⟨v1, v2⟩ := hv
    obtain ⟨s', a1, a2, a3⟩ := op_phase hl hsq buf junk B v1
    obtain ⟨sched, T, b1, b2, b3⟩ := Net.phase
      (A := SessTag k (k + op.nTags) n (n + op.nColl)) a1 (fun r => by
        split
        · next hr =>
          refine Proc.Spec.bind (Q := fun _ => True) ?_ fun _ _ => trivial
          have := SOp.exec_tags l junk r op (s r)
          rw [B.tag r hr, B.coll r hr] at this
          exact this
        · trivial) (sent := sent) (rcvd := rcvd) ⟨fun a b t ht => hc.sent a b t ht.later, fun a b t ht => hc.rcvd a b t ht.later⟩
    have hc' := b3 (LaterTag (k + op.nTags) (n + op.nColl)) (fun t ht => ht.not)
      ⟨fun a b t ht => hc.sent a b t (ht.mono (by omega) (by omega)),
       fun a b t ht => hc.rcvd a b t (ht.mono (by omega) (by omega))⟩
    have hfill : SessionValid l mem parts (op.fills filled) ops := by
      cases op <;> exact v2
    obtain ⟨fin, c1, c2, c3⟩ := ih (s := s') a3 hfill hc'
    refine ⟨fin, ?_, ⟨_, _, a2, c2⟩, c3⟩
    let K : Int → Option (Py (SState α)) → Proc (Msg α) (Option (Py (SState α))) := fun r x =>
      match x with
      | none => .ret none
      | some (.error e) => .ret (some (.error e))
      | some (.ok s') => (execSession l junk r ops s').bind fun x => .ret (some x)
    have := Net.Completes.andThen (K := K) b1 b2 (out := fun r =>
      if r ∈ allRanks l then some (.ok (fin r)) else none) (by
        refine cast ?_ c1
        congr 2
        funext r
        by_cases hr : r ∈ allRanks l
        · simp only [if_pos hr]
          rfl
        · simp only [if_neg hr]
          rfl)
    refine cast ?_ this
    congr 1
    unfold Net.andThen
    congr 1
    funext r
    dsimp only
    by_cases hr : r ∈ allRanks l
    · simp only [if_pos hr]
      show _ = ((op.exec l junk r (s r)).bind _).bind _
      rw [Proc.bind_bind, Proc.bind_bind]
      congr 1
      funext y
      cases y <;> rfl
    · simp only [if_neg hr]
      rfl

end FV3
