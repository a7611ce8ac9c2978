import Verif.Spec.Updates
import Verif.Proofs.Settle

/-!
# The communicator's programs perform the packed sends and the expected receives
-/

namespace FV3
variable {α A B C : Type}

/-- Run from `s`, `c` performs `acts` and returns `a` in state `s'`. -/
def Does (c : CommM α A) (s : RankState α) (acts : List (Act (Msg α))) (a : A) (s' : RankState α) :
    Prop := Real (c s) acts (.ok a, s')

theorem Does.bind {c : CommM α A} {f : A → CommM α B} {s s1 s2 : RankState α}
    {a1 a2 : List (Act (Msg α))} {x : A} {y : B} (h1 : Does c s a1 x s1)
    (h2 : Does (f x) s1 a2 y s2) : Does (c >>= f) s (a1 ++ a2) y s2 := by
  unfold Does
  show Real (CommM.bind c f s) _ _
  unfold CommM.bind
  exact Real.bind h1 h2

/-- Sequencing when the first part does not communicate. -/
theorem Does.bind0 {c : CommM α A} {f : A → CommM α B} {s s1 s2 : RankState α}
    {a2 : List (Act (Msg α))} {x : A} {y : B} (h1 : Does c s [] x s1)
    (h2 : Does (f x) s1 a2 y s2) : Does (c >>= f) s a2 y s2 := by
  simpa using h1.bind h2

theorem Does.pure (s : RankState α) (a : A) : Does (Pure.pure a : CommM α A) s [] a s := .ret _

theorem Does.bindPure {c : CommM α A} {f : A → B} {s s1 : RankState α}
    {a1 : List (Act (Msg α))} {x : A} (h1 : Does c s a1 x s1) :
    Does (c >>= fun x => Pure.pure (f x)) s a1 (f x) s1 := by
  have := h1.bind (f := fun x => (Pure.pure (f x) : CommM α B)) (Does.pure s1 (f x))
  rwa [List.append_nil] at this

theorem Does.lift {x : Py A} {a : A} (h : x = .ok a) (s : RankState α) :
    Does (CommM.lift x) s [] a s := by
  subst h; exact .ret _

theorem Does.quantity (q : Nat) (s : RankState α) : Does (CommM.quantity q) s [] (s.mem q) s :=
  .ret _

theorem Does.pushReq (req : Request) (s : RankState α) :
    Does (pushReq req) s [] () { s with reqs := s.reqs ++ [req] } := .ret _

theorem Does.get (s : RankState α) : Does CommM.get s [] s s := .ret _

theorem Does.getHaloTag (s : RankState α) :
    Does getHaloTag s [] (s.lastTag + 1) { s with lastTag := s.lastTag + 1 } := .ret _

theorem Does.isend (d : Int) (t : Nat) (a : NDArray α) (s : RankState α) :
    Does (isend d t a) s [.send d (.halo t) (.data a)] ⟨d, t, 0⟩ s := .send (.ret _)

theorem Does.awaitSend (d : Int) (t : Nat) (s : RankState α) :
    Does (awaitSend ⟨d, t, 0⟩) s [.await d (.halo t)] () s := .await (.ret _)

theorem Does.recvInto {rq : RecvReq} {s : RankState α} {a : NDArray α} {mem : Mem α}
    (h : storeInto s.mem rq.q rq.ix a = .ok mem) :
    Does (recvInto rq) s [.recv rq.src (.halo rq.tag) (.data a)] () { s with mem := mem } := by
  unfold Does FV3.recvInto
  refine .recv ?_
  simp only [h]
  exact .ret _

/-- Loops whose body leaves the state alone. -/
theorem Does.forEach {f : A → CommM α B} {g : A → Py C} {acts : C → List (Act (Msg α))}
    {val : C → B} {s : RankState α} {l : List A} {cs : List C} (hg : pyMap g l = .ok cs)
    (h : ∀ a c, a ∈ l → g a = .ok c → Does (f a) s (acts c) (val c) s) :
    Does (CommM.forEach f l) s (cs.flatMap acts) (cs.map val) s := by
  induction l generalizing cs with
  | nil =>
    simp only [pyMap, Except.ok.injEq] at hg
    subst hg
    exact Does.pure s []
  | cons a l ih =>
    simp only [pyMap] at hg
    cases ha : g a with
    | error e => rw [ha] at hg; simp [Bind.bind, Except.bind] at hg
    | ok c =>
      rw [ha] at hg
      cases hl : pyMap g l with
      | error e => rw [hl] at hg; simp [Bind.bind, Except.bind] at hg
      | ok cs' =>
        rw [hl] at hg
        simp only [Bind.bind, Except.bind, Pure.pure, Except.pure, Except.ok.injEq] at hg
        subst hg
        unfold CommM.forEach
        have h1 := h a c List.mem_cons_self ha
        have h2 := ih hl (fun a c ha => h a c (List.mem_cons_of_mem _ ha))
        exact h1.bind (Does.bindPure (f := fun bs => val c :: bs) h2)

theorem Does.cast {c : CommM α A} {s s' t : RankState α} {as as' : List (Act (Msg α))} {x y : A}
    (h : Does c s as x s') (h1 : as = as') (h2 : x = y) (h3 : s' = t) : Does c s as' y t := by
  subst h1 h2 h3; exact h

/-- The sends of an update with tags above `tag`. -/
def sendActs (tag : Nat) (o : List (Outgoing α)) : List (Act (Msg α)) :=
  o.map fun x => .send x.dst (.halo (tag + 1 + x.off)) (.data x.a)

def sendReqs (tag : Nat) (o : List (Outgoing α)) : List SendReq :=
  o.map fun x => ⟨x.dst, tag + 1 + x.off, 0⟩

def recvReqs (tag : Nat) (i : List Incoming) : List RecvReq :=
  i.map fun x => ⟨x.src, tag + 1 + x.off, x.q, x.ix⟩

theorem bind_ok {x : Py A} {f : A → Py B} {b : B} (h : x >>= f = .ok b) :
    ∃ a, x = .ok a ∧ f a = .ok b := by
  cases x with
  | error e => simp [Bind.bind, Except.bind] at h
  | ok a => exact ⟨a, rfl, h⟩

theorem pure_ok {a b : A} (h : (Pure.pure a : Py A) = .ok b) : a = b := by
  simpa [Pure.pure, Except.pure] using h

theorem Does.isendHalos {l : Layout} {r : Int} {q : Nat} {n : Int} {s : RankState α} {tag : Nat}
    {o : List (Outgoing α)} (ho : haloOut l q n r s.mem = .ok o) :
    Does (isendHalos l r q n (tag + 1)) s (sendActs tag o) (sendReqs tag o) s := by
  unfold haloOut at ho
  obtain ⟨bs, hb, hm⟩ := bind_ok ho
  unfold FV3.isendHalos
  refine Does.bind0 (Does.lift hb s) ?_
  have := Does.forEach (s := s) (acts := fun x => sendActs tag [x])
    (val := fun x : Outgoing α => (⟨x.dst, tag + 1 + x.off, 0⟩ : SendReq))
    (f := fun (b : Boundary) => do
      let quantity ← CommM.quantity q
      let data ← CommM.lift (sendView quantity b.boundaryType n)
      let data ← CommM.lift (rotateScalar data quantity.dims (-b.rotations))
      FV3.isend b.toRank (tag + 1) data) hm (by
    intro b c _ hc
    obtain ⟨d1, h1, hc⟩ := bind_ok hc
    obtain ⟨d2, h2, hc⟩ := bind_ok hc
    have := pure_ok hc
    subst this
    exact Does.bind0 (Does.quantity q s) (Does.bind0 (Does.lift h1 s)
      (Does.bind0 (Does.lift h2 s) (Does.isend _ _ _ s))))
  refine this.cast ?_ rfl rfl
  unfold sendActs
  clear this hm ho
  induction o with
  | nil => rfl
  | cons x o ih => rw [List.flatMap_cons, ih]; rfl

theorem Does.irecvHalos {l : Layout} {r : Int} {q : Nat} {n : Int} {s : RankState α} {tag off : Nat}
    {i : List Incoming} (hi : haloIn l q n off r s.mem = .ok i) :
    Does (irecvHalos l r q n (tag + 1 + off)) s [] (recvReqs tag i) s := by
  unfold haloIn at hi
  obtain ⟨bs, hb, hm⟩ := bind_ok hi
  unfold FV3.irecvHalos
  refine Does.bind0 (Does.lift hb s) ?_
  have := Does.forEach (s := s) (acts := fun _ => [])
    (val := fun x : Incoming => (⟨x.src, tag + 1 + x.off, x.q, x.ix⟩ : RecvReq))
    (f := fun (b : Boundary) => do
      let quantity ← CommM.quantity q
      let ix ← CommM.lift (recvIndex quantity b.boundaryType n)
      return (⟨b.toRank, tag + 1 + off, q, ix⟩ : RecvReq)) hm (by
    intro b c _ hc
    obtain ⟨d1, h1, hc⟩ := bind_ok hc
    have := pure_ok hc
    subst this
    exact Does.bind0 (Does.quantity q s) (Does.bind0 (Does.lift h1 s) (Does.pure s _)))
  refine this.cast ?_ rfl rfl
  simp

theorem Does.isendVectorHalos [Neg α] {l : Layout} {r : Int} {x y : Nat} {n : Int}
    {s : RankState α} {tag : Nat} {o : List (Outgoing α)} (ho : vectorOut l x y n r s.mem = .ok o) :
    Does (isendVectorHalos l r x y n (tag + 1) (tag + 2)) s (sendActs tag o) (sendReqs tag o) s := by
  unfold vectorOut at ho
  obtain ⟨bs, hb, ho⟩ := bind_ok ho
  obtain ⟨ps, hm, ho⟩ := bind_ok ho
  have hp := pure_ok ho
  clear ho
  subst hp
  unfold FV3.isendVectorHalos
  refine Does.bind0 (Does.lift hb s) ?_
  have := Does.forEach (s := s) (acts := fun x : List (Outgoing α) => sendActs tag x)
    (val := fun x : List (Outgoing α) => sendReqs tag x)
    (f := fun (b : Boundary) => do
      let xq ← CommM.quantity x
      let yq ← CommM.quantity y
      let xData ← CommM.lift (sendView xq b.boundaryType n)
      let yData ← CommM.lift (sendView yq b.boundaryType n)
      let xy ← CommM.lift (rotateVector xData yData (-b.rotations) xq.dims)
      let s1 ← FV3.isend b.toRank (tag + 1) xy.1
      let s2 ← FV3.isend b.toRank (tag + 2) xy.2
      return [s1, s2]) hm (by
    intro b c _ hc
    obtain ⟨d1, h1, hc⟩ := bind_ok hc
    obtain ⟨d2, h2, hc⟩ := bind_ok hc
    obtain ⟨d3, h3, hc⟩ := bind_ok hc
    have := pure_ok hc
    subst this
    refine Does.bind0 (Does.quantity x s) (Does.bind0 (Does.quantity y s) (Does.bind0 (Does.lift h1 s)
      (Does.bind0 (Does.lift h2 s) (Does.bind0 (Does.lift h3 s)
      (Does.cast (Does.bind (Does.isend _ _ _ s) (Does.bindPure (Does.isend _ _ _ s))) ?_ ?_ rfl)))))
    · rfl
    · rfl)
  refine (Does.bindPure (f := fun rs => List.flatten rs) this).cast ?_ ?_ rfl
  · unfold sendActs
    rw [List.map_flatten, List.flatMap_def]
  · unfold sendReqs
    rw [List.map_flatten]

theorem Does.isendSharedBoundary [Neg α] {l : Layout} {r : Int} {x y : Nat}
    {s : RankState α} {tag : Nat} {o : List (Outgoing α)} (ho : syncOut l x y r s.mem = .ok o) :
    Does (isendSharedBoundary l r x y (tag + 1)) s (sendActs tag o) (sendReqs tag o) s := by
  unfold syncOut at ho
  obtain ⟨so, h1, ho⟩ := bind_ok ho
  obtain ⟨we, h2, ho⟩ := bind_ok ho
  obtain ⟨sd, h3, ho⟩ := bind_ok ho
  obtain ⟨wd, h4, ho⟩ := bind_ok ho
  have ho := pure_ok ho
  subst ho
  unfold FV3.isendSharedBoundary
  refine Does.bind0 (Does.lift h1 s) (Does.bind0 (Does.lift h2 s) (Does.bind0 (Does.quantity x s)
    (Does.bind0 (Does.quantity y s) (Does.bind0 (Does.lift h3 s) (Does.bind0 (Does.lift h4 s)
    (Does.cast (Does.bind (Does.isend _ _ _ s) (Does.bindPure (Does.isend _ _ _ s))) ?_ ?_ rfl))))))
  · rfl
  · rfl

theorem Does.irecvSharedBoundary {l : Layout} {r : Int} {x y : Nat}
    {s : RankState α} {tag : Nat} {i : List Incoming} (hi : syncIn l x y r s.mem = .ok i) :
    Does (irecvSharedBoundary l r x y (tag + 1)) s [] (recvReqs tag i) s := by
  unfold syncIn at hi
  obtain ⟨so, h1, hi⟩ := bind_ok hi
  obtain ⟨we, h2, hi⟩ := bind_ok hi
  obtain ⟨sd, h3, hi⟩ := bind_ok hi
  obtain ⟨wd, h4, hi⟩ := bind_ok hi
  have hi := pure_ok hi
  subst hi
  unfold FV3.irecvSharedBoundary
  exact Does.bind0 (Does.lift h1 s) (Does.bind0 (Does.lift h2 s) (Does.bind0 (Does.quantity x s)
    (Does.bind0 (Does.quantity y s) (Does.bind0 (Does.lift h3 s) (Does.bind0 (Does.lift h4 s)
    (Does.pure s _))))))

/-- State after starting an update. -/
def RankState.started (s : RankState α) (nt : Nat) (o : List (Outgoing α)) (i : List Incoming) :
    RankState α :=
  ⟨s.mem, s.lastTag + nt, s.reqs ++ [⟨sendReqs s.lastTag o, recvReqs s.lastTag i⟩]⟩

/-- The request part of an operation that starts an update. -/
def Op.begin [Neg α] (l : Layout) (r : Int) : Op α → CommM α Request
  | .halo q n => startHaloUpdate l r q n
  | .vector x y n => startVectorHaloUpdate l r x y n
  | .sync x y => startSynchronize l r x y
  | .wait _ => CommM.raise .valueError
  | .compute _ => CommM.raise .valueError

theorem Op.exec_begin [Neg α] {l : Layout} {r : Int} {op : Op α} (hs : op.isStart = true) :
    op.exec l r = (do let req ← op.begin l r; FV3.pushReq req) := by
  cases op <;> first | rfl | simp [Op.isStart] at hs

theorem Does.begin [Neg α] {l : Layout} {r : Int} {op : Op α} {s : RankState α}
    {o : List (Outgoing α)} {i : List Incoming} (hs : op.isStart = true)
    (ho : op.out l r s.mem = .ok o) (hi : op.inn l r s.mem = .ok i) :
    Does (op.begin l r) s (sendActs s.lastTag o) ⟨sendReqs s.lastTag o, recvReqs s.lastTag i⟩
      { s with lastTag := s.lastTag + op.nTags } := by
  cases op with
  | halo q n =>
    simp only [Op.out] at ho
    by_cases hn : n = 0
    · rw [if_pos hn] at ho; exact absurd ho (by simp)
    rw [if_neg hn] at ho
    simp only [Op.inn] at hi
    simp only [Op.begin, startHaloUpdate]
    rw [if_neg hn]
    have h1 := Does.isendHalos (s := { s with lastTag := s.lastTag + 1 }) (tag := s.lastTag) ho
    have h2 := Does.irecvHalos (s := { s with lastTag := s.lastTag + 1 }) (tag := s.lastTag) hi
    have h3 : Does (do
        let tag ← FV3.getHaloTag
        let sends ← FV3.isendHalos l r q n tag
        let recvs ← FV3.irecvHalos l r q n tag
        return (⟨sends, recvs⟩ : Request)) s _ _ _ :=
      Does.bind0 (Does.getHaloTag s)
        (h1.bind (Does.bindPure h2 (f := fun recvs => Request.mk _ recvs)))
    exact h3.cast (by simp) rfl rfl
  | vector x y n =>
    simp only [Op.out] at ho
    by_cases hn : n = 0
    · rw [if_pos hn] at ho; exact absurd ho (by simp)
    rw [if_neg hn] at ho
    simp only [Op.inn, vectorIn] at hi
    obtain ⟨i1, hi1, hi⟩ := bind_ok hi
    obtain ⟨i2, hi2, hi⟩ := bind_ok hi
    have hi := pure_ok hi
    subst hi
    simp only [Op.begin, startVectorHaloUpdate]
    rw [if_neg hn]
    have h1 := Does.isendVectorHalos (s := { s with lastTag := s.lastTag + 1 + 1 })
      (tag := s.lastTag) ho
    have h2 := Does.irecvHalos (s := { s with lastTag := s.lastTag + 1 + 1 }) (tag := s.lastTag) hi1
    have h2' := Does.irecvHalos (s := { s with lastTag := s.lastTag + 1 + 1 }) (tag := s.lastTag) hi2
    have h3 : Does (do
        let tag1 ← FV3.getHaloTag
        let tag2 ← FV3.getHaloTag
        let sends ← FV3.isendVectorHalos l r x y n tag1 tag2
        let r1 ← FV3.irecvHalos l r x n tag1
        let r2 ← FV3.irecvHalos l r y n tag2
        return (⟨sends, r1 ++ r2⟩ : Request)) s _ _ _ :=
      Does.bind0 (Does.getHaloTag s) (Does.bind0 (Does.getHaloTag _)
      (h1.bind (Does.bind0 h2 (Does.bindPure h2' (f := fun r2 => Request.mk _ (_ ++ r2))))))
    exact h3.cast (by simp) (by simp [recvReqs]) rfl
  | sync x y =>
    simp only [Op.out] at ho
    by_cases hn : onCGrid (s.mem x).dims (s.mem y).dims = false
    · rw [if_pos hn] at ho; exact absurd ho (by simp)
    rw [if_neg hn] at ho
    simp only [Op.inn] at hi
    simp only [Op.begin]
    have h1 := Does.isendSharedBoundary (s := { s with lastTag := s.lastTag + 1 }) (tag := s.lastTag) ho
    have h2 := Does.irecvSharedBoundary (s := { s with lastTag := s.lastTag + 1 }) (tag := s.lastTag) hi
    have h3 : Does (do
        let tag ← FV3.getHaloTag
        let sends ← FV3.isendSharedBoundary l r x y tag
        let recvs ← FV3.irecvSharedBoundary l r x y tag
        return (⟨sends, recvs⟩ : Request)) s _ _ _ :=
      Does.bind0 (Does.getHaloTag s)
        (h1.bind (Does.bindPure h2 (f := fun recvs => Request.mk _ recvs)))
    unfold startSynchronize
    refine Does.bind0 (Does.quantity x s) (Does.bind0 (Does.quantity y s) ?_)
    rw [if_neg hn]
    exact h3.cast (by simp) rfl rfl
  | wait i => simp [Op.isStart] at hs
  | compute f => simp [Op.isStart] at hs

theorem Does.start [Neg α] {l : Layout} {r : Int} {op : Op α} {s : RankState α}
    {o : List (Outgoing α)} {i : List Incoming} (hs : op.isStart = true)
    (ho : op.out l r s.mem = .ok o) (hi : op.inn l r s.mem = .ok i) :
    Does (op.exec l r) s (sendActs s.lastTag o) () (s.started op.nTags o i) := by
  rw [Op.exec_begin hs]
  exact (Does.bind (f := FV3.pushReq) (Does.begin hs ho hi) (Does.pushReq _ _)).cast (by simp) rfl rfl

/-- The receives of an update, with the arrays received. -/
def recvActs (tag : Nat) (arr : Int → Nat → Option (NDArray α)) (i : List Incoming) :
    List (Act (Msg α)) :=
  i.filterMap fun x => (arr x.src x.off).map fun a => .recv x.src (.halo (tag + 1 + x.off)) (.data a)

def awaitActs (tag : Nat) (o : List (Outgoing α)) : List (Act (Msg α)) :=
  o.map fun x => .await x.dst (.halo (tag + 1 + x.off))

theorem Does.recvs {arr : Int → Nat → Option (NDArray α)} {i : List Incoming} {s : RankState α}
    {mem : Mem α} (tag : Nat) (h : deliver arr i s.mem = .ok mem) :
    ∃ us, Does (CommM.forEach FV3.recvInto (recvReqs tag i)) s (recvActs tag arr i) us { s with mem := mem } := by
  induction i generalizing s with
  | nil =>
    simp only [deliver, Except.ok.injEq] at h
    subst h
    exact ⟨[], Does.pure s []⟩
  | cons x i ih =>
    simp only [deliver] at h
    cases ha : arr x.src x.off with
    | none => rw [ha] at h; exact absurd h (by simp)
    | some a =>
      rw [ha] at h
      obtain ⟨mem', h1, h2⟩ := bind_ok h
      obtain ⟨us, h3⟩ := ih (s := { s with mem := mem' }) h2
      refine ⟨() :: us, ?_⟩
      have h4 : Does (FV3.recvInto (⟨x.src, tag + 1 + x.off, x.q, x.ix⟩ : RecvReq)) s
          [.recv x.src (.halo (tag + 1 + x.off)) (.data a)] () { s with mem := mem' } :=
        Does.recvInto h1
      refine (h4.bind (Does.bindPure (f := fun bs => () :: bs) h3)).cast ?_ rfl rfl
      simp [recvActs, ha]

theorem Does.awaits (tag : Nat) (o : List (Outgoing α)) (s : RankState α) :
    ∃ us, Does (CommM.forEach FV3.awaitSend (sendReqs tag o)) s (awaitActs tag o) us s := by
  induction o with
  | nil => exact ⟨[], Does.pure s []⟩
  | cons x o ih =>
    obtain ⟨us, h⟩ := ih
    exact ⟨() :: us, (Does.awaitSend x.dst (tag + 1 + x.off) s).bind
      (Does.bindPure (f := fun bs => () :: bs) h)⟩

theorem Does.wait {arr : Int → Nat → Option (NDArray α)} {i : List Incoming} {o : List (Outgoing α)}
    {s : RankState α} {mem : Mem α} (tag : Nat) (h : deliver arr i s.mem = .ok mem) :
    Does (waitRequest ⟨sendReqs tag o, recvReqs tag i⟩) s (recvActs tag arr i ++ awaitActs tag o) ()
      { s with mem := mem } := by
  obtain ⟨us, h1⟩ := Does.recvs tag h
  obtain ⟨vs, h2⟩ := Does.awaits tag o { s with mem := mem }
  unfold waitRequest
  exact h1.bind (h2.bindPure (f := fun _ => ()))

end FV3
