import Verif.Proofs.HaloTags

/-!
# A call does the same with every tag counter
-/

namespace FV3
variable {α A B M R R' S S' : Type}

/-- The tag in a communicator whose tag counter is `k` ahead. -/
def Tag.shift (k : Nat) : Tag → Tag
  | .halo n => .halo (n + k)
  | .coll n => .coll n
  | .tile t n => .tile t n

theorem Tag.shift_inj {k : Nat} {t t' : Tag} (h : t.shift k = t'.shift k) : t = t' := by
  cases t <;> cases t' <;> simp [Tag.shift] at h
  · rw [h]
  · rw [h]
  · rw [h.1, h.2]

/-- The same program, with shifted tags. -/
inductive Proc.Sim (k : Nat) (Q : R → R' → Prop) : Proc M R → Proc M R' → Prop
  | ret {x : R} {y : R'} (h : Q x y) : Sim k Q (.ret x) (.ret y)
  | isend {d : Int} {t : Tag} {m : M} {f : Nat → Proc M R} {g : Nat → Proc M R'} (h : ∀ i, Sim k Q (f i) (g i)) :
      Sim k Q (.isend d t m f) (.isend d (t.shift k) m g)
  | recv {s : Int} {t : Tag} {f : M → Proc M R} {g : M → Proc M R'} (h : ∀ i, Sim k Q (f i) (g i)) :
      Sim k Q (.recv s t f) (.recv s (t.shift k) g)
  | await {d : Int} {t : Tag} {i : Nat} {f : Unit → Proc M R} {g : Unit → Proc M R'} (h : ∀ u, Sim k Q (f u) (g u)) :
      Sim k Q (.await d t i f) (.await d (t.shift k) i g)

theorem Proc.Sim.bind {k : Nat} {Q : R → R' → Prop} {Q' : S → S' → Prop} {p : Proc M R} {p' : Proc M R'}
    {f : R → Proc M S} {f' : R' → Proc M S'} (h : Proc.Sim k Q p p') (hf : ∀ x y, Q x y → Proc.Sim k Q' (f x) (f' y)) :
    Proc.Sim k Q' (p.bind f) (p'.bind f') := by
  induction h with
  | ret h => exact hf _ _ h
  | isend _ ih => exact .isend ih
  | recv _ ih => exact .recv ih
  | await _ ih => exact .await ih

/-- The networks are in the same state, up to the tags. -/
structure Net.Shifted (k : Nat) (Q : Int → R → R' → Prop) (N : Net M R) (N' : Net M R') : Prop where
  procs : ∀ r, Proc.Sim k (Q r) (N.procs r) (N'.procs r)
  sent : ∀ s d t, N'.sent s d (t.shift k) = N.sent s d t
  rcvd : ∀ s d t, N'.rcvd s d (t.shift k) = N.rcvd s d t

theorem updCh_shift {C : Type} {k : Nat} {f f' : Int → Int → Tag → C} (h : ∀ s d t, f' s d (t.shift k) = f s d t)
    (s d : Int) (t : Tag) (v : C) (a b : Int) (u : Tag) :
    updCh f' s d (t.shift k) v a b (u.shift k) = updCh f s d t v a b u := by
  unfold updCh
  by_cases e : a = s ∧ b = d ∧ u = t
  · obtain ⟨rfl, rfl, rfl⟩ := e
    simp
  · rw [if_neg e, if_neg (fun e' => e ⟨e'.1, e'.2.1, Tag.shift_inj e'.2.2⟩), h]

theorem Net.Shifted.step {k : Nat} {Q : Int → R → R' → Prop} {N T : Net M R} {N' : Net M R'} (h : Net.Shifted k Q N N')
    {buf : Buffering} {r : Int} (hs : N.step (fun a b t i => buf a b (t.shift k) i) r = some T) :
    ∃ T', N'.step buf r = some T' ∧ Net.Shifted k Q T T' := by
  have upd : ∀ {p : Proc M R} {p' : Proc M R'}, Proc.Sim k (Q r) p p' → ∀ r',
      Proc.Sim k (Q r') (updRank N.procs r p r') (updRank N'.procs r p' r') := by
    intro p p' hp r'
    unfold updRank
    split
    · next e => rw [e]; exact hp
    · exact h.procs r'
  unfold Net.step at hs ⊢
  have hr := h.procs r
  generalize hp : N.procs r = p at hr
  generalize hp' : N'.procs r = p' at hr
  rw [hp] at hs
  cases hr with
  | ret _ => cases hs
  | @isend d t m f g hf =>
    simp only [Option.some.injEq] at hs
    subst hs
    refine ⟨_, rfl, upd ?_, ?_, h.rcvd⟩
    · rw [h.sent]
      exact hf _
    · intro a b u
      dsimp only
      rw [h.sent]
      exact updCh_shift h.sent _ _ _ _ _ _ _
  | @recv s t f g hf =>
    dsimp only at hs ⊢
    rw [h.sent, h.rcvd]
    cases hm : (N.sent s r t)[N.rcvd s r t]? with
    | none => rw [hm] at hs; cases hs
    | some m =>
      rw [hm] at hs
      simp only [Option.some.injEq] at hs
      subst hs
      exact ⟨_, rfl, upd (hf _), h.sent, fun a b u => updCh_shift h.rcvd _ _ _ _ _ _ _⟩
  | @await d t i f g hf =>
    dsimp only at hs ⊢
    rw [h.rcvd]
    split at hs
    · next hc =>
      rw [if_pos hc]
      simp only [Option.some.injEq] at hs
      subst hs
      exact ⟨_, rfl, upd (hf _), h.sent, h.rcvd⟩
    · cases hs

theorem Net.Shifted.run {k : Nat} {Q : Int → R → R' → Prop} {sched : List Int} {N T : Net M R} {N' : Net M R'}
    (h : Net.Shifted k Q N N') {buf : Buffering} (hs : N.run (fun a b t i => buf a b (t.shift k) i) sched = some T) :
    ∃ T', N'.run buf sched = some T' ∧ Net.Shifted k Q T T' := by
  induction sched generalizing N N' with
  | nil =>
    simp only [Net.run, Option.some.injEq] at hs
    subst hs
    exact ⟨N', rfl, h⟩
  | cons r sched ih =>
    unfold Net.run at hs ⊢
    cases h1 : N.step (fun a b t i => buf a b (t.shift k) i) r with
    | none => rw [h1] at hs; cases hs
    | some N1 =>
      rw [h1] at hs
      obtain ⟨N1', a1, a2⟩ := h.step h1
      obtain ⟨T', b1, b2⟩ := ih a2 hs
      exact ⟨T', by rw [a1]; exact b1, b2⟩

/-- What completes also completes with shifted tags. -/
theorem Net.Completes.shift {k : Nat} {Q : Int → R → R' → Prop} {procs : Int → Proc M R} {procs' : Int → Proc M R'}
    (hp : ∀ r, Proc.Sim k (Q r) (procs r) (procs' r)) {buf : Buffering} {res : Int → R} {res' : Int → R'}
    (hq : ∀ r y, Q r (res r) y → y = res' r)
    (h : (Net.start procs).Completes (fun a b t i => buf a b (t.shift k) i) res) : (Net.start procs').Completes buf res' := by
  obtain ⟨sched, T, h1, h2⟩ := h.run
  obtain ⟨T', h3, h4⟩ := Net.Shifted.run (N := Net.start procs) (N' := Net.start procs') (Q := Q)
    ⟨hp, fun _ _ _ => rfl, fun _ _ _ => rfl⟩ h1
  refine Net.completes_of_run h3 fun r => ?_
  have := h4.procs r
  rw [h2 r] at this
  generalize T'.procs r = p at this
  cases this with
  | ret hh => rw [hq r _ hh]

/-! ### The calls -/

/-- The same state with a tag counter that is `k` ahead. -/
def RankState.Ahead (k : Nat) (s s' : RankState α) : Prop :=
  s' = { s with lastTag := s.lastTag + k }

/-- Related results, or the same exception. -/
def SameOutcome (RA : A → B → Prop) : Py A → Py B → Prop
  | .ok a, .ok b => RA a b
  | .error e, .error e' => e = e'
  | _, _ => False

/-- The programs do the same, with tags that are `k` apart. -/
def CommM.Sims (k : Nat) (RA : A → B → Prop) (c : CommM α A) (c' : CommM α B) : Prop :=
  ∀ s, Proc.Sim k (fun x y => SameOutcome RA x.1 y.1 ∧ y.2 = { x.2 with lastTag := x.2.lastTag + k }) (c s)
    (c' { s with lastTag := s.lastTag + k })

namespace CommM.Sims
variable {k : Nat} {A' B' : Type} {RA : A → A' → Prop} {RB : B → B' → Prop}

theorem bind {c : CommM α A} {c' : CommM α A'} {f : A → CommM α B} {f' : A' → CommM α B'} (hc : c.Sims k RA c')
    (hf : ∀ a a', RA a a' → (f a).Sims k RB (f' a')) : (c >>= f).Sims k RB (c' >>= f') := by
  intro s
  refine Proc.Sim.bind (hc s) ?_
  rintro ⟨a | a, s1⟩ ⟨b | b, s2⟩ ⟨h1, h2⟩ <;> simp only [SameOutcome] at h1 h2
  · subst h1 h2
    exact .ret ⟨rfl, rfl⟩
  · subst h2
    exact hf a b h1 s1

theorem pure {a : A} {a' : A'} (h : RA a a') : (Pure.pure a : CommM α A).Sims k RA (Pure.pure a') :=
  fun _ => .ret ⟨h, rfl⟩

theorem lift (x : Py A) : (CommM.lift x : CommM α A).Sims k (· = ·) (CommM.lift x) := by
  intro s
  refine .ret ⟨?_, rfl⟩
  cases x <;> rfl

theorem raise (e : PyErr) : (CommM.raise e : CommM α A).Sims k RA (CommM.raise e : CommM α A') :=
  fun _ => .ret ⟨rfl, rfl⟩

theorem quantity (q : Nat) : (CommM.quantity q : CommM α _).Sims k (· = ·) (CommM.quantity q) :=
  fun _ => .ret ⟨rfl, rfl⟩

theorem getTag : (getHaloTag : CommM α Nat).Sims k (fun t t' => t' = t + k) getHaloTag := by
  intro s
  refine .ret ⟨?_, ?_⟩
  · show s.lastTag + k + 1 = s.lastTag + 1 + k
    omega
  · show (⟨_, _, _⟩ : RankState α) = ⟨_, _, _⟩
    congr 1
    show s.lastTag + k + 1 = s.lastTag + 1 + k
    omega

theorem isend (dst : Int) {tag tag' : Nat} (h : tag' = tag + k) (a : NDArray α) :
    (FV3.isend dst tag a).Sims k (fun r r' => r' = { r with tag := r.tag + k }) (FV3.isend dst tag' a) := by
  subst h
  exact fun s => .isend (t := .halo tag) fun i => .ret ⟨rfl, rfl⟩

theorem recvInto {rq rq' : RecvReq} (h : rq' = { rq with tag := rq.tag + k }) :
    (FV3.recvInto rq : CommM α Unit).Sims k (· = ·) (FV3.recvInto rq') := by
  subst h
  intro s
  refine .recv (t := .halo rq.tag) fun m => ?_
  cases m with
  | data a =>
    dsimp only
    cases storeInto s.mem rq.q rq.ix a with
    | ok mem => exact .ret ⟨rfl, rfl⟩
    | error e => exact .ret ⟨rfl, rfl⟩
  | _ => exact .ret ⟨rfl, rfl⟩

theorem awaitSend {sr sr' : SendReq} (h : sr' = { sr with tag := sr.tag + k }) :
    (FV3.awaitSend sr : CommM α Unit).Sims k (· = ·) (FV3.awaitSend sr') := by
  subst h
  exact fun s => .await (t := .halo sr.tag) fun _ => .ret ⟨rfl, rfl⟩

theorem forEach {f : A → CommM α B} {f' : A' → CommM α B'} {as : List A} {as' : List A'} (h : List.Forall₂ RA as as')
    (hf : ∀ a a', RA a a' → (f a).Sims k RB (f' a')) :
    (CommM.forEach f as).Sims k (List.Forall₂ RB) (CommM.forEach f' as') := by
  induction h with
  | nil => exact pure .nil
  | cons ha _ ih => exact (hf _ _ ha).bind fun b b' hb => ih.bind fun bs bs' hbs => pure (.cons hb hbs)

theorem forEach_same {f f' : A → CommM α B} (as : List A) {RB : B → B → Prop} (hf : ∀ a, (f a).Sims k RB (f' a)) :
    (CommM.forEach f as).Sims k (List.Forall₂ RB) (CommM.forEach f' as) :=
  forEach (RA := (· = ·)) (List.forall₂_refl as) fun a a' e => by subst e; exact hf a

/-- The same request, with shifted tags. -/
structure ReqAhead (k : Nat) (r r' : Request) : Prop where
  sends : List.Forall₂ (fun (s s' : SendReq) => s' = { s with tag := s.tag + k }) r.sends r'.sends
  recvs : List.Forall₂ (fun (s s' : RecvReq) => s' = { s with tag := s.tag + k }) r.recvs r'.recvs

theorem waitRequest {req req' : Request} (h : ReqAhead k req req') :
    (FV3.waitRequest req : CommM α Unit).Sims k (· = ·) (FV3.waitRequest req') :=
  (forEach h.recvs fun _ _ => recvInto).bind fun _ _ _ => (forEach h.sends fun _ _ => awaitSend).bind fun _ _ _ => pure rfl

theorem irecvHalos (l : Layout) (r : Int) (q : Nat) (h : Int) {tag tag' : Nat} (ht : tag' = tag + k) :
    (FV3.irecvHalos l r q h tag : CommM α _).Sims k
      (List.Forall₂ (fun (s s' : RecvReq) => s' = { s with tag := s.tag + k })) (FV3.irecvHalos l r q h tag') := by
  subst ht
  refine (lift _).bind fun bs _ e => ?_
  subst e
  refine forEach_same bs fun b => (quantity q).bind fun v _ e => ?_
  subst e
  refine (lift _).bind fun ix _ e => ?_
  subst e
  exact pure rfl

theorem haloUpdate (l : Layout) (r : Int) (q : Nat) (h : Int) :
    (FV3.haloUpdate l r q h : CommM α Unit).Sims k (· = ·) (FV3.haloUpdate l r q h) := by
  refine CommM.Sims.bind (RA := ReqAhead k) ?_ fun _ _ => waitRequest
  unfold startHaloUpdate
  split
  · exact raise _
  · refine getTag.bind fun t t' ht => ?_
    refine CommM.Sims.bind (RA := List.Forall₂ fun (s s' : SendReq) => s' = { s with tag := s.tag + k }) ?_
      fun ss ss' hss => (irecvHalos l r q h ht).bind fun rs rs' hrs => pure ⟨hss, hrs⟩
    refine (lift _).bind fun bs _ e => ?_
    subst e
    refine forEach_same bs fun b => (quantity q).bind fun v _ e => ?_
    subst e
    refine (lift _).bind fun d _ e => ?_
    subst e
    refine (lift _).bind fun d _ e => ?_
    subst e
    exact isend _ ht _

variable [Neg α]

theorem vectorHaloUpdate (l : Layout) (r : Int) (x y : Nat) (h : Int) :
    (FV3.vectorHaloUpdate l r x y h : CommM α Unit).Sims k (· = ·) (FV3.vectorHaloUpdate l r x y h) := by
  refine CommM.Sims.bind (RA := ReqAhead k) ?_ fun _ _ => waitRequest
  unfold startVectorHaloUpdate
  split
  · exact raise _
  · refine getTag.bind fun t t' ht => getTag.bind fun u u' hu => ?_
    refine CommM.Sims.bind (RA := List.Forall₂ fun (s s' : SendReq) => s' = { s with tag := s.tag + k }) ?_
      fun ss ss' hss => (irecvHalos l r x h ht).bind fun rs rs' hrs => (irecvHalos l r y h hu).bind fun rs1 rs1' hrs1 =>
        pure ⟨hss, List.rel_append hrs hrs1⟩
    refine (lift _).bind fun bs _ e => ?_
    subst e
    refine CommM.Sims.bind (RA := List.Forall₂ (List.Forall₂ fun (s s' : SendReq) => s' = { s with tag := s.tag + k }))
      ?_ fun ss ss' hss => pure (List.rel_flatten hss)
    refine forEach_same bs fun b => (quantity x).bind fun v _ e => ?_
    subst e
    refine (quantity y).bind fun v' _ e => ?_
    subst e
    refine (lift _).bind fun d _ e => ?_
    subst e
    refine (lift _).bind fun d _ e => ?_
    subst e
    refine (lift _).bind fun d _ e => ?_
    subst e
    exact (isend _ ht _).bind fun s s' hs => (isend _ hu _).bind fun s1 s1' hs1 => pure (.cons hs (.cons hs1 .nil))

theorem synchronize (l : Layout) (r : Int) (x y : Nat) :
    (FV3.synchronize l r x y : CommM α Unit).Sims k (· = ·) (FV3.synchronize l r x y) := by
  refine CommM.Sims.bind (RA := ReqAhead k) ?_ fun _ _ => waitRequest
  refine (quantity x).bind fun v _ e => ?_
  subst e
  refine (quantity y).bind fun v' _ e => ?_
  subst e
  split
  · exact raise _
  · refine getTag.bind fun t t' ht => ?_
    refine CommM.Sims.bind (RA := List.Forall₂ fun (s s' : SendReq) => s' = { s with tag := s.tag + k }) ?_
      fun ss ss' hss => CommM.Sims.bind
        (RA := List.Forall₂ fun (s s' : RecvReq) => s' = { s with tag := s.tag + k }) ?_ fun rs rs' hrs => pure ⟨hss, hrs⟩
    · refine (lift _).bind fun a _ e => ?_
      subst e
      refine (lift _).bind fun b _ e => ?_
      subst e
      refine (quantity x).bind fun c _ e => ?_
      subst e
      refine (quantity y).bind fun d _ e => ?_
      subst e
      refine (lift _).bind fun f _ e => ?_
      subst e
      refine (lift _).bind fun g _ e => ?_
      subst e
      exact (isend _ ht _).bind fun s s' hs => (isend _ ht _).bind fun s1 s1' hs1 => pure (.cons hs (.cons hs1 .nil))
    · refine (lift _).bind fun a _ e => ?_
      subst e
      refine (lift _).bind fun b _ e => ?_
      subst e
      refine (quantity x).bind fun c _ e => ?_
      subst e
      refine (quantity y).bind fun d _ e => ?_
      subst e
      refine (lift _).bind fun f _ e => ?_
      subst e
      refine (lift _).bind fun g _ e => ?_
      subst e
      subst ht
      exact pure (.cons rfl (.cons rfl .nil))

theorem exec (l : Layout) (r : Int) (c : Call α) : (c.exec l r).Sims k (· = ·) (c.exec l r) := by
  cases c with
  | haloUpdate q h => exact haloUpdate l r q h
  | vectorHaloUpdate x y h => exact vectorHaloUpdate l r x y h
  | synchronize x y => exact synchronize l r x y
  | compute f => exact fun s => .ret ⟨rfl, rfl⟩

end CommM.Sims

/-- A call which is sound works with every tag counter. -/
theorem call_at [Neg α] {l : Layout} {Good : Int → Mem α → Prop} (buf : Buffering) (k : Nat) {c : Call α}
    {m : Int → Mem α} (hg : ∀ r ∈ allRanks l, Good r (m r)) (hs : ∀ op, c.start = some op → StartSound l Good op)
    (hc : ∀ f, c = .compute f → ∀ r ∈ allRanks l, ∀ m, Good r m → Good r (f r m)) :
    ∃ m' : Int → Mem α, CallStep l c m m' ∧ (∀ r ∈ allRanks l, Good r (m' r)) ∧
      (Net.start fun r => if r ∈ allRanks l then c.exec l r ⟨m r, k, []⟩ else .ret (.ok (), ⟨m r, 0, []⟩)).Completes buf
        fun r => (.ok (), ⟨m' r, if r ∈ allRanks l then k + c.nTags else 0, []⟩) := by
  obtain ⟨m', h1, h2, h3⟩ := call_from (hist := []) (fun a b t i => buf a b (t.shift k) i) hg
    (fun c' hc' op ho => by
      rw [List.nil_append, List.mem_singleton] at hc'
      subst hc'
      exact hs op ho)
    (fun f hf r hr m hm => by
      rw [List.nil_append, List.mem_singleton] at hf
      exact hc f hf.symm r hr m hm)
  refine ⟨m', h1, h2, ?_⟩
  refine Net.Completes.shift (Q := fun r x y => SameOutcome (@Eq Unit) x.1 y.1 ∧
    y.2 = { x.2 with lastTag := if r ∈ allRanks l then x.2.lastTag + k else x.2.lastTag }) (fun r => ?_) ?_ h3
  · by_cases hr : r ∈ allRanks l
    · simp only [if_pos hr]
      have := CommM.Sims.exec (k := k) l r c ⟨m r, 0, []⟩
      rw [show ((0 : Nat) + k) = k by omega] at this
      exact this
    · simp only [if_neg hr]
      exact .ret ⟨rfl, rfl⟩
  · rintro r ⟨a | a, y⟩ ⟨h, h'⟩
    · exact absurd h id
    · simp only at h'
      subst h'
      by_cases hr : r ∈ allRanks l
      · simp only [if_pos hr]
        congr 2
        simp
        omega
      · simp only [if_neg hr]

end FV3
