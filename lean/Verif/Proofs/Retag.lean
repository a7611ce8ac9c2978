import Verif.Proofs.CollSpec
import Verif.Proofs.AsyncRun
import Verif.Spec.Errors

/-!
# The same program with other message tags
-/

namespace FV3
variable {α A B : Type}

section
variable {M R S R' S' : Type}

/-- The two programs do the same, the second one with the tag `f t` in the place of `t`. -/
inductive Proc.Mirror (f : Tag → Tag) (Q : R → R' → Prop) : Proc M R → Proc M R' → Prop
  | ret {x : R} {y : R'} (h : Q x y) : Mirror f Q (.ret x) (.ret y)
  | isend {d : Int} {t : Tag} {m : M} {k : Nat → Proc M R} {k' : Nat → Proc M R'} (h : ∀ i, Mirror f Q (k i) (k' i)) :
      Mirror f Q (.isend d t m k) (.isend d (f t) m k')
  | recv {s : Int} {t : Tag} {k : M → Proc M R} {k' : M → Proc M R'} (h : ∀ m, Mirror f Q (k m) (k' m)) :
      Mirror f Q (.recv s t k) (.recv s (f t) k')
  | await {d : Int} {t : Tag} {i : Nat} {k : Unit → Proc M R} {k' : Unit → Proc M R'}
      (h : ∀ u, Mirror f Q (k u) (k' u)) : Mirror f Q (.await d t i k) (.await d (f t) i k')

theorem Proc.Mirror.bind {f : Tag → Tag} {Q : R → R' → Prop} {Q' : S → S' → Prop} {p : Proc M R} {p' : Proc M R'}
    (h : p.Mirror f Q p') {g : R → Proc M S} {g' : R' → Proc M S'} (hg : ∀ x y, Q x y → (g x).Mirror f Q' (g' y)) :
    (p.bind g).Mirror f Q' (p'.bind g') := by
  induction h with
  | ret h => exact hg _ _ h
  | isend _ ih => exact .isend ih
  | recv _ ih => exact .recv ih
  | await _ ih => exact .await ih

theorem Proc.Mirror.mono {f : Tag → Tag} {Q Q' : R → R' → Prop} {p : Proc M R} {p' : Proc M R'}
    (h : p.Mirror f Q p') (hq : ∀ x y, Q x y → Q' x y) : p.Mirror f Q' p' := by
  induction h with
  | ret h => exact .ret (hq _ _ h)
  | isend _ ih => exact .isend ih
  | recv _ ih => exact .recv ih
  | await _ ih => exact .await ih

/-- A program that only uses tags which are not replaced. -/
theorem Proc.Spec.mirror {f : Tag → Tag} {A : Tag → Prop} {Q : R → Prop} {p : Proc M R} (h : p.Spec A Q)
    (hf : ∀ t, A t → f t = t) : p.Mirror f (fun x y => y = x) p := by
  induction p with
  | ret x => exact .ret rfl
  | isend d t m k ih =>
    have := Proc.Mirror.isend (f := f) (d := d) (t := t) (m := m) fun i => ih i (h.2 i)
    rwa [hf t h.1] at this
  | recv s t k ih =>
    have := Proc.Mirror.recv (f := f) (s := s) (t := t) fun i => ih i (h.2 i)
    rwa [hf t h.1] at this
  | await d t i k ih =>
    have := Proc.Mirror.await (f := f) (d := d) (t := t) (i := i) fun u => ih u (h.2 u)
    rwa [hf t h.1] at this

/-- The networks `N` and `N'` are the same, up to the tags. -/
structure Net.Mirror (f : Tag → Tag) (Q : Int → R → R' → Prop) (N : Net M R) (N' : Net M R') : Prop where
  procs : ∀ r, (N.procs r).Mirror f (Q r) (N'.procs r)
  sent : ∀ a b t, N'.sent a b (f t) = N.sent a b t
  rcvd : ∀ a b t, N'.rcvd a b (f t) = N.rcvd a b t

theorem updCh_mirror {X : Type} {f : Tag → Tag} (hf : Function.Injective f) {g g' : Int → Int → Tag → X}
    (h : ∀ a b t, g' a b (f t) = g a b t) (a b : Int) (t : Tag) (v : X) (a' b' : Int) (t' : Tag) :
    updCh g' a b (f t) v a' b' (f t') = updCh g a b t v a' b' t' := by
  unfold updCh
  by_cases e : a' = a ∧ b' = b ∧ t' = t
  · rw [if_pos e, if_pos ⟨e.1, e.2.1, by rw [e.2.2]⟩]
  · rw [if_neg e, if_neg fun e' => e ⟨e'.1, e'.2.1, hf e'.2.2⟩, h]

theorem updRank_mirror {f : Tag → Tag} {Q : Int → R → R' → Prop} {g : Int → Proc M R} {g' : Int → Proc M R'}
    (h : ∀ r, (g r).Mirror f (Q r) (g' r)) {r : Int} {p : Proc M R} {p' : Proc M R'} (hp : p.Mirror f (Q r) p') (r' : Int) :
    (updRank g r p r').Mirror f (Q r') (updRank g' r p' r') := by
  unfold updRank
  by_cases e : r' = r
  · rw [if_pos e, if_pos e, e]
    exact hp
  · rw [if_neg e, if_neg e]
    exact h r'

theorem Net.Mirror.step {buf : Buffering} {f : Tag → Tag} (hf : Function.Injective f) {Q : Int → R → R' → Prop}
    {N : Net M R} {N' : Net M R'} (h : N.Mirror f Q N') {r : Int} {N1 : Net M R}
    (hs : N.step (fun a b t i => buf a b (f t) i) r = some N1) :
    ∃ N1', N'.step buf r = some N1' ∧ N1.Mirror f Q N1' := by
  have hp := h.procs r
  unfold Net.step at hs ⊢
  generalize hp1 : N.procs r = p at hp hs
  generalize hp2 : N'.procs r = p' at hp
  cases hp with
  | ret h => cases hs
  | @isend d t m k k' hk =>
    dsimp only at hs ⊢
    cases hs
    refine ⟨_, rfl, ?_, ?_, h.rcvd⟩
    · rw [h.sent]
      exact updRank_mirror h.procs (hk _)
    · intro a b t'
      show updCh N'.sent r d (f t) (N'.sent r d (f t) ++ [m]) a b (f t') = updCh N.sent r d t (N.sent r d t ++ [m]) a b t'
      rw [h.sent]
      exact updCh_mirror hf h.sent ..
  | @recv s t k k' hk =>
    dsimp only at hs ⊢
    rw [h.sent, h.rcvd]
    cases hm : (N.sent s r t)[N.rcvd s r t]? with
    | none => rw [hm] at hs; cases hs
    | some m =>
      rw [hm] at hs
      cases hs
      refine ⟨_, rfl, ?_, h.sent, ?_⟩
      · exact updRank_mirror h.procs (hk _)
      · exact fun a b t' => updCh_mirror hf h.rcvd ..
  | @await d t i k k' hk =>
    dsimp only at hs ⊢
    rw [h.rcvd]
    split at hs
    · next hc =>
      cases hs
      rw [if_pos hc]
      exact ⟨_, rfl, updRank_mirror h.procs (hk _), h.sent, h.rcvd⟩
    · cases hs

/-- A run of the first network is one of the second, with the buffering of the tags in use. -/
theorem Net.Mirror.run {buf : Buffering} {f : Tag → Tag} (hf : Function.Injective f) {Q : Int → R → R' → Prop}
    {sched : List Int} {N T : Net M R} {N' : Net M R'} (h : N.Mirror f Q N')
    (hs : N.run (fun a b t i => buf a b (f t) i) sched = some T) :
    ∃ T', N'.run buf sched = some T' ∧ T.Mirror f Q T' := by
  induction sched generalizing N N' with
  | nil =>
    simp only [Net.run, Option.some.injEq] at hs
    subst hs
    exact ⟨N', rfl, h⟩
  | cons r sched ih =>
    unfold Net.run at hs
    cases h1 : N.step (fun a b t i => buf a b (f t) i) r with
    | none => rw [h1] at hs; cases hs
    | some N1 =>
      rw [h1] at hs
      obtain ⟨N1', a1, a2⟩ := h.step hf h1
      obtain ⟨T', b1, b2⟩ := ih a2 hs
      refine ⟨T', ?_, b2⟩
      unfold Net.run
      rw [a1]
      exact b1

/-- A rank that only sends, whatever was sent before. -/
theorem Proc.OnlySends.run_over {buf : Buffering} {A : Tag → Prop} {r : Int} {x : R} {p : Proc M R}
    (h : p.OnlySends (· = x)) (hA : p.Spec A fun _ => True) :
    ∀ N : Net M R, N.procs r = p → ∃ sched T, N.run buf sched = some T ∧ T.procs r = .ret x ∧
      (∀ r', r' ≠ r → T.procs r' = N.procs r') ∧ (∀ a b t, ¬ A t → T.sent a b t = N.sent a b t) ∧ T.rcvd = N.rcvd := by
  induction h with
  | ret h => intro N hN; exact ⟨[], N, rfl, by rw [hN, h], fun _ _ => rfl, fun _ _ _ _ => rfl, rfl⟩
  | @isend d t m k h ih =>
    intro N hN
    obtain ⟨sched, T, h1, h2, h3, h4, h5⟩ := ih (N.sent r d t).length (hA.2 _)
      ⟨updRank N.procs r (k (N.sent r d t).length), updCh N.sent r d t (N.sent r d t ++ [m]), N.rcvd⟩
      (by simp [updRank])
    refine ⟨r :: sched, T, ?_, h2, fun r' hr' => ?_, fun a b t' ht' => ?_, h5⟩
    · have hs : N.step buf r = some ⟨updRank N.procs r (k (N.sent r d t).length),
          updCh N.sent r d t (N.sent r d t ++ [m]), N.rcvd⟩ := by
        unfold Net.step
        rw [hN]
      unfold Net.run
      rw [hs]
      exact h1
    · rw [h3 r' hr']
      simp [updRank, hr']
    · rw [h4 a b t' ht']
      have : t' ≠ t := fun e => ht' (e ▸ hA.1)
      simp [updCh, this]

/-- All ranks only send, whatever was sent before. -/
theorem Net.sends_run {buf : Buffering} {A : Tag → Prop} {res : Int → R} (L : List Int) :
    ∀ N : Net M R, (∀ r, (N.procs r).OnlySends (· = res r) ∧ (N.procs r).Spec A fun _ => True) →
      ∃ sched T, N.run buf sched = some T ∧ (∀ r ∈ L, T.procs r = .ret (res r)) ∧
        (∀ r, r ∉ L → T.procs r = N.procs r) ∧ (∀ a b t, ¬ A t → T.sent a b t = N.sent a b t) ∧ T.rcvd = N.rcvd := by
  induction L with
  | nil => exact fun N _ => ⟨[], N, rfl, (fun r hr => by cases hr), fun _ _ => rfl, fun _ _ _ _ => rfl, rfl⟩
  | cons a L ih =>
    intro N hN
    obtain ⟨s1, T1, a1, a2, a3, a4, a5⟩ := (hN a).1.run_over (buf := buf) (hN a).2 N rfl
    obtain ⟨s2, T2, b1, b2, b3, b4, b5⟩ := ih T1 fun r => by
      by_cases e : r = a
      · rw [e, a2]; exact ⟨.ret rfl, trivial⟩
      · rw [a3 r e]; exact hN r
    refine ⟨s1 ++ s2, T2, by rw [Net.run_append, a1]; exact b1, fun r hr => ?_, fun r hr => ?_, fun x y t ht => ?_, ?_⟩
    · by_cases e : r ∈ L
      · exact b2 r e
      · rw [b3 r e, (List.mem_cons.1 hr).resolve_right e, a2]
    · rw [b3 r fun e => hr (List.mem_cons_of_mem _ e), a3 r fun e => hr (e ▸ List.mem_cons_self ..)]
    · rw [b4 x y t ht, a4 x y t ht]
    · rw [b5, a5]

end

/-! ### Halo tags -/

/-- Other halo tags. -/
def haloMap (σ : Nat → Nat) : Tag → Tag
  | .halo k => .halo (σ k)
  | t => t

theorem haloMap_injective {σ : Nat → Nat} (h : Function.Injective σ) : Function.Injective (haloMap σ) := by
  intro a b e
  cases a <;> cases b <;> simp only [haloMap, Tag.halo.injEq, reduceCtorEq] at e <;> first
    | exact e
    | rw [h e]

theorem haloMap_not {σ : Nat → Nat} {t : Tag} (h : NotHalo t) : haloMap σ t = t := by
  cases t with
  | halo n => exact absurd ⟨n, rfl⟩ h
  | _ => rfl

/-- The request with other tags. -/
def SendReq.retag (σ : Nat → Nat) (r : SendReq) : SendReq := { r with tag := σ r.tag }

/-- The request with other tags. -/
def RecvReq.retag (σ : Nat → Nat) (r : RecvReq) : RecvReq := { r with tag := σ r.tag }

/-- The request with other tags. -/
def Request.retag (σ : Nat → Nat) (r : Request) : Request := ⟨r.sends.map (·.retag σ), r.recvs.map (·.retag σ)⟩

/-- The state with other tags. -/
def RankState.retag (σ : Nat → Nat) (d : Nat) (s : RankState α) : RankState α :=
  ⟨s.mem, s.lastTag + d, s.reqs.map (·.retag σ)⟩

/-- What the results of two calls have to do with each other. -/
def OutMirror (σ : Nat → Nat) (d m : Nat) (QA : A → A → Prop) (x y : Py A × RankState α) : Prop :=
  y.2 = x.2.retag σ d ∧ match x.1, y.1 with
    | .ok a, .ok b => QA a b ∧ x.2.lastTag = m
    | .error e, .error e' => e' = e
    | _, _ => False

/-- Started with tag counters `n` and `n + d`, the two calls do the same, the second one with other tags, and leave the
tag counters `m` and `m + d` if they do not raise. -/
def CommM.Mirror (σ : Nat → Nat) (d n m : Nat) (QA : A → A → Prop) (c c' : CommM α A) : Prop :=
  ∀ s, s.lastTag = n → (c s).Mirror (haloMap σ) (OutMirror σ d m QA) (c' (s.retag σ d))

namespace CommM.Mirror
variable {σ : Nat → Nat} {d n m k : Nat} {QA : A → A → Prop} {QB : B → B → Prop}

theorem bind {c c' : CommM α A} {f f' : A → CommM α B} (hc : CommM.Mirror σ d n m QA c c')
    (hf : ∀ a a', QA a a' → CommM.Mirror σ d m k QB (f a) (f' a')) : CommM.Mirror σ d n k QB (c >>= f) (c' >>= f') := by
  intro s hs
  refine Proc.Mirror.bind (hc s hs) ?_
  rintro ⟨a, s1⟩ ⟨b, s2⟩ ⟨h1, h2⟩
  dsimp only at h1 h2
  subst h1
  match a, b, h2 with
  | .ok a, .ok b, h2 => exact hf a b h2.1 s1 h2.2
  | .error e, .error e', h2 => subst h2; exact .ret ⟨rfl, rfl⟩

theorem pure {a a' : A} (h : QA a a') : CommM.Mirror σ d n n QA (Pure.pure a : CommM α A) (Pure.pure a') :=
  fun _ hs => .ret ⟨rfl, h, hs⟩

theorem lift (x : Py A) : CommM.Mirror σ d n n (fun a a' => a' = a) (CommM.lift x : CommM α A) (CommM.lift x) := by
  intro s hs
  refine .ret ⟨rfl, ?_⟩
  cases x with
  | error e => exact rfl
  | ok a => exact ⟨rfl, hs⟩

theorem raise (e : PyErr) : CommM.Mirror σ d n m QA (CommM.raise e : CommM α A) (CommM.raise e) :=
  fun _ _ => .ret ⟨rfl, rfl⟩

theorem quantity (q : Nat) :
    CommM.Mirror σ d n n (fun a a' => a' = a) (CommM.quantity q : CommM α _) (CommM.quantity q) :=
  fun _ hs => .ret ⟨rfl, rfl, hs⟩

theorem getTag (h : σ (n + 1) = n + 1 + d) :
    CommM.Mirror σ d n (n + 1) (fun t t' => t' = σ t) (getHaloTag : CommM α Nat) getHaloTag := by
  intro s hs
  refine .ret ⟨?_, ?_, ?_⟩
  · show (⟨s.mem, s.lastTag + d + 1, _⟩ : RankState α) = ⟨s.mem, s.lastTag + 1 + d, _⟩
    rw [show s.lastTag + d + 1 = s.lastTag + 1 + d by omega]
    rfl
  · show s.lastTag + d + 1 = σ (s.lastTag + 1)
    rw [hs, h]
    omega
  · show s.lastTag + 1 = n + 1
    rw [hs]

theorem isend (dst : Int) (tag : Nat) (a : NDArray α) :
    CommM.Mirror σ d n n (fun r r' => r' = r.retag σ) (FV3.isend dst tag a) (FV3.isend dst (σ tag) a) :=
  fun _ hs => .isend (t := .halo tag) fun _ => .ret ⟨rfl, rfl, hs⟩

theorem recvInto (rq : RecvReq) :
    CommM.Mirror σ d n n (fun _ _ => True) (FV3.recvInto rq : CommM α Unit) (FV3.recvInto (rq.retag σ)) := by
  intro s hs
  refine .recv (t := .halo rq.tag) fun m => ?_
  cases m with
  | data a =>
    dsimp only [RankState.retag, RecvReq.retag]
    cases storeInto s.mem rq.q rq.ix a with
    | ok mem => exact .ret ⟨rfl, trivial, hs⟩
    | error e => exact .ret ⟨rfl, rfl⟩
  | _ => exact .ret ⟨rfl, rfl⟩

theorem awaitSend (sr : SendReq) :
    CommM.Mirror σ d n n (fun _ _ => True) (FV3.awaitSend sr : CommM α Unit) (FV3.awaitSend (sr.retag σ)) :=
  fun _ hs => .await (t := .halo sr.tag) fun _ => .ret ⟨rfl, trivial, hs⟩


/-- A loop; its results are related by `g`. -/
theorem forEach' {f f' : A → CommM α B} {g : B → B} (h : ∀ a, CommM.Mirror σ d n n (fun b b' => b' = g b) (f a) (f' a)) :
    ∀ as : List A, CommM.Mirror σ d n n (fun b b' => b' = b.map g) (CommM.forEach f as) (CommM.forEach f' as)
  | [] => pure rfl
  | a :: as => bind (h a) fun b b' hb => bind (forEach' h as) fun bs bs' hbs => pure (by rw [hb, hbs]; rfl)

theorem forEachMap {f f' : A → CommM α B} {g : A → A} (h : ∀ a, CommM.Mirror σ d n n (fun _ _ => True) (f a) (f' (g a))) :
    ∀ as : List A, CommM.Mirror σ d n n (fun _ _ => True) (CommM.forEach f as) (CommM.forEach f' (as.map g))
  | [] => pure trivial
  | a :: as => bind (h a) fun _ _ _ => bind (forEachMap h as) fun _ _ _ => pure trivial

theorem waitRequest (req : Request) :
    CommM.Mirror σ d n n (fun _ _ => True) (FV3.waitRequest req : CommM α Unit) (FV3.waitRequest (req.retag σ)) :=
  bind (forEachMap recvInto _) fun _ _ _ => bind (forEachMap awaitSend _) fun _ _ _ => pure trivial

theorem pushReq (req : Request) :
    CommM.Mirror σ d n n (fun _ _ => True) (FV3.pushReq req : CommM α Unit) (FV3.pushReq (req.retag σ)) := by
  intro s hs
  refine .ret ⟨?_, trivial, hs⟩
  show (⟨s.mem, s.lastTag + d, s.reqs.map (·.retag σ) ++ [req.retag σ]⟩ : RankState α) =
    ⟨s.mem, s.lastTag + d, (s.reqs ++ [req]).map (·.retag σ)⟩
  rw [List.map_append]
  rfl

/-- The results are the same. -/
theorem bindEq {c c' : CommM α A} {f f' : A → CommM α B} (hc : CommM.Mirror σ d n m (fun a a' => a' = a) c c')
    (hf : ∀ a, CommM.Mirror σ d m k QB (f a) (f' a)) : CommM.Mirror σ d n k QB (c >>= f) (c' >>= f') :=
  bind hc fun a a' e => by rw [e]; exact hf a

/-- The results are related by `g`. -/
theorem bindMap {g : A → A} {c c' : CommM α A} {f f' : A → CommM α B}
    (hc : CommM.Mirror σ d n m (fun a a' => a' = g a) c c')
    (hf : ∀ a, CommM.Mirror σ d m k QB (f a) (f' (g a))) : CommM.Mirror σ d n k QB (c >>= f) (c' >>= f') :=
  bind hc fun a a' e => by rw [e]; exact hf a

theorem isendHalos (l : Layout) (r : Int) (q : Nat) (h : Int) (tag : Nat) :
    CommM.Mirror σ d n n (fun b b' => b' = List.map (SendReq.retag σ) b) (FV3.isendHalos l r q h tag : CommM α _)
      (FV3.isendHalos l r q h (σ tag)) :=
  bindEq (lift _) fun bs => forEach' (fun _ => bindEq (quantity _) fun _ => bindEq (lift _) fun _ => bindEq (lift _) fun _ =>
    isend _ _ _) bs

theorem irecvHalos (l : Layout) (r : Int) (q : Nat) (h : Int) (tag : Nat) :
    CommM.Mirror σ d n n (fun b b' => b' = List.map (RecvReq.retag σ) b) (FV3.irecvHalos l r q h tag : CommM α _)
      (FV3.irecvHalos l r q h (σ tag)) :=
  bindEq (lift _) fun bs => forEach' (fun b => bindEq (quantity _) fun _ => bindEq (lift _) fun _ => by exact pure rfl) bs

theorem startHaloUpdate (l : Layout) (r : Int) (q : Nat) (h : Int) (hσ : σ (n + 1) = n + 1 + d) :
    CommM.Mirror σ d n (n + 1) (fun b b' => b' = b.retag σ) (FV3.startHaloUpdate l r q h : CommM α _)
      (FV3.startHaloUpdate l r q h) := by
  unfold FV3.startHaloUpdate
  split
  · exact raise _
  · exact bindMap (getTag hσ) fun t => bindMap (CommM.Mirror.isendHalos l r q h t) fun ss =>
      bindMap (CommM.Mirror.irecvHalos l r q h t) fun rs => pure rfl

variable [Neg α]

theorem isendVectorHalos (l : Layout) (r : Int) (x y : Nat) (h : Int) (t1 t2 : Nat) :
    CommM.Mirror σ d n n (fun b b' => b' = List.map (SendReq.retag σ) b) (FV3.isendVectorHalos l r x y h t1 t2 : CommM α _)
      (FV3.isendVectorHalos l r x y h (σ t1) (σ t2)) :=
  bindEq (lift _) fun bs => bindMap (g := List.map (List.map (SendReq.retag σ)))
    (forEach' (g := List.map (SendReq.retag σ)) (fun b => bindEq (quantity _) fun _ => bindEq (quantity _) fun _ =>
      bindEq (lift _) fun _ => bindEq (lift _) fun _ => bindEq (lift _) fun _ => bindMap (isend _ _ _) fun _ =>
      bindMap (isend _ _ _) fun _ => by exact pure rfl) bs) fun rs => pure List.map_flatten.symm

theorem startVectorHaloUpdate (l : Layout) (r : Int) (x y : Nat) (h : Int) (hσ : σ (n + 1) = n + 1 + d)
    (hσ' : σ (n + 2) = n + 2 + d) :
    CommM.Mirror σ d n (n + 2) (fun b b' => b' = b.retag σ) (FV3.startVectorHaloUpdate l r x y h : CommM α _)
      (FV3.startVectorHaloUpdate l r x y h) := by
  unfold FV3.startVectorHaloUpdate
  split
  · exact raise _
  · exact bindMap (getTag hσ) fun t => bindMap (getTag hσ') fun t' =>
      bindMap (CommM.Mirror.isendVectorHalos l r x y h t t') fun ss =>
      bindMap (CommM.Mirror.irecvHalos l r x h t) fun rs => bindMap (CommM.Mirror.irecvHalos l r y h t') fun rs' =>
      pure (by simp [Request.retag])

theorem startSynchronize (l : Layout) (r : Int) (x y : Nat) (hσ : σ (n + 1) = n + 1 + d) :
    CommM.Mirror σ d n (n + 1) (fun b b' => b' = b.retag σ) (FV3.startSynchronize l r x y : CommM α _)
      (FV3.startSynchronize l r x y) := by
  unfold FV3.startSynchronize
  refine bindEq (quantity _) fun _ => bindEq (quantity _) fun _ => ?_
  split
  · exact raise _
  · exact bindMap (getTag hσ) fun t => bindMap (g := List.map (SendReq.retag σ)) (m := n + 1)
      (bindEq (lift _) fun _ => bindEq (lift _) fun _ => bindEq (quantity _) fun _ => bindEq (quantity _) fun _ =>
        bindEq (lift _) fun _ => bindEq (lift _) fun _ => bindMap (isend _ _ _) fun _ => bindMap (isend _ _ _) fun _ => by exact pure rfl)
      fun ss => bindMap (g := List.map (RecvReq.retag σ)) (m := n + 1)
        (bindEq (lift _) fun _ => bindEq (lift _) fun _ => bindEq (quantity _) fun _ => bindEq (quantity _) fun _ =>
          bindEq (lift _) fun _ => bindEq (lift _) fun _ => by exact pure rfl)
        fun rs => pure rfl

/-- One operation. -/
theorem op (l : Layout) (r : Int) (o : Op α) (hσ : ∀ k, n < k → k ≤ n + o.nTags → σ k = k + d) :
    CommM.Mirror σ d n (n + o.nTags) (fun _ _ => True) (o.exec l r) (o.exec l r) := by
  cases o with
  | halo q h =>
    refine bind (startHaloUpdate l r q h (hσ _ (by omega) (by simp [Op.nTags]))) fun _ _ e => ?_
    subst e
    exact pushReq _
  | vector x y h =>
    refine bind (startVectorHaloUpdate l r x y h (hσ _ (by omega) (by simp [Op.nTags])) (hσ _ (by omega) (by simp [Op.nTags])))
      fun _ _ e => ?_
    subst e
    exact pushReq _
  | sync x y =>
    refine bind (startSynchronize l r x y (hσ _ (by omega) (by simp [Op.nTags]))) fun _ _ e => ?_
    subst e
    exact pushReq _
  | wait i =>
    refine bind (m := n) (QA := fun s s' => s' = s.retag σ d) (fun s hs => .ret ⟨rfl, rfl, hs⟩) fun s s' e => ?_
    subst e
    have : (s.retag σ d).reqs[i]? = s.reqs[i]?.map (·.retag σ) := by
      unfold RankState.retag
      simp
    rw [this]
    cases s.reqs[i]? with
    | none => exact raise _
    | some req => exact waitRequest req
  | compute f => exact fun s hs => .ret ⟨rfl, trivial, hs⟩

end CommM.Mirror

end FV3
