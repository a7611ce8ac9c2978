import Verif.Proofs.HaloTags

/-!
# Programs on channels that have been used before

A program that waits for all its sends behaves on a network where all earlier messages have been received as it does on
an empty network; only the handles of its sends are different.
-/

namespace FV3
variable {M R S A B : Type}

/-- Sends that have not been waited for: receiver, tag, handle. -/
abbrev Owed := Int × Tag × Nat → Prop

/-- The second program does what the first does, with the handles of sends moved by `off`; `L` are the sends of the
first that are still to be waited for, and the results and the sends left over are in `Q`. -/
inductive Shift (off : Int → Tag → Nat) (Q : R → R → Owed → Prop) : Proc M R → Proc M R → Owed → Prop where
  | ret {x y L} : Q x y L → Shift off Q (.ret x) (.ret y) L
  | isend {d t m k k' L} : (∀ i, Shift off Q (k i) (k' (off d t + i)) fun z => L z ∨ z = (d, t, i)) →
      Shift off Q (.isend d t m k) (.isend d t m k') L
  | recv {s t k k' L} : (∀ m, Shift off Q (k m) (k' m) L) → Shift off Q (.recv s t k) (.recv s t k') L
  | await {d t i k k' L} : (Shift off Q (k ()) (k' ()) fun z => L z ∧ z ≠ (d, t, i)) →
      Shift off Q (.await d t i k) (.await d t (off d t + i) k') L

theorem Shift.bind {off : Int → Tag → Nat} {Q : R → R → Owed → Prop} {Q' : S → S → Owed → Prop} {p p' : Proc M R}
    {L : Owed} {f f' : R → Proc M S} (h : Shift off Q p p' L)
    (hf : ∀ x y L', Q x y L' → Shift off Q' (f x) (f' y) L') : Shift off Q' (p.bind f) (p'.bind f') L := by
  induction h with
  | ret h => exact hf _ _ _ h
  | isend _ ih => exact .isend fun i => ih i
  | recv _ ih => exact .recv fun m => ih m
  | await _ ih => exact .await ih

/-- The network with `base` as the messages sent and received before. -/
structure Moved (base : Int → Int → Tag → List M) (Q : Int → R → R → Owed → Prop) (L : Int → Owed) (N N' : Net M R) :
    Prop where
  procs : ∀ r, Shift (fun d t => (base r d t).length) (Q r) (N.procs r) (N'.procs r) (L r)
  sent : ∀ s d t, N'.sent s d t = base s d t ++ N.sent s d t
  rcvd : ∀ s d t, N'.rcvd s d t = (base s d t).length + N.rcvd s d t
  owed : ∀ r d t i, i < (N.sent r d t).length → L r (d, t, i) ∨ i < N.rcvd r d t
  le : ∀ s d t, N.rcvd s d t ≤ (N.sent s d t).length

theorem Moved.step {base : Int → Int → Tag → List M} {Q : Int → R → R → Owed → Prop} {L : Int → Owed} {N N' T : Net M R}
    (buf : Buffering) (h : Moved base Q L N N') {r : Int} (hs : N.step (fun _ _ _ _ => false) r = some T) :
    ∃ L' T', N'.step buf r = some T' ∧ Moved base Q L' T T' := by
  have hq := h.procs r
  have upd : ∀ {p p' L'}, Shift (fun d t => (base r d t).length) (Q r) p p' L' → ∀ r',
      Shift (fun d t => (base r' d t).length) (Q r') (updRank N.procs r p r') (updRank N'.procs r p' r')
        (updRank L r L' r') := by
    intro p p' L' hp r'
    unfold updRank
    split
    · next e => rw [e]; exact hp
    · exact h.procs r'
  unfold Net.step at hs ⊢
  generalize hp : N.procs r = p at hq hs
  generalize hp' : N'.procs r = p' at hq
  cases hq with
  | ret _ => cases hs
  | @isend d t m k k' _ hk =>
    simp only [Option.some.injEq] at hs ⊢
    subst hs
    refine ⟨updRank L r fun z => L r z ∨ z = (d, t, (N.sent r d t).length), _, rfl, ⟨?_, ?_, h.rcvd, ?_, ?_⟩⟩
    · have e : (N'.sent r d t).length = (base r d t).length + (N.sent r d t).length := by
        rw [h.sent, List.length_append]
      rw [e]
      exact upd (hk _)
    · intro s d' t'
      dsimp only
      unfold updCh
      split
      · next e =>
        obtain ⟨rfl, rfl, rfl⟩ := e
        rw [h.sent, List.append_assoc]
      · exact h.sent _ _ _
    · intro r' d' t' i hi
      dsimp only at hi ⊢
      unfold updCh at hi
      by_cases hr : r' = r
      · subst hr
        rw [updRank_same]
        split at hi
        · next e =>
          obtain ⟨-, rfl, rfl⟩ := e
          rw [List.length_append, List.length_singleton] at hi
          by_cases e : i = (N.sent r' d' t').length
          · exact .inl (.inr (by rw [e]))
          · rcases h.owed r' d' t' i (by omega) with h1 | h1
            · exact .inl (.inl h1)
            · exact .inr h1
        · rcases h.owed r' d' t' i hi with h1 | h1
          · exact .inl (.inl h1)
          · exact .inr h1
      · rw [updRank_ne _ _ hr]
        rw [if_neg (fun e => hr e.1)] at hi
        exact h.owed r' d' t' i hi
    · intro s d' t'
      dsimp only
      have := h.le s d' t'
      unfold updCh
      split
      · next e =>
        obtain ⟨rfl, rfl, rfl⟩ := e
        rw [List.length_append]
        omega
      · exact this
  | @recv s t k k' _ hk =>
    dsimp only at hs ⊢
    have e : (N'.sent s r t)[N'.rcvd s r t]? = (N.sent s r t)[N.rcvd s r t]? := by
      rw [h.sent, h.rcvd, List.getElem?_append_right (Nat.le_add_right _ _), Nat.add_sub_cancel_left]
    rw [e]
    cases hm : (N.sent s r t)[N.rcvd s r t]? with
    | none => rw [hm] at hs; cases hs
    | some m =>
      rw [hm] at hs
      simp only [Option.some.injEq] at hs ⊢
      subst hs
      have hlt : N.rcvd s r t < (N.sent s r t).length := by
        by_contra hge
        rw [List.getElem?_eq_none (by omega)] at hm
        cases hm
      refine ⟨updRank L r (L r), _, rfl, ⟨upd (hk m), h.sent, ?_, ?_, ?_⟩⟩
      · intro s' d' t'
        dsimp only
        unfold updCh
        split
        · next e =>
          obtain ⟨rfl, rfl, rfl⟩ := e
          rw [h.rcvd]
          omega
        · exact h.rcvd _ _ _
      · intro r' d' t' i hi
        have e : updRank L r (L r) r' = L r' := by unfold updRank; split <;> simp_all
        rw [e]
        rcases h.owed r' d' t' i hi with h1 | h1
        · exact .inl h1
        · refine .inr ?_
          dsimp only
          unfold updCh
          split
          · next e =>
            obtain ⟨rfl, rfl, rfl⟩ := e
            omega
          · exact h1
      · intro s' d' t'
        have := h.le s' d' t'
        dsimp only
        unfold updCh
        split
        · next e =>
          obtain ⟨rfl, rfl, rfl⟩ := e
          exact hlt
        · exact this
  | @await d t i k k' _ hk =>
    dsimp only at hs ⊢
    split at hs
    · next hc =>
      have hc : i < N.rcvd r d t := hc.resolve_left (by simp)
      have hc' : (base r d t).length + i < N'.rcvd r d t := by rw [h.rcvd]; omega
      rw [if_pos (.inr hc')]
      simp only [Option.some.injEq] at hs ⊢
      subst hs
      refine ⟨updRank L r fun z => L r z ∧ z ≠ (d, t, i), _, rfl, ⟨upd hk, h.sent, h.rcvd, ?_, h.le⟩⟩
      intro r' d' t' i' hi
      dsimp only at hi ⊢
      rcases h.owed r' d' t' i' hi with h1 | h1
      · by_cases hr : r' = r
        · subst hr
          rw [updRank_same]
          by_cases e : (d', t', i') = (d, t, i)
          · cases e
            exact .inr hc
          · exact .inl ⟨h1, e⟩
        · rw [updRank_ne _ _ hr]
          exact .inl h1
      · exact .inr h1
    · cases hs

theorem Moved.run {base : Int → Int → Tag → List M} {Q : Int → R → R → Owed → Prop} {L : Int → Owed} {N N' T : Net M R}
    (buf : Buffering) (h : Moved base Q L N N') {sched : List Int}
    (hs : N.run (fun _ _ _ _ => false) sched = some T) :
    ∃ L' T', N'.run buf sched = some T' ∧ Moved base Q L' T T' := by
  induction sched generalizing N N' L with
  | nil =>
    simp only [Net.run, Option.some.injEq] at hs
    subst hs
    exact ⟨L, N', rfl, h⟩
  | cons r sched ih =>
    unfold Net.run at hs ⊢
    cases h1 : N.step (fun _ _ _ _ => false) r with
    | none => rw [h1] at hs; cases hs
    | some N1 =>
      rw [h1] at hs
      obtain ⟨L1, N1', a1, a2⟩ := h.step buf h1
      rw [a1]
      exact ih a2 hs

/-- All messages with these tags have been received. -/
def Net.SettledOn (A : Tag → Prop) (sent : Int → Int → Tag → List M) (rcvd : Int → Int → Tag → Nat) : Prop :=
  ∀ s d t, A t → rcvd s d t = (sent s d t).length

/-- A phase that completes on an empty network without buffering, and waits for its sends, completes on a network where
all messages have been received, and afterwards all messages have been received. -/
theorem Net.phase_settled {buf : Buffering} {procs : Int → Proc M R} {res : Int → R}
    (h : (Net.start procs).Completes (fun _ _ _ _ => false) res) {ok : R → Prop} (hok : ∀ r, ok (res r))
    {sent : Int → Int → Tag → List M} {rcvd : Int → Int → Tag → Nat} (hc : Net.SettledOn (fun _ => True) sent rcvd)
    (hsh : ∀ r, Shift (fun d t => (sent r d t).length) (fun x y L => x = y ∧ (ok x → ∀ z, ¬ L z)) (procs r) (procs r)
      fun _ => False) :
    ∃ sched T, (⟨procs, sent, rcvd⟩ : Net M R).run buf sched = some T ∧ (∀ r, T.procs r = .ret (res r)) ∧
      Net.SettledOn (fun _ => True) T.sent T.rcvd := by
  obtain ⟨sched, T, h1, h2⟩ := h.run
  have m0 : Moved sent (fun _ x y L => x = y ∧ (ok x → ∀ z, ¬ L z)) (fun _ _ => False) (Net.start procs)
      ⟨procs, sent, rcvd⟩ := by
    refine ⟨hsh, fun _ _ _ => ?_, fun s d t => ?_, fun _ _ _ i hi => ?_, fun _ _ _ => Nat.le_refl _⟩
    · exact (List.append_nil _).symm
    · exact hc s d t trivial
    · exact absurd hi (Nat.not_lt_zero _)
  obtain ⟨L, T', a1, a2⟩ := m0.run buf h1
  have key : ∀ r, T'.procs r = .ret (res r) ∧ ∀ z, ¬ L r z := by
    intro r
    have := a2.procs r
    rw [h2 r] at this
    generalize T'.procs r = p at this
    cases this with
    | ret h => exact ⟨by rw [h.1], h.2 (hok r)⟩
  refine ⟨sched, T', a1, fun r => (key r).1, fun s d t _ => ?_⟩
  rw [a2.sent, a2.rcvd, List.length_append]
  have h1 := a2.le s d t
  have h2 : (T.sent s d t).length ≤ T.rcvd s d t := by
    by_contra hlt
    rcases a2.owed s d t (T.rcvd s d t) (by omega) with h3 | h3
    · exact (key s).2 _ h3
    · omega
  omega

/-! ### The communicator calls -/

section comm
variable {α : Type} {off : Int → Tag → Nat} {L : Owed}

/-- `Shift` for communicator programs. -/
def CommM.Sh (off : Int → Tag → Nat) (L : Owed) (Q : A → A → Owed → Prop) (c c' : CommM α A) : Prop :=
  ∀ s, Shift off (fun x y L' => x.2 = y.2 ∧
    ((∃ e, x.1 = .error e ∧ y.1 = .error e) ∨ ∃ a b, x.1 = .ok a ∧ y.1 = .ok b ∧ Q a b L')) (c s) (c' s) L

/-- The same result, and no new sends. -/
def Plain (L : Owed) : A → A → Owed → Prop := fun a b L' => a = b ∧ L' = L

namespace CommM.Sh

theorem bind {Q : A → A → Owed → Prop} {Q' : B → B → Owed → Prop} {c c' : CommM α A} {f f' : A → CommM α B}
    (hc : c.Sh off L Q c') (hf : ∀ a b L', Q a b L' → (f a).Sh off L' Q' (f' b)) :
    (c >>= f).Sh off L Q' (c' >>= f') := by
  intro s
  refine Shift.bind (hc s) ?_
  rintro ⟨a, s1⟩ ⟨b, s2⟩ L' ⟨h1, h2⟩
  dsimp only at h1 h2
  subst h1
  rcases h2 with ⟨e, rfl, rfl⟩ | ⟨a, b, rfl, rfl, h⟩
  · exact .ret ⟨rfl, .inl ⟨e, rfl, rfl⟩⟩
  · exact hf a b L' h s1

/-- A first part without communication. -/
theorem plain {Q' : B → B → Owed → Prop} {c : CommM α A} {f f' : A → CommM α B}
    (hc : c.Sh off L (Plain L) c) (hf : ∀ a, (f a).Sh off L Q' (f' a)) :
    (c >>= f).Sh off L Q' (c >>= f') := by
  refine bind hc fun a b L' h => ?_
  obtain ⟨rfl, rfl⟩ := h
  exact hf a

theorem ofRet {c : CommM α A} (h : ∀ s, ∃ x, c s = .ret x) : c.Sh off L (Plain L) c := by
  intro s
  obtain ⟨⟨a | a, s'⟩, e⟩ := h s
  · rw [e]
    exact .ret ⟨rfl, .inl ⟨a, rfl, rfl⟩⟩
  · rw [e]
    exact .ret ⟨rfl, .inr ⟨a, a, rfl, rfl, rfl, rfl⟩⟩

theorem pure {Q : A → A → Owed → Prop} {a b : A} (h : Q a b L) :
    (Pure.pure a : CommM α A).Sh off L Q (Pure.pure b) :=
  fun _ => .ret ⟨rfl, .inr ⟨a, b, rfl, rfl, h⟩⟩

theorem lift (x : Py A) : (CommM.lift x : CommM α A).Sh off L (Plain L) (CommM.lift x) := ofRet fun _ => ⟨_, rfl⟩

theorem quantity (q : Nat) : (CommM.quantity q : CommM α _).Sh off L (Plain L) (CommM.quantity q) :=
  ofRet fun _ => ⟨_, rfl⟩

theorem getTag : (getHaloTag : CommM α Nat).Sh off L (Plain L) getHaloTag := ofRet fun _ => ⟨_, rfl⟩

theorem raise {Q : A → A → Owed → Prop} (e : PyErr) : (CommM.raise e : CommM α A).Sh off L Q (CommM.raise e) :=
  fun _ => .ret ⟨rfl, .inl ⟨e, rfl, rfl⟩⟩

/-- The same request, with handles moved by `off`. -/
def Same (off : Int → Tag → Nat) (a b : SendReq) : Prop :=
  b.dst = a.dst ∧ b.tag = a.tag ∧ b.idx = off a.dst (.halo a.tag) + a.idx

/-- The send of a request. -/
def key (a : SendReq) : Int × Tag × Nat := (a.dst, .halo a.tag, a.idx)

/-- New sends with corresponding requests. -/
def New (off : Int → Tag → Nat) (L : Owed) (g : B → List SendReq) : B → B → Owed → Prop := fun a b L' =>
  List.Forall₂ (Same off) (g a) (g b) ∧ ∀ z, L' z → L z ∨ ∃ x ∈ g a, z = key x

theorem isend (dst : Int) (tag : Nat) (a : NDArray α) :
    (FV3.isend dst tag a).Sh off L (New off L fun x => [x]) (FV3.isend dst tag a) := by
  intro s
  refine .isend fun i => .ret ⟨rfl, .inr ⟨_, _, rfl, rfl, .cons ⟨rfl, rfl, rfl⟩ .nil, ?_⟩⟩
  rintro z (h | h)
  · exact .inl h
  · exact .inr ⟨_, List.mem_singleton.2 rfl, h⟩

theorem recvInto (rq : RecvReq) : (FV3.recvInto rq : CommM α Unit).Sh off L (Plain L) (FV3.recvInto rq) := by
  intro s
  refine .recv fun m => ?_
  cases m with
  | data a =>
    dsimp only
    split
    · exact .ret ⟨rfl, .inr ⟨_, _, rfl, rfl, rfl, rfl⟩⟩
    · exact .ret ⟨rfl, .inl ⟨_, rfl, rfl⟩⟩
  | _ => exact .ret ⟨rfl, .inl ⟨_, rfl, rfl⟩⟩

theorem awaitSend {a b : SendReq} (h : Same off a b) : (FV3.awaitSend a : CommM α Unit).Sh off L
    (fun _ _ L' => L' = fun z => L z ∧ z ≠ key a) (FV3.awaitSend b) := by
  intro s
  obtain ⟨d, t, i⟩ := a
  obtain ⟨d', t', i'⟩ := b
  obtain ⟨h1, h2, h3⟩ := h
  dsimp only at h1 h2 h3
  subst h1 h2 h3
  exact .await (.ret ⟨rfl, .inr ⟨_, _, rfl, rfl, rfl⟩⟩)

theorem forPlain {f : A → CommM α B} : ∀ (as : List A), (∀ a ∈ as, (f a).Sh off L (Plain L) (f a)) →
    (CommM.forEach f as).Sh off L (Plain L) (CommM.forEach f as)
  | [], _ => pure ⟨rfl, rfl⟩
  | a :: as, h => plain (h a (by simp)) fun _ => plain (forPlain as fun a ha => h a (by simp [ha])) fun _ =>
      pure ⟨rfl, rfl⟩

theorem forNew {f : A → CommM α B} {g : B → List SendReq} : ∀ (as : List A) (L : Owed),
    (∀ a ∈ as, ∀ L, (f a).Sh off L (New off L g) (f a)) →
    (CommM.forEach f as).Sh off L (New off L fun bs => bs.flatMap g) (CommM.forEach f as)
  | [], _, _ => pure ⟨.nil, fun _ h => .inl h⟩
  | a :: as, L, h => by
    refine bind (h a (by simp) L) fun x y L1 h1 => bind (forNew as L1 fun a ha => h a (by simp [ha]))
      fun xs ys L2 h2 => pure ⟨?_, fun z hz => ?_⟩
    · dsimp only
      rw [List.flatMap_cons, List.flatMap_cons]
      exact List.rel_append h1.1 h2.1
    · rcases h2.2 z hz with h3 | ⟨w, h3, h4⟩
      · rcases h1.2 z h3 with h3 | ⟨w, h3, h4⟩
        · exact .inl h3
        · exact .inr ⟨w, by simp [h3], h4⟩
      · exact .inr ⟨w, by dsimp only; rw [List.flatMap_cons]; exact List.mem_append_right _ h3, h4⟩

theorem forAwait {as bs : List SendReq} (h : List.Forall₂ (Same off) as bs) : ∀ L : Owed,
    (CommM.forEach FV3.awaitSend as : CommM α (List Unit)).Sh off L
      (fun _ _ L' => ∀ z, L' z → L z ∧ ∀ a ∈ as, z ≠ key a) (CommM.forEach FV3.awaitSend bs) := by
  induction h with
  | nil => exact fun L => pure fun z hz => ⟨hz, fun a ha => absurd ha List.not_mem_nil⟩
  | cons h _ ih =>
    intro L
    refine bind (awaitSend h) fun _ _ L1 h1 => bind (ih L1) fun _ _ L2 h2 => pure fun z hz => ?_
    obtain ⟨h3, h4⟩ := h2 z hz
    rw [h1] at h3
    refine ⟨h3.1, fun a ha => ?_⟩
    rcases List.mem_cons.1 ha with rfl | ha
    · exact h3.2
    · exact h4 a ha

/-- Corresponding requests. -/
def Req (off : Int → Tag → Nat) : Request → Request → Owed → Prop := fun a b L =>
  a.recvs = b.recvs ∧ List.Forall₂ (Same off) a.sends b.sends ∧ ∀ z, L z → ∃ x ∈ a.sends, z = key x

/-- All sends have been waited for. -/
def Done : Unit → Unit → Owed → Prop := fun _ _ L => ∀ z, ¬ L z

theorem waitRequest {a b : Request} (h : Req off a b L) :
    (FV3.waitRequest a : CommM α Unit).Sh off L Done (FV3.waitRequest b) := by
  obtain ⟨h1, h2, h3⟩ := h
  unfold FV3.waitRequest
  rw [← h1]
  refine plain (forPlain _ fun r _ => recvInto r) fun _ => bind (forAwait h2 L) fun _ _ L' h4 => pure fun z hz => ?_
  obtain ⟨h5, h6⟩ := h4 z hz
  obtain ⟨x, h7, h8⟩ := h3 z h5
  exact h6 x h7 h8

theorem irecvHalos (l : Layout) (r : Int) (q : Nat) (h : Int) (tag : Nat) :
    (FV3.irecvHalos l r q h tag : CommM α _).Sh off L (Plain L) (FV3.irecvHalos l r q h tag) :=
  plain (lift _) fun _ => forPlain _ fun _ _ => plain (quantity _) fun _ => plain (lift _) fun _ => pure ⟨rfl, rfl⟩

theorem New.none {g : B → List SendReq} {a b : B} {L' : Owed} (h : New off (fun _ => False) g a b L') :
    List.Forall₂ (Same off) (g a) (g b) ∧ ∀ z, L' z → ∃ x ∈ g a, z = key x :=
  ⟨h.1, fun z hz => (h.2 z hz).resolve_left id⟩

theorem haloUpdate (l : Layout) (r : Int) (q : Nat) (h : Int) :
    (FV3.haloUpdate l r q h : CommM α Unit).Sh off (fun _ => False) Done (FV3.haloUpdate l r q h) := by
  refine bind (Q := Req off) ?_ fun a b L' hreq => waitRequest hreq
  unfold startHaloUpdate
  split
  · exact raise _
  · refine plain getTag fun t => ?_
    refine bind (Q := New off (fun _ => False) id) ?_ fun ss ss' L1 hss => ?_
    · refine plain (lift _) fun bs => ?_
      have := forNew (α := α) (off := off) (g := fun x => [x]) (f := fun (b : Boundary) => do
          let quantity ← CommM.quantity q
          let data ← CommM.lift (sendView quantity b.boundaryType h)
          let data ← CommM.lift (rotateScalar data quantity.dims (-b.rotations))
          FV3.isend b.toRank t data) bs (fun _ => False)
        fun b _ L => plain (quantity _) fun _ => plain (lift _) fun _ => plain (lift _) fun _ => isend _ _ _
      simp only [List.flatMap_singleton'] at this
      exact this
    · exact plain (irecvHalos _ _ _ _ _) fun rs => pure ⟨rfl, hss.none⟩

variable [Neg α]

theorem vectorHaloUpdate (l : Layout) (r : Int) (x y : Nat) (h : Int) :
    (FV3.vectorHaloUpdate l r x y h : CommM α Unit).Sh off (fun _ => False) Done (FV3.vectorHaloUpdate l r x y h) := by
  refine bind (Q := Req off) ?_ fun a b L' hreq => waitRequest hreq
  unfold startVectorHaloUpdate
  split
  · exact raise _
  · refine plain getTag fun t => plain getTag fun t' => ?_
    refine bind (Q := New off (fun _ => False) id) ?_ fun ss ss' L1 hss => ?_
    · refine plain (lift _) fun bs => ?_
      refine bind (Q := New off (fun _ => False) fun rs : List (List SendReq) => rs.flatMap id) ?_
        fun rs rs' L1 hrs => pure (by simpa only [New, List.flatMap_id, id_eq] using hrs)
      refine forNew bs (fun _ => False)
        fun b _ L => plain (quantity _) fun _ => plain (quantity _) fun _ => plain (lift _) fun _ => plain (lift _) fun _ =>
          plain (lift _) fun _ => bind (isend _ _ _) fun s s' L1 h1 => bind (isend _ _ _) fun s2 s2' L2 h2 =>
          pure ⟨List.rel_append h1.1 h2.1, fun z hz => ?_⟩
      rcases h2.2 z hz with h3 | ⟨w, h3, h4⟩
      · rcases h1.2 z h3 with h3 | ⟨w, h3, h4⟩
        · exact .inl h3
        · exact .inr ⟨w, List.mem_append_left _ h3, h4⟩
      · exact .inr ⟨w, List.mem_append_right [s] h3, h4⟩
    · exact plain (irecvHalos _ _ _ _ _) fun rs => plain (irecvHalos _ _ _ _ _) fun rs' => pure ⟨rfl, hss.none⟩

theorem synchronize (l : Layout) (r : Int) (x y : Nat) :
    (FV3.synchronize l r x y : CommM α Unit).Sh off (fun _ => False) Done (FV3.synchronize l r x y) := by
  refine bind (Q := Req off) ?_ fun a b L' hreq => waitRequest hreq
  unfold startSynchronize
  refine plain (quantity _) fun _ => plain (quantity _) fun _ => ?_
  split
  · exact raise _
  · refine plain getTag fun t => ?_
    refine bind (Q := New off (fun _ => False) id) ?_ fun ss ss' L1 hss => ?_
    · refine plain (lift _) fun _ => plain (lift _) fun _ => plain (quantity _) fun _ => plain (quantity _) fun _ =>
        plain (lift _) fun _ => plain (lift _) fun _ => bind (isend _ _ _) fun s s' L1 h1 => bind (isend _ _ _)
        fun s2 s2' L2 h2 => pure ⟨List.rel_append h1.1 h2.1, fun z hz => ?_⟩
      rcases h2.2 z hz with h3 | ⟨w, h3, h4⟩
      · rcases h1.2 z h3 with h3 | ⟨w, h3, h4⟩
        · exact .inl h3
        · exact .inr ⟨w, List.mem_append_left _ h3, h4⟩
      · exact .inr ⟨w, List.mem_append_right [s] h3, h4⟩
    · refine plain ?_ fun rs => pure ⟨rfl, hss.none⟩
      exact plain (lift _) fun _ => plain (lift _) fun _ => plain (quantity _) fun _ => plain (quantity _) fun _ =>
        plain (lift _) fun _ => plain (lift _) fun _ => pure ⟨rfl, rfl⟩

theorem exec (l : Layout) (r : Int) (c : Call α) : (c.exec l r).Sh off (fun _ => False) Done (c.exec l r) := by
  cases c with
  | haloUpdate q h => exact haloUpdate l r q h
  | vectorHaloUpdate x y h => exact vectorHaloUpdate l r x y h
  | synchronize x y => exact synchronize l r x y
  | compute f => exact fun s => .ret ⟨rfl, .inr ⟨_, _, rfl, rfl, fun _ h => h⟩⟩

end CommM.Sh
end comm

end FV3
