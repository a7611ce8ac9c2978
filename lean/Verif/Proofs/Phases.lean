import Verif.Proofs.Settle

/-!
# Programs made of phases that use different tags

A phase which completes on an empty network also completes on one in which messages with other tags are left
over, and does not change those.
-/

namespace FV3
variable {M R S : Type}

/-- Whatever it receives, the program only uses tags in `A`, and returns only results in `Q`. -/
def Proc.Spec (A : Tag → Prop) (Q : R → Prop) : Proc M R → Prop
  | .ret x => Q x
  | .isend _ t _ k => A t ∧ ∀ i, (k i).Spec A Q
  | .recv _ t k => A t ∧ ∀ m, (k m).Spec A Q
  | .await _ t _ k => A t ∧ ∀ u, (k u).Spec A Q

theorem Proc.Spec.bind {A : Tag → Prop} {Q : R → Prop} {Q' : S → Prop} {p : Proc M R} {f : R → Proc M S}
    (hp : p.Spec A Q) (hf : ∀ x, Q x → (f x).Spec A Q') : (p.bind f).Spec A Q' := by
  induction p with
  | ret x => exact hf x hp
  | isend d t m k ih => exact ⟨hp.1, fun i => ih i (hp.2 i)⟩
  | recv s t k ih => exact ⟨hp.1, fun i => ih i (hp.2 i)⟩
  | await d t i k ih => exact ⟨hp.1, fun i => ih i (hp.2 i)⟩

theorem Proc.Spec.mono {A A' : Tag → Prop} {Q Q' : R → Prop} {p : Proc M R} (hp : p.Spec A Q)
    (hA : ∀ t, A t → A' t) (hQ : ∀ x, Q x → Q' x) : p.Spec A' Q' := by
  induction p with
  | ret x => exact hQ x hp
  | isend d t m k ih => exact ⟨hA _ hp.1, fun i => ih i (hp.2 i)⟩
  | recv s t k ih => exact ⟨hA _ hp.1, fun i => ih i (hp.2 i)⟩
  | await d t i k ih => exact ⟨hA _ hp.1, fun i => ih i (hp.2 i)⟩

/-- A step of a rank on a network with other messages on the other tags. -/
theorem Net.step_embed {buf : Buffering} {A : Tag → Prop} {Q : Int → R → Prop} {N N' T : Net M R} {r : Int}
    (hspec : ∀ r, (N.procs r).Spec A (Q r)) (hp : N'.procs = N.procs)
    (hs : ∀ s d t, A t → N'.sent s d t = N.sent s d t) (hr : ∀ s d t, A t → N'.rcvd s d t = N.rcvd s d t)
    (h : N.step buf r = some T) :
    (∀ r, (T.procs r).Spec A (Q r)) ∧
    ∃ T', N'.step buf r = some T' ∧ T'.procs = T.procs ∧
      (∀ s d t, A t → T'.sent s d t = T.sent s d t) ∧ (∀ s d t, A t → T'.rcvd s d t = T.rcvd s d t) ∧
      (∀ s d t, ¬ A t → T'.sent s d t = N'.sent s d t) ∧ (∀ s d t, ¬ A t → T'.rcvd s d t = N'.rcvd s d t) := by
  have hq := hspec r
  have upd : ∀ (k : Proc M R), k.Spec A (Q r) → ∀ r', (updRank N.procs r k r').Spec A (Q r') := by
    intro k hk r'
    unfold updRank
    split
    · next e => rw [e]; exact hk
    · exact hspec r'
  unfold Net.step at h ⊢
  rw [hp]
  cases hpr : N.procs r with
  | ret x => rw [hpr] at h; cases h
  | isend d t m k =>
    rw [hpr] at h hq
    simp only [Option.some.injEq] at h ⊢
    subst h
    refine ⟨upd _ (hq.2 _), _, rfl, ?_, ?_, hr, ?_, fun _ _ _ _ => rfl⟩
    · rw [hs _ _ _ hq.1]
    · intro s' d' t' ht'
      dsimp only
      unfold updCh
      split
      · rw [hs _ _ _ hq.1]
      · exact hs _ _ _ ht'
    · intro s' d' t' ht'
      dsimp only
      rw [updCh_ne]
      rintro ⟨-, -, e⟩
      exact ht' (e ▸ hq.1)
  | recv s t k =>
    rw [hpr] at h hq
    dsimp only at h ⊢
    rw [hs _ _ _ hq.1, hr _ _ _ hq.1]
    cases hm : (N.sent s r t)[N.rcvd s r t]? with
    | none => rw [hm] at h; cases h
    | some m =>
      rw [hm] at h
      simp only [Option.some.injEq] at h ⊢
      subst h
      refine ⟨upd _ (hq.2 _), _, rfl, rfl, hs, ?_, fun _ _ _ _ => rfl, ?_⟩
      · intro s' d' t' ht'
        dsimp only
        unfold updCh
        split
        · rfl
        · exact hr _ _ _ ht'
      · intro s' d' t' ht'
        dsimp only
        rw [updCh_ne]
        rintro ⟨-, -, e⟩
        exact ht' (e ▸ hq.1)
  | await d t i k =>
    rw [hpr] at h hq
    dsimp only at h ⊢
    rw [hr _ _ _ hq.1]
    split at h
    · next hc =>
      rw [if_pos hc]
      simp only [Option.some.injEq] at h
      subst h
      exact ⟨upd _ (hq.2 _), _, rfl, rfl, hs, hr, fun _ _ _ _ => rfl, fun _ _ _ _ => rfl⟩
    · cases h

/-- An execution on a network with other messages on the other tags. -/
theorem Net.run_embed {buf : Buffering} {A : Tag → Prop} {Q : Int → R → Prop} {sched : List Int} {N N' T : Net M R}
    (hspec : ∀ r, (N.procs r).Spec A (Q r)) (hp : N'.procs = N.procs)
    (hs : ∀ s d t, A t → N'.sent s d t = N.sent s d t) (hr : ∀ s d t, A t → N'.rcvd s d t = N.rcvd s d t)
    (h : N.run buf sched = some T) :
    ∃ T', N'.run buf sched = some T' ∧ T'.procs = T.procs ∧
      (∀ s d t, ¬ A t → T'.sent s d t = N'.sent s d t) ∧ (∀ s d t, ¬ A t → T'.rcvd s d t = N'.rcvd s d t) := by
  induction sched generalizing N N' with
  | nil =>
    simp only [Net.run, Option.some.injEq] at h
    subst h
    exact ⟨N', rfl, hp, fun _ _ _ _ => rfl, fun _ _ _ _ => rfl⟩
  | cons r sched ih =>
    unfold Net.run at h
    cases h1 : N.step buf r with
    | none => rw [h1] at h; cases h
    | some N1 =>
      rw [h1] at h
      obtain ⟨a1, N1', a2, a3, a4, a5, a6, a7⟩ := Net.step_embed hspec hp hs hr h1
      obtain ⟨T', b1, b2, b3, b4⟩ := ih a1 a3 a4 a5 h
      refine ⟨T', ?_, b2, fun s d t ht => ?_, fun s d t ht => ?_⟩
      · unfold Net.run
        rw [a2]
        exact b1
      · rw [b3 s d t ht, a6 s d t ht]
      · rw [b4 s d t ht, a7 s d t ht]

/-- The ranks go on with `K` after they have finished. -/
def Net.andThen (N : Net M R) (K : Int → R → Proc M S) : Net M S :=
  ⟨fun r => (N.procs r).bind (K r), N.sent, N.rcvd⟩

theorem updRank_andThen (N : Net M R) (K : Int → R → Proc M S) (r : Int) (p : Proc M R) :
    updRank (fun r => (N.procs r).bind (K r)) r (p.bind (K r)) =
      fun r' => (updRank N.procs r p r').bind (K r') := by
  funext r'
  unfold updRank
  split
  · next e => rw [e]
  · rfl

theorem Net.step_andThen {buf : Buffering} {N T : Net M R} {r : Int} (K : Int → R → Proc M S)
    (h : N.step buf r = some T) : (N.andThen K).step buf r = some (T.andThen K) := by
  unfold Net.step at h ⊢
  unfold Net.andThen
  dsimp only
  cases hpr : N.procs r with
  | ret x => rw [hpr] at h; cases h
  | isend d t m k =>
    rw [hpr] at h
    simp only [Option.some.injEq] at h
    subst h
    simp only [Proc.bind, updRank_andThen]
  | recv s t k =>
    rw [hpr] at h
    simp only [Proc.bind]
    dsimp only at h
    cases hm : (N.sent s r t)[N.rcvd s r t]? with
    | none => rw [hm] at h; cases h
    | some m =>
      rw [hm] at h
      simp only [Option.some.injEq] at h
      subst h
      simp only [updRank_andThen]
  | await d t i k =>
    rw [hpr] at h
    simp only [Proc.bind]
    dsimp only at h
    split at h
    · next hc =>
      rw [if_pos hc]
      simp only [Option.some.injEq] at h
      subst h
      simp only [updRank_andThen]
    · cases h

theorem Net.run_andThen {buf : Buffering} {sched : List Int} {N T : Net M R} (K : Int → R → Proc M S)
    (h : N.run buf sched = some T) : (N.andThen K).run buf sched = some (T.andThen K) := by
  induction sched generalizing N with
  | nil =>
    simp only [Net.run, Option.some.injEq] at h ⊢
    rw [h]
  | cons r sched ih =>
    unfold Net.run at h ⊢
    cases h1 : N.step buf r with
    | none => rw [h1] at h; cases h
    | some N1 =>
      rw [h1] at h
      rw [Net.step_andThen K h1]
      exact ih h

/-- Sequencing: the network can be taken to the point where all ranks have finished the first phase; if the
network of the continuations then completes, so does the whole. -/
theorem Net.Completes.andThen {buf : Buffering} {N T : Net M R} {res : Int → R} {sched : List Int}
    (h : N.run buf sched = some T) (hres : ∀ r, T.procs r = .ret (res r)) (K : Int → R → Proc M S) {out : Int → S}
    (hK : (⟨fun r => K r (res r), T.sent, T.rcvd⟩ : Net M S).Completes buf out) :
    (N.andThen K).Completes buf out := by
  have h1 := Net.run_andThen K h
  have e : T.andThen K = ⟨fun r => K r (res r), T.sent, T.rcvd⟩ := by
    unfold Net.andThen
    congr 1
    funext r
    rw [hres r]
    rfl
  rw [e] at h1
  obtain ⟨T2, n, t1, t2⟩ := hK
  obtain ⟨sched', t3, -⟩ := t2 [] _ rfl
  refine Net.completes_of_run (sched := sched ++ sched') (T := T2) ?_ t1
  rw [Net.run_append, h1]
  exact t3

/-- An execution that finishes. -/
theorem Net.Completes.run {buf : Buffering} {N : Net M R} {res : Int → R} (h : N.Completes buf res) :
    ∃ sched T, N.run buf sched = some T ∧ ∀ r, T.procs r = .ret (res r) := by
  obtain ⟨T, n, t1, t2⟩ := h
  obtain ⟨sched', t3, -⟩ := t2 [] N rfl
  exact ⟨sched', T, t3, t1⟩

/-- A network on which messages with other tags were exchanged before. -/
structure Net.CleanOn (A : Tag → Prop) (sent : Int → Int → Tag → List M) (rcvd : Int → Int → Tag → Nat) : Prop where
  sent : ∀ s d t, A t → sent s d t = []
  rcvd : ∀ s d t, A t → rcvd s d t = 0

/-- A phase that completes on an empty network completes on one that is empty for its tags, and leaves the
other tags as they are. -/
theorem Net.phase {buf : Buffering} {A : Tag → Prop} {procs : Int → Proc M R} {res : Int → R}
    (h : (Net.start procs).Completes buf res) (hspec : ∀ r, (procs r).Spec A fun _ => True)
    {sent : Int → Int → Tag → List M} {rcvd : Int → Int → Tag → Nat} (hc : Net.CleanOn A sent rcvd) :
    ∃ sched T, (⟨procs, sent, rcvd⟩ : Net M R).run buf sched = some T ∧ (∀ r, T.procs r = .ret (res r)) ∧
      ∀ B : Tag → Prop, (∀ t, B t → ¬ A t) → Net.CleanOn B sent rcvd → Net.CleanOn B T.sent T.rcvd := by
  obtain ⟨sched, T, h1, h2⟩ := h.run
  obtain ⟨T', a1, a2, a3, a4⟩ := Net.run_embed (N := Net.start procs) (N' := ⟨procs, sent, rcvd⟩) (A := A) (Q := fun _ _ => True) hspec rfl
    (fun s d t ht => hc.sent s d t ht) (fun s d t ht => hc.rcvd s d t ht) h1
  refine ⟨sched, T', a1, fun r => by rw [a2]; exact h2 r, fun B hB hcb => ⟨fun s d t ht => ?_, fun s d t ht => ?_⟩⟩
  · rw [a3 s d t (hB t ht)]; exact hcb.sent s d t ht
  · rw [a4 s d t (hB t ht)]; exact hcb.rcvd s d t ht

end FV3
