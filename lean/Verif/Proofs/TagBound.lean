import Verif.Spec.TagBound
import Verif.Proofs.AsyncPhase
import Verif.Proofs.ManyRun
import Verif.Proofs.Guarded
import Verif.Props.AsyncSession

/-!
# Programs with an MPI that has a largest tag
-/

namespace FV3

section
variable {M R S : Type} {ub : Nat}

/-- The tag is allowed. -/
def Fine (ub : Nat) (t : Tag) : Prop := t.allowed ub = true

/-- A program that uses only allowed tags does not notice the bound. -/
theorem Proc.bounded_bind {Q : R → Prop} {e : S} {p : Proc M R} (h : p.Spec (Fine ub) Q) (f : R → Proc M S) :
    (p.bind f).bounded ub e = p.bind fun x => (f x).bounded ub e := by
  induction p with
  | ret x => rfl
  | isend d t m k ih =>
    show (if _ then _ else _) = _
    rw [if_pos (show t.allowed ub = true from h.1)]
    exact congrArg _ (funext fun i => ih i (h.2 i))
  | recv s t k ih =>
    show (if _ then _ else _) = _
    rw [if_pos (show t.allowed ub = true from h.1)]
    exact congrArg _ (funext fun i => ih i (h.2 i))
  | await d t i k ih => exact congrArg _ (funext fun i => ih i (h.2 i))

theorem Proc.bounded_eq {Q : R → Prop} {e : R} {p : Proc M R} (h : p.Spec (Fine ub) Q) : p.bounded ub e = p := by
  have := Proc.bounded_bind (e := e) h .ret
  rw [Proc.bind_ret] at this
  rw [this]
  exact Proc.bind_ret p

/-- The program only sends until it uses a tag that is not allowed. -/
inductive Proc.Trips (ub : Nat) : Proc M R → Prop
  | here {d : Int} {t : Tag} {m : M} {k : Nat → Proc M R} (h : t.allowed ub = false) : Trips ub (.isend d t m k)
  | later {d : Int} {t : Tag} {m : M} {k : Nat → Proc M R} (h : ∀ i, Trips ub (k i)) : Trips ub (.isend d t m k)

theorem Proc.Trips.bind {p : Proc M R} (h : p.Trips ub) (f : R → Proc M S) : (p.bind f).Trips ub := by
  induction h with
  | here h => exact .here h
  | later _ ih => exact .later ih

theorem Proc.Trips.sends {p : Proc M R} {e : R} (h : p.Trips ub) : (p.bounded ub e).OnlySends (· = e) := by
  induction h with
  | here h =>
    show (if _ then _ else _ : Proc M R).OnlySends _
    rw [h, if_neg (by simp)]
    exact .ret rfl
  | later _ ih =>
    show (if _ then _ else _ : Proc M R).OnlySends _
    split
    · exact .isend ih
    · exact .ret rfl

/-- The specification of the programs holds all the time. -/
theorem Net.run_spec {buf : Buffering} {A : Tag → Prop} {Q : Int → R → Prop} {sched : List Int} {N T : Net M R}
    (hspec : ∀ r, (N.procs r).Spec A (Q r)) (h : N.run buf sched = some T) : ∀ r, (T.procs r).Spec A (Q r) := by
  induction sched generalizing N with
  | nil =>
    simp only [Net.run, Option.some.injEq] at h
    subst h
    exact hspec
  | cons r sched ih =>
    unfold Net.run at h
    cases h1 : N.step buf r with
    | none => rw [h1] at h; cases h
    | some N1 =>
      rw [h1] at h
      exact ih (Net.step_embed hspec rfl (fun _ _ _ _ => rfl) (fun _ _ _ _ => rfl) h1).1 h

theorem Net.Completes.spec {buf : Buffering} {A : Tag → Prop} {Q : Int → R → Prop} {N : Net M R} {res : Int → R}
    (h : N.Completes buf res) (hspec : ∀ r, (N.procs r).Spec A (Q r)) (r : Int) : Q r (res r) := by
  obtain ⟨sched, T, h1, h2⟩ := h.run
  have := Net.run_spec hspec h1 r
  rw [h2 r] at this
  exact this

/-- Programs that only send complete, whatever was sent before. -/
theorem Net.completes_of_onlySends' {buf : Buffering} {N : Net M R} {res : Int → R} (L : List Int)
    (h : ∀ r ∈ L, (N.procs r).OnlySends (· = res r)) (h' : ∀ r, r ∉ L → N.procs r = .ret (res r)) :
    N.Completes buf res := by
  have key : ∀ (L' : List Int) (N : Net M R), (∀ r, (N.procs r).OnlySends (· = res r)) →
      ∃ sched T, N.run buf sched = some T ∧ (∀ r ∈ L', T.procs r = .ret (res r)) ∧
        ∀ r, r ∉ L' → T.procs r = N.procs r := by
    intro L'
    induction L' with
    | nil => exact fun N _ => ⟨[], N, rfl, (fun r hr => by cases hr), fun _ _ => rfl⟩
    | cons a L' ih =>
      intro N hN
      obtain ⟨s1, T1, a1, a2, a3⟩ := (hN a).run_one (buf := buf) N rfl
      obtain ⟨s2, T2, b1, b2, b3⟩ := ih T1 fun r => by
        by_cases e : r = a
        · rw [e, a2]; exact .ret rfl
        · rw [a3 r e]; exact hN r
      refine ⟨s1 ++ s2, T2, by rw [Net.run_append, a1]; exact b1, fun r hr => ?_, fun r hr => ?_⟩
      · by_cases e : r ∈ L'
        · exact b2 r e
        · rw [b3 r e, (List.mem_cons.1 hr).resolve_right e, a2]
      · rw [b3 r fun e => hr (List.mem_cons_of_mem _ e), a3 r fun e => hr (e ▸ List.mem_cons_self ..)]
  obtain ⟨sched, T, h1, h2, h3⟩ := key L N fun r => by
    by_cases e : r ∈ L
    · exact h r e
    · rw [h' r e]
      exact .ret rfl
  refine Net.completes_of_run h1 fun r => ?_
  by_cases e : r ∈ L
  · exact h2 r e
  · rw [h3 r e]
    exact h' r e

end

/-! ### The tags of calls -/

variable {α A B : Type}

/-- The requests of the state have tags up to `ub`. -/
def ReqsIn (ub : Nat) (s : RankState α) : Prop := ∀ req ∈ s.reqs, CommM.Uses.ReqIn 0 ub req

/-- Started with tag counter `n` and requests with tags up to `ub`, the program only uses tags up to `ub`; if it does not
raise, it leaves the counter at `m`, the requests have tags up to `ub`, and its result is in `Q`. -/
def CommM.Fits (ub n m : Nat) (Q : A → Prop) (c : CommM α A) : Prop :=
  ∀ s, s.lastTag = n → ReqsIn ub s → (c s).Spec (Fine ub) fun x => ∀ a, x.1 = .ok a → x.2.lastTag = m ∧ ReqsIn ub x.2 ∧ Q a

namespace CommM.Fits
variable {ub n m k : Nat} {Q : A → Prop} {Q' : B → Prop}

theorem bind {c : CommM α A} {f : A → CommM α B} (hc : c.Fits ub n m Q)
    (hf : ∀ a, Q a → (f a).Fits ub m k Q') : (c >>= f).Fits ub n k Q' := by
  intro s hs hq
  refine Proc.Spec.bind (hc s hs hq) ?_
  rintro ⟨a | a, s'⟩ h
  · intro b hb
    cases hb
  · obtain ⟨h1, h2, h3⟩ := h a rfl
    exact hf a h3 s' h1 h2

theorem pure {a : A} (h : Q a) : (Pure.pure a : CommM α A).Fits ub n n Q := by
  intro s hs hq b hb
  cases hb
  exact ⟨hs, hq, h⟩

theorem lift (x : Py A) : (CommM.lift x : CommM α A).Fits ub n n fun _ => True :=
  fun _ hs hq _ _ => ⟨hs, hq, trivial⟩

theorem raise (e : PyErr) : (CommM.raise e : CommM α A).Fits ub n m Q := by
  intro s _ _ a h
  cases h

theorem quantity (q : Nat) : (CommM.quantity q : CommM α _).Fits ub n n fun _ => True :=
  fun _ hs hq _ _ => ⟨hs, hq, trivial⟩

theorem getTag : (getHaloTag : CommM α Nat).Fits ub n (n + 1) fun t => t = n + 1 := by
  intro s hs hq a h
  cases h
  exact ⟨by rw [hs], hq, by rw [hs]⟩

theorem isend (dst : Int) {tag : Nat} (h1 : 0 < tag) (h2 : tag ≤ ub) (a : NDArray α) :
    (FV3.isend dst tag a).Fits ub n n fun r => 0 < r.tag ∧ r.tag ≤ ub := by
  intro s hs hq
  refine ⟨by simpa [Fine, Tag.allowed] using h2, fun i b hb => ?_⟩
  cases hb
  exact ⟨hs, hq, h1, h2⟩

theorem recvInto {rq : RecvReq} (h2 : rq.tag ≤ ub) :
    (FV3.recvInto rq : CommM α Unit).Fits ub n n fun _ => True := by
  intro s hs hq
  refine ⟨by simpa [Fine, Tag.allowed] using h2, fun m => ?_⟩
  cases m with
  | data a =>
    dsimp only
    split
    · exact fun _ _ => ⟨hs, hq, trivial⟩
    · exact fun _ _ => ⟨hs, hq, trivial⟩
  | _ => exact fun _ _ => ⟨hs, hq, trivial⟩

theorem awaitSend {sr : SendReq} (h2 : sr.tag ≤ ub) :
    (FV3.awaitSend sr : CommM α Unit).Fits ub n n fun _ => True :=
  fun _ hs hq => ⟨by simpa [Fine, Tag.allowed] using h2, fun _ _ _ => ⟨hs, hq, trivial⟩⟩

theorem forEach {f : A → CommM α B} : ∀ (as : List A), (∀ a ∈ as, (f a).Fits ub n n Q') →
    (CommM.forEach f as).Fits ub n n fun bs => ∀ b ∈ bs, Q' b
  | [], _ => pure (by simp)
  | a :: as, h => by
    refine CommM.Fits.bind (h a (by simp)) fun b hb =>
      CommM.Fits.bind (forEach as fun a ha => h a (by simp [ha])) fun bs hbs => pure ?_
    intro b' hb'
    rcases List.mem_cons.1 hb' with rfl | h
    · exact hb
    · exact hbs b' h

theorem waitRequest {req : Request} (h : CommM.Uses.ReqIn 0 ub req) :
    (FV3.waitRequest req : CommM α Unit).Fits ub n n fun _ => True :=
  CommM.Fits.bind (forEach _ fun r hr => recvInto (h.2 r hr).2) fun _ _ =>
    CommM.Fits.bind (forEach _ fun r hr => awaitSend (h.1 r hr).2) fun _ _ => pure trivial

theorem irecvHalos (l : Layout) (r : Int) (q : Nat) (h : Int) {tag : Nat} (h1 : 0 < tag) (h2 : tag ≤ ub) :
    (FV3.irecvHalos l r q h tag : CommM α _).Fits ub n n fun rs => ∀ x ∈ rs, 0 < x.tag ∧ x.tag ≤ ub :=
  CommM.Fits.bind (lift _) fun _ _ => forEach _ fun _ _ => CommM.Fits.bind (quantity _) fun _ _ =>
    CommM.Fits.bind (lift _) fun _ _ => pure ⟨h1, h2⟩

theorem push {req : Request} (h : CommM.Uses.ReqIn 0 ub req) : (pushReq req : CommM α Unit).Fits ub n n fun _ => True := by
  intro s hs hq a ha
  refine ⟨hs, fun req' h' => ?_, trivial⟩
  rcases List.mem_append.1 h' with h' | h'
  · exact hq req' h'
  · rw [List.mem_singleton.1 h']
    exact h

variable [Neg α]

/-- A start, a wait or a computation. -/
theorem op (l : Layout) (r : Int) (o : Op α) (hub : n + o.nTags ≤ ub) :
    (o.exec l r).Fits ub n (n + o.nTags) fun _ => True := by
  cases o with
  | halo q h =>
    have hub : n + 1 ≤ ub := hub
    refine CommM.Fits.bind (Q := CommM.Uses.ReqIn 0 ub) (m := n + 1) ?_ fun req hreq => push hreq
    unfold startHaloUpdate
    split
    · exact raise _
    · refine CommM.Fits.bind getTag fun t ht => ?_
      have h1 : 0 < t := by omega
      have h2 : t ≤ ub := by omega
      exact CommM.Fits.bind
        (CommM.Fits.bind (lift _) fun _ _ => forEach _ fun _ _ => CommM.Fits.bind (quantity _) fun _ _ =>
          CommM.Fits.bind (lift _) fun _ _ => CommM.Fits.bind (lift _) fun _ _ => isend _ h1 h2 _)
        fun ss hss => CommM.Fits.bind (irecvHalos _ _ _ _ h1 h2) fun rs hrs => pure ⟨hss, hrs⟩
  | vector x y h =>
    have hub : n + 2 ≤ ub := hub
    refine CommM.Fits.bind (Q := CommM.Uses.ReqIn 0 ub) (m := n + 2) ?_ fun req hreq => push hreq
    unfold startVectorHaloUpdate
    split
    · exact raise _
    · refine CommM.Fits.bind getTag fun t ht => CommM.Fits.bind getTag fun t' ht' => ?_
      have h1 : 0 < t := by omega
      have h2 : t ≤ ub := by omega
      have h3 : 0 < t' := by omega
      have h4 : t' ≤ ub := by omega
      refine CommM.Fits.bind (Q := fun ss => ∀ s ∈ ss, 0 < s.tag ∧ s.tag ≤ ub)
        (CommM.Fits.bind (lift _) fun _ _ => CommM.Fits.bind
          (forEach (Q' := fun ss => ∀ s ∈ ss, 0 < s.tag ∧ s.tag ≤ ub) _ fun _ _ =>
            CommM.Fits.bind (quantity _) fun _ _ => CommM.Fits.bind (quantity _) fun _ _ =>
            CommM.Fits.bind (lift _) fun _ _ => CommM.Fits.bind (lift _) fun _ _ => CommM.Fits.bind (lift _) fun _ _ =>
            CommM.Fits.bind (isend _ h1 h2 _) fun s hs => CommM.Fits.bind (isend _ h3 h4 _) fun s' hs' => pure ?_)
          fun ss hss => pure ?_)
        fun ss hss => CommM.Fits.bind (irecvHalos _ _ _ _ h1 h2) fun rs hrs =>
          CommM.Fits.bind (irecvHalos _ _ _ _ h3 h4) fun rs' hrs' => pure ⟨hss, ?_⟩
      · intro z hz
        simp only [List.mem_cons, List.not_mem_nil, or_false] at hz
        rcases hz with rfl | rfl
        · exact hs
        · exact hs'
      · intro z hz
        obtain ⟨w, hw, hz⟩ := List.mem_flatten.1 hz
        exact hss w hw z hz
      · intro z hz
        rcases List.mem_append.1 hz with hz | hz
        · exact hrs z hz
        · exact hrs' z hz
  | sync x y =>
    have hub : n + 1 ≤ ub := hub
    refine CommM.Fits.bind (Q := CommM.Uses.ReqIn 0 ub) (m := n + 1) ?_ fun req hreq => push hreq
    unfold startSynchronize
    refine CommM.Fits.bind (quantity _) fun _ _ => CommM.Fits.bind (quantity _) fun _ _ => ?_
    split
    · exact raise _
    · refine CommM.Fits.bind getTag fun t ht => ?_
      have h1 : 0 < t := by omega
      have h2 : t ≤ ub := by omega
      refine CommM.Fits.bind (Q := fun ss => ∀ s ∈ ss, 0 < s.tag ∧ s.tag ≤ ub)
        (CommM.Fits.bind (lift _) fun _ _ => CommM.Fits.bind (lift _) fun _ _ => CommM.Fits.bind (quantity _) fun _ _ =>
          CommM.Fits.bind (quantity _) fun _ _ => CommM.Fits.bind (lift _) fun _ _ => CommM.Fits.bind (lift _) fun _ _ =>
          CommM.Fits.bind (isend _ h1 h2 _) fun s hs => CommM.Fits.bind (isend _ h1 h2 _) fun s' hs' => pure ?_)
        fun ss hss => CommM.Fits.bind (Q := fun rs => ∀ r ∈ rs, 0 < r.tag ∧ r.tag ≤ ub)
          (CommM.Fits.bind (lift _) fun _ _ => CommM.Fits.bind (lift _) fun _ _ => CommM.Fits.bind (quantity _) fun _ _ =>
          CommM.Fits.bind (quantity _) fun _ _ => CommM.Fits.bind (lift _) fun _ _ => CommM.Fits.bind (lift _) fun _ _ =>
          pure ?_) fun rs hrs => pure ⟨hss, hrs⟩
      · intro z hz
        simp only [List.mem_cons, List.not_mem_nil, or_false] at hz
        rcases hz with rfl | rfl
        · exact hs
        · exact hs'
      · intro z hz
        simp only [List.mem_cons, List.not_mem_nil, or_false] at hz
        rcases hz with rfl | rfl <;> exact ⟨h1, h2⟩
  | wait i =>
    intro s hs hq
    show Proc.Spec _ _ ((match s.reqs[i]? with
      | none => CommM.raise .indexError
      | some req => FV3.waitRequest req : CommM α Unit) s)
    cases h : s.reqs[i]? with
    | none => exact raise (m := n) (Q := fun _ => True) _ s hs hq
    | some req => exact waitRequest (hq req (List.mem_of_getElem? h)) s hs hq
  | compute f => exact fun _ hs hq _ _ => ⟨hs, hq, trivial⟩

end CommM.Fits

variable [Neg α]

omit [Neg α] in
theorem AOp.tagCount_op (o : Op α) : (AOp.op o).tagCount = o.nTags := by
  cases o <;> rfl

omit [Neg α] in
theorem SOp.tagCount_nTags (o : SOp α) : o.tagCount = o.nTags := by
  rcases o with c | _ | _
  · cases c <;> rfl
  · rfl
  · rfl

theorem fine_coll {ub lo hi : Nat} {t : Tag} (h : IsCollTag lo hi t) : Fine ub t := by
  obtain ⟨i, rfl, -⟩ := h
  rfl

/-- A call with the tags it needs. -/
theorem AOp.exec_fits {ub : Nat} (l : Layout) (junk : Nat → List Nat → α) (r : Int) (op : AOp α) (s : AState α)
    (hub : s.comm.lastTag + op.tagCount ≤ ub) (hq : ReqsIn ub s.comm) :
    (op.exec l junk r s).Spec (Fine ub) fun x => ∀ s', x = .ok s' →
      s'.comm.lastTag = s.comm.lastTag + op.tagCount ∧ ReqsIn ub s'.comm := by
  cases op with
  | op o =>
    rw [AOp.tagCount_op] at hub ⊢
    refine Proc.Spec.bind (CommM.Fits.op l r o hub s.comm rfl hq) fun y hy => ?_
    obtain ⟨a | a, s1⟩ := y
    · intro s' h
      cases h
    · intro s' h
      cases h
      exact ⟨(hy a rfl).1, (hy a rfl).2.1⟩
  | scatter q g =>
    refine Proc.Spec.bind ((calls_scatter _ _ _ _ _ s.coll).mono (fun t h => fine_coll h) fun _ _ => trivial)
      (Q := fun _ => True) fun y _ => ?_
    obtain ⟨a | a, s1⟩ := y
    · intro s' h
      cases h
    · intro s' h
      cases h
      exact ⟨rfl, hq⟩
  | gather q g =>
    refine Proc.Spec.bind ((calls_gather _ _ _ _ _ s.coll).mono (fun t h => fine_coll h) fun _ _ => trivial)
      (Q := fun _ => True) fun y _ => ?_
    obtain ⟨a | a, s1⟩ := y
    · intro s' h
      cases h
    · intro s' h
      cases h
      exact ⟨rfl, hq⟩

/-- A sequence of calls with the tags it needs. -/
theorem execAsync_fits {ub : Nat} (l : Layout) (junk : Nat → List Nat → α) (r : Int) (ops : List (AOp α)) (s : AState α)
    (hub : s.comm.lastTag + tagCount ops ≤ ub) (hq : ReqsIn ub s.comm) :
    (execAsync l junk r ops s).Spec (Fine ub) fun x => ∀ s', x = .ok s' →
      s'.comm.lastTag = s.comm.lastTag + tagCount ops ∧ ReqsIn ub s'.comm := by
  induction ops generalizing s with
  | nil =>
    intro s' h
    cases h
    exact ⟨rfl, hq⟩
  | cons op ops ih =>
    have e : tagCount (op :: ops) = op.tagCount + tagCount ops := by
      unfold tagCount
      rw [List.map_cons, List.sum_cons]
    rw [e] at hub ⊢
    refine Proc.Spec.bind (AOp.exec_fits l junk r op s (by omega) hq) fun y hy => ?_
    cases y with
    | error e =>
      intro s' h
      cases h
    | ok s1 =>
      obtain ⟨h1, h2⟩ := hy s1 rfl
      refine (ih s1 (by omega) h2).mono (fun _ h => h) fun x hx s' h => ?_
      obtain ⟨h3, h4⟩ := hx s' h
      exact ⟨by omega, h4⟩

theorem execAsync_append (l : Layout) (junk : Nat → List Nat → α) (r : Int) (a b : List (AOp α)) (s : AState α) :
    execAsync l junk r (a ++ b) s = (execAsync l junk r a s).bind fun x =>
      match x with
      | .error e => .ret (.error e)
      | .ok s' => execAsync l junk r b s' := by
  induction a generalizing s with
  | nil => rfl
  | cons op a ih =>
    show (op.exec l junk r s).bind _ = ((op.exec l junk r s).bind _).bind _
    rw [Proc.bind_bind]
    congr 1
    funext x
    cases x with
    | error e => rfl
    | ok s' => exact ih s'

/-! ### The call that has no tag left -/

theorem Trips.ok_bind {ub : Nat} {x : Py A} {f : A → CommM α B} {s : RankState α} {a : A} (h : x = .ok a)
    (hf : (f a s).Trips ub) : ((CommM.lift x >>= f : CommM α B) s).Trips ub := by
  subst h
  exact hf

theorem Trips.bind {ub : Nat} {c : CommM α A} {f : A → CommM α B} {s : RankState α} (h : (c s).Trips ub) :
    ((c >>= f : CommM α B) s).Trips ub := Proc.Trips.bind h _

theorem Trips.isend {ub : Nat} (d : Int) {t : Nat} (a : NDArray α) (s : RankState α) (h : ub < t) :
    (FV3.isend d t a s).Trips ub := .here (by simpa [Tag.allowed] using h)

theorem Trips.isend_bind {ub : Nat} (d : Int) (t : Nat) (a : NDArray α) (s : RankState α) {f : SendReq → CommM α B}
    (h : ∀ i, (f ⟨d, t, i⟩ s).Trips ub) : ((FV3.isend d t a >>= f : CommM α B) s).Trips ub := .later h

theorem boundaries_first {l : Layout} (hx : 0 < l.x) (hsq : l.y = l.x) {r : Int} (hr : r ∈ allRanks l) :
    ∃ b bs, Cube.boundaries l r = .ok (b :: bs) := by
  obtain ⟨bs, h1, h2, -⟩ := boundaries_ok hx hsq hr
  obtain ⟨b, hb⟩ := edge_exists hx hsq hr .west (by decide)
  cases bs with
  | nil =>
    have hbt := boundary_type hx hsq hb
    exact absurd ((h2 b).2 (by rw [hbt]; exact hb)) (by simp)
  | cons b bs => exact ⟨b, bs, h1⟩

omit [Neg α] in
theorem pyMap_first {f : A → Py B} {a : A} {as : List A} {bs : List B} (h : pyMap f (a :: as) = .ok bs) :
    ∃ b, f a = .ok b := by
  obtain ⟨b, h1, -⟩ := bind_ok h
  exact ⟨b, h1⟩

/-- A start that needs a tag that MPI does not have only sends until it raises. -/
theorem start_trips {ub : Nat} {l : Layout} (hx : 0 < l.x) (hsq : l.y = l.x) {r : Int} (hr : r ∈ allRanks l) {op : Op α}
    (hs : op.isStart = true) {s : RankState α} {o : List (Outgoing α)} (ho : op.out l r s.mem = .ok o)
    (hub : ub < s.lastTag + op.nTags) : (op.exec l r s).Trips ub := by
  obtain ⟨b, bs, hb⟩ := boundaries_first hx hsq hr
  cases op with
  | halo q n =>
    simp only [Op.out] at ho
    by_cases hn : n = 0
    · rw [if_pos hn] at ho; exact absurd ho (by simp)
    rw [if_neg hn] at ho
    unfold haloOut at ho
    obtain ⟨bs', hb', hm⟩ := bind_ok ho
    rw [hb] at hb'
    cases hb'
    obtain ⟨c, hc⟩ := pyMap_first hm
    obtain ⟨d1, h1, hc⟩ := bind_ok hc
    obtain ⟨d2, h2, hc⟩ := bind_ok hc
    unfold Op.exec
    refine Trips.bind ?_
    unfold startHaloUpdate
    rw [if_neg hn]
    refine Trips.bind (s := { s with lastTag := s.lastTag + 1 }) (Trips.ok_bind hb (Trips.bind ?_))
    exact Trips.ok_bind rfl (Trips.ok_bind h1 (Trips.ok_bind h2 (Trips.isend _ _ _ hub)))
  | vector x y n =>
    simp only [Op.out] at ho
    by_cases hn : n = 0
    · rw [if_pos hn] at ho; exact absurd ho (by simp)
    rw [if_neg hn] at ho
    unfold vectorOut at ho
    obtain ⟨bs', hb', hm⟩ := bind_ok ho
    rw [hb] at hb'
    cases hb'
    obtain ⟨ps, hm, -⟩ := bind_ok hm
    obtain ⟨c, hc⟩ := pyMap_first hm
    obtain ⟨d1, h1, hc⟩ := bind_ok hc
    obtain ⟨d2, h2, hc⟩ := bind_ok hc
    obtain ⟨d3, h3, hc⟩ := bind_ok hc
    unfold Op.exec
    refine Trips.bind ?_
    unfold startVectorHaloUpdate
    rw [if_neg hn]
    refine Trips.bind (s := { s with lastTag := s.lastTag + 1 + 1 }) (Trips.ok_bind hb (Trips.bind (Trips.bind ?_)))
    exact Trips.ok_bind rfl (Trips.ok_bind rfl (Trips.ok_bind h1 (Trips.ok_bind h2 (Trips.ok_bind h3
      (Trips.isend_bind _ _ _ _ fun i => Trips.bind (Trips.isend _ _ _ hub))))))
  | sync x y =>
    simp only [Op.out] at ho
    by_cases hn : onCGrid (s.mem x).dims (s.mem y).dims = false
    · rw [if_pos hn] at ho; exact absurd ho (by simp)
    rw [if_neg hn] at ho
    unfold syncOut at ho
    obtain ⟨so, h1, ho⟩ := bind_ok ho
    obtain ⟨we, h2, ho⟩ := bind_ok ho
    obtain ⟨sd, h3, ho⟩ := bind_ok ho
    obtain ⟨wd, h4, ho⟩ := bind_ok ho
    unfold Op.exec
    refine Trips.bind ?_
    unfold startSynchronize
    show ((if onCGrid (s.mem x).dims (s.mem y).dims = false then CommM.raise .valueError else _ : CommM α _) s).Trips ub
    rw [if_neg hn]
    refine Trips.bind (s := { s with lastTag := s.lastTag + 1 }) (Trips.ok_bind h1 (Trips.ok_bind h2 ?_))
    exact Trips.ok_bind rfl (Trips.ok_bind rfl (Trips.ok_bind h3 (Trips.ok_bind h4 (Trips.bind (Trips.isend _ _ _ hub)))))
  | wait i => simp [Op.isStart] at hs
  | compute f => simp [Op.isStart] at hs

omit [Neg α] in
/-- The call that needs a tag beyond the bound. -/
theorem tagCount_split {ub : Nat} : ∀ {n : Nat} {ops : List (AOp α)}, n ≤ ub → ub < n + tagCount ops →
    ∃ pre o rest, ops = pre ++ .op o :: rest ∧ o.isStart = true ∧ n + tagCount pre ≤ ub ∧ ub < n + tagCount pre + o.nTags
  | n, [], h1, h2 => absurd h2 (by simp [tagCount]; omega)
  | n, op :: ops, h1, h2 => by
    have e : ∀ (op : AOp α) ops, tagCount (op :: ops) = op.tagCount + tagCount ops := fun op ops => by
      unfold tagCount
      rw [List.map_cons, List.sum_cons]
    rw [e] at h2
    by_cases h : n + op.tagCount ≤ ub
    · obtain ⟨pre, o, rest, rfl, g1, g2, g3⟩ := tagCount_split h (show ub < n + op.tagCount + tagCount ops by omega)
      exact ⟨op :: pre, o, rest, rfl, g1, by rw [e]; omega, by rw [e]; omega⟩
    · cases op with
      | op o =>
        rw [AOp.tagCount_op] at h
        refine ⟨[], o, ops, rfl, ?_, by simpa [tagCount] using h1, by simp [tagCount]; omega⟩
        cases o with
        | wait i => exact absurd h (by simp [Op.nTags]; omega)
        | compute f => exact absurd h (by simp [Op.nTags]; omega)
        | _ => rfl
      | scatter q g => exact absurd h (by simp [AOp.tagCount]; omega)
      | gather q g => exact absurd h (by simp [AOp.tagCount]; omega)

/-- Valid calls at the beginning of a valid session. -/
theorem CallsValid.split {l : Layout} {m : Int → Mem α} {parts : Nat → Parts} {filled : List Nat} {a b : List (AOp α)}
    (h : CallsValid l m parts filled (a ++ b)) :
    CallsValid l m parts filled a ∧ ∃ filled', CallsValid l m parts filled' b := by
  induction a generalizing filled with
  | nil => exact ⟨trivial, _, h⟩
  | cons op a ih =>
    obtain ⟨h1, h2⟩ := h
    obtain ⟨g1, g2⟩ := ih h2
    exact ⟨⟨h1, g1⟩, g2⟩

/-! ### Several communicator objects -/

theorem SOp.exec_fits {ub : Nat} (l : Layout) (junk : Nat → List Nat → α) (r : Int) (op : SOp α) (s : SState α)
    (hub : s.tag + op.nTags ≤ ub) :
    (op.exec l junk r s).Spec (Fine ub) fun x => ∀ s', x = .ok s' → s'.tag = s.tag + op.nTags := by
  cases op with
  | call c =>
    refine Proc.Spec.bind ((CommM.Uses.exec (n := s.tag) l r c ⟨s.mem, s.tag, []⟩ rfl).mono
      (fun t h => ?_) fun _ h => h) fun y hy => ?_
    · obtain ⟨i, rfl, h1, h2⟩ := h
      have : s.tag + c.nTags ≤ ub := hub
      simp only [Fine, Tag.allowed, decide_eq_true_eq]
      omega
    obtain ⟨a | a, s1⟩ := y
    · intro s' h
      cases h
    · intro s' h
      cases h
      exact (hy a rfl).1
  | scatter q g =>
    refine Proc.Spec.bind ((calls_scatter _ _ _ _ _ s.coll).mono (fun t h => fine_coll h) fun _ _ => trivial)
      (Q := fun _ => True) fun y _ => ?_
    obtain ⟨a | a, s1⟩ := y
    · intro s' h
      cases h
    · intro s' h
      cases h
      rfl
  | gather q g =>
    refine Proc.Spec.bind ((calls_gather _ _ _ _ _ s.coll).mono (fun t h => fine_coll h) fun _ _ => trivial)
      (Q := fun _ => True) fun y _ => ?_
    obtain ⟨a | a, s1⟩ := y
    · intro s' h
      cases h
    · intro s' h
      cases h
      rfl

omit [Neg α] in
theorem tagCountOf_cons (c c' : Nat) (op : SOp α) (ops : List (Nat × SOp α)) :
    tagCountOf c ((c', op) :: ops) = (if c' = c then op.tagCount else 0) + tagCountOf c ops := by
  unfold tagCountOf
  by_cases h : c' = c
  · simp [h]
  · simp [h]

theorem execMany_fits {ub : Nat} (l : Layout) (junk : Nat → List Nat → α) (r : Int) (ops : List (Nat × SOp α))
    (s : MState α) (hub : ∀ c, s.tags c + tagCountOf c ops ≤ ub) :
    (execMany l junk r ops s).Spec (Fine ub) fun _ => True := by
  induction ops generalizing s with
  | nil => trivial
  | cons op ops ih =>
    obtain ⟨c, op⟩ := op
    refine Proc.Spec.bind (SOp.exec_fits l junk r op (s.view c) ?_) fun y hy => ?_
    · have := hub c
      rw [tagCountOf_cons, if_pos rfl, SOp.tagCount_nTags] at this
      show s.tags c + op.nTags ≤ ub
      omega
    cases y with
    | error e => trivial
    | ok s1 =>
      refine ih _ fun c' => ?_
      have h1 := hy s1 rfl
      have h2 := hub c'
      rw [tagCountOf_cons, SOp.tagCount_nTags] at h2
      have h1 : s1.tag = s.tags c + op.nTags := h1
      show (if c' = c then s1.tag else s.tags c') + _ ≤ ub
      split
      · next e => subst e; rw [if_pos rfl] at h2; omega
      · next e => rw [if_neg fun e' => e e'.symm] at h2; omega

end FV3
