import Verif.Proofs.DriverRun
import Verif.Proofs.Bulk

/-!
# A call uses the tags from its tag counter on
-/

namespace FV3
variable {α A B : Type}

/-- The halo tags `lo + 1, ..., hi`. -/
def IsHaloIn (lo hi : Nat) (t : Tag) : Prop := ∃ i, t = .halo i ∧ lo < i ∧ i ≤ hi

/-- Started with tag counter `n` the program only uses the halo tags `lo + 1, ..., hi`; if it does not raise, it
leaves the counter at `m` and its result is in `Q`. -/
def CommM.Uses (lo hi n m : Nat) (Q : A → Prop) (c : CommM α A) : Prop :=
  ∀ s, s.lastTag = n → (c s).Spec (IsHaloIn lo hi) fun x => ∀ a, x.1 = .ok a → x.2.lastTag = m ∧ Q a

namespace CommM.Uses
variable {lo hi n m k : Nat} {Q : A → Prop} {Q' : B → Prop}

theorem bind {c : CommM α A} {f : A → CommM α B} (hc : c.Uses lo hi n m Q)
    (hf : ∀ a, Q a → (f a).Uses lo hi m k Q') : (c >>= f).Uses lo hi n k Q' := by
  intro s hs
  refine Proc.Spec.bind (hc s hs) ?_
  rintro ⟨a | a, s'⟩ h
  · intro b hb
    cases hb
  · obtain ⟨h1, h2⟩ := h a rfl
    exact hf a h2 s' h1

theorem pure {a : A} (h : Q a) : (Pure.pure a : CommM α A).Uses lo hi n n Q := by
  intro s hs b hb
  cases hb
  exact ⟨hs, h⟩

theorem lift (x : Py A) : (CommM.lift x : CommM α A).Uses lo hi n n fun _ => True :=
  fun _ hs _ _ => ⟨hs, trivial⟩

theorem raise (e : PyErr) : (CommM.raise e : CommM α A).Uses lo hi n m Q := by
  intro s _ a h
  cases h

theorem quantity (q : Nat) : (CommM.quantity q : CommM α _).Uses lo hi n n fun _ => True :=
  fun _ hs _ _ => ⟨hs, trivial⟩

theorem getTag : (getHaloTag : CommM α Nat).Uses lo hi n (n + 1) fun t => t = n + 1 := by
  intro s hs a h
  cases h
  exact ⟨by rw [hs], by rw [hs]⟩

theorem isend (dst : Int) {tag : Nat} (h1 : lo < tag) (h2 : tag ≤ hi) (a : NDArray α) :
    (FV3.isend dst tag a).Uses lo hi n n fun r => lo < r.tag ∧ r.tag ≤ hi := by
  intro s hs
  refine ⟨⟨tag, rfl, h1, h2⟩, fun i b hb => ?_⟩
  cases hb
  exact ⟨hs, h1, h2⟩

theorem recvInto {rq : RecvReq} (h1 : lo < rq.tag) (h2 : rq.tag ≤ hi) :
    (FV3.recvInto rq : CommM α Unit).Uses lo hi n n fun _ => True := by
  intro s hs
  refine ⟨⟨rq.tag, rfl, h1, h2⟩, fun m => ?_⟩
  cases m with
  | data a =>
    dsimp only
    split
    · exact fun _ _ => ⟨hs, trivial⟩
    · exact fun _ _ => ⟨hs, trivial⟩
  | _ => exact fun _ _ => ⟨hs, trivial⟩

theorem awaitSend {sr : SendReq} (h1 : lo < sr.tag) (h2 : sr.tag ≤ hi) :
    (FV3.awaitSend sr : CommM α Unit).Uses lo hi n n fun _ => True :=
  fun _ hs => ⟨⟨sr.tag, rfl, h1, h2⟩, fun _ _ _ => ⟨hs, trivial⟩⟩

theorem forEach {f : A → CommM α B} : ∀ (as : List A), (∀ a ∈ as, (f a).Uses lo hi n n Q') →
    (CommM.forEach f as).Uses lo hi n n fun bs => ∀ b ∈ bs, Q' b
  | [], _ => pure (by simp)
  | a :: as, h => by
    refine CommM.Uses.bind (h a (by simp)) fun b hb =>
      CommM.Uses.bind (forEach as fun a ha => h a (by simp [ha])) fun bs hbs => pure ?_
    intro b' hb'
    rcases List.mem_cons.1 hb' with rfl | h
    · exact hb
    · exact hbs b' h

/-- The tags of a request. -/
def ReqIn (lo hi : Nat) (req : Request) : Prop :=
  (∀ r ∈ req.sends, lo < r.tag ∧ r.tag ≤ hi) ∧ ∀ r ∈ req.recvs, lo < r.tag ∧ r.tag ≤ hi

theorem waitRequest {req : Request} (h : ReqIn lo hi req) :
    (FV3.waitRequest req : CommM α Unit).Uses lo hi n n fun _ => True :=
  CommM.Uses.bind (forEach _ fun r hr => recvInto (h.2 r hr).1 (h.2 r hr).2) fun _ _ =>
    CommM.Uses.bind (forEach _ fun r hr => awaitSend (h.1 r hr).1 (h.1 r hr).2) fun _ _ => pure trivial

theorem irecvHalos (l : Layout) (r : Int) (q : Nat) (h : Int) {tag : Nat} (h1 : lo < tag) (h2 : tag ≤ hi) :
    (FV3.irecvHalos l r q h tag : CommM α _).Uses lo hi n n fun rs => ∀ x ∈ rs, lo < x.tag ∧ x.tag ≤ hi :=
  CommM.Uses.bind (lift _) fun _ _ => forEach _ fun _ _ => CommM.Uses.bind (quantity _) fun _ _ =>
    CommM.Uses.bind (lift _) fun _ _ => pure ⟨h1, h2⟩

theorem haloUpdate (l : Layout) (r : Int) (q : Nat) (h : Int) :
    (FV3.haloUpdate l r q h : CommM α Unit).Uses n (n + 1) n (n + 1) fun _ => True := by
  refine CommM.Uses.bind (Q := ReqIn n (n + 1)) ?_ fun req hreq => waitRequest hreq
  unfold startHaloUpdate
  split
  · exact raise _
  · refine CommM.Uses.bind getTag fun t ht => ?_
    have h1 : n < t := by omega
    have h2 : t ≤ n + 1 := by omega
    exact CommM.Uses.bind
      (CommM.Uses.bind (lift _) fun _ _ => forEach _ fun _ _ => CommM.Uses.bind (quantity _) fun _ _ =>
        CommM.Uses.bind (lift _) fun _ _ => CommM.Uses.bind (lift _) fun _ _ => isend _ h1 h2 _)
      fun ss hss => CommM.Uses.bind (irecvHalos _ _ _ _ h1 h2) fun rs hrs => pure ⟨hss, hrs⟩

variable [Neg α]

theorem vectorHaloUpdate (l : Layout) (r : Int) (x y : Nat) (h : Int) :
    (FV3.vectorHaloUpdate l r x y h : CommM α Unit).Uses n (n + 2) n (n + 2) fun _ => True := by
  refine CommM.Uses.bind (Q := ReqIn n (n + 2)) ?_ fun req hreq => waitRequest hreq
  unfold startVectorHaloUpdate
  split
  · exact raise _
  · refine CommM.Uses.bind getTag fun t ht => CommM.Uses.bind getTag fun t' ht' => ?_
    have h1 : n < t := by omega
    have h2 : t ≤ n + 2 := by omega
    have h3 : n < t' := by omega
    have h4 : t' ≤ n + 2 := by omega
    refine CommM.Uses.bind (Q := fun ss => ∀ s ∈ ss, n < s.tag ∧ s.tag ≤ n + 2)
      (CommM.Uses.bind (lift _) fun _ _ => CommM.Uses.bind
        (forEach (Q' := fun ss => ∀ s ∈ ss, n < s.tag ∧ s.tag ≤ n + 2) _ fun _ _ =>
          CommM.Uses.bind (quantity _) fun _ _ => CommM.Uses.bind (quantity _) fun _ _ =>
          CommM.Uses.bind (lift _) fun _ _ => CommM.Uses.bind (lift _) fun _ _ => CommM.Uses.bind (lift _) fun _ _ =>
          CommM.Uses.bind (isend _ h1 h2 _) fun s hs => CommM.Uses.bind (isend _ h3 h4 _) fun s' hs' => pure ?_)
        fun ss hss => pure ?_)
      fun ss hss => CommM.Uses.bind (irecvHalos _ _ _ _ h1 h2) fun rs hrs =>
        CommM.Uses.bind (irecvHalos _ _ _ _ h3 h4) fun rs' hrs' => pure ⟨hss, ?_⟩
    · intro z hz
      simp only [List.mem_cons, List.not_mem_nil, or_false] at hz
      rcases hz with rfl | rfl
      · exact hs
      · exact hs'
    · intro z hz
      obtain ⟨w, hw, hz⟩ := List.mem_flatten.1 hz
      exact hss w hw z hz
    · intro z hz
      rcases List.mem_append.1 hz with hz | hz
      · exact hrs z hz
      · exact hrs' z hz

theorem synchronize (l : Layout) (r : Int) (x y : Nat) :
    (FV3.synchronize l r x y : CommM α Unit).Uses n (n + 1) n (n + 1) fun _ => True := by
  refine CommM.Uses.bind (Q := ReqIn n (n + 1)) ?_ fun req hreq => waitRequest hreq
  unfold startSynchronize
  refine CommM.Uses.bind (quantity _) fun _ _ => CommM.Uses.bind (quantity _) fun _ _ => ?_
  split
  · exact raise _
  · refine CommM.Uses.bind getTag fun t ht => ?_
    have h1 : n < t := by omega
    have h2 : t ≤ n + 1 := by omega
    refine CommM.Uses.bind (Q := fun ss => ∀ s ∈ ss, n < s.tag ∧ s.tag ≤ n + 1)
      (CommM.Uses.bind (lift _) fun _ _ => CommM.Uses.bind (lift _) fun _ _ => CommM.Uses.bind (quantity _) fun _ _ =>
        CommM.Uses.bind (quantity _) fun _ _ => CommM.Uses.bind (lift _) fun _ _ => CommM.Uses.bind (lift _) fun _ _ =>
        CommM.Uses.bind (isend _ h1 h2 _) fun s hs => CommM.Uses.bind (isend _ h1 h2 _) fun s' hs' => pure ?_)
      fun ss hss => CommM.Uses.bind (Q := fun rs => ∀ r ∈ rs, n < r.tag ∧ r.tag ≤ n + 1)
        (CommM.Uses.bind (lift _) fun _ _ => CommM.Uses.bind (lift _) fun _ _ => CommM.Uses.bind (quantity _) fun _ _ =>
        CommM.Uses.bind (quantity _) fun _ _ => CommM.Uses.bind (lift _) fun _ _ => CommM.Uses.bind (lift _) fun _ _ =>
        pure ?_) fun rs hrs => pure ⟨hss, hrs⟩
    · intro z hz
      simp only [List.mem_cons, List.not_mem_nil, or_false] at hz
      rcases hz with rfl | rfl
      · exact hs
      · exact hs'
    · intro z hz
      simp only [List.mem_cons, List.not_mem_nil, or_false] at hz
      rcases hz with rfl | rfl <;> exact ⟨h1, h2⟩

theorem exec (l : Layout) (r : Int) (c : Call α) :
    (c.exec l r).Uses n (n + c.nTags) n (n + c.nTags) fun _ => True := by
  cases c with
  | haloUpdate q h => exact haloUpdate l r q h
  | vectorHaloUpdate x y h => exact vectorHaloUpdate l r x y h
  | synchronize x y => exact synchronize l r x y
  | compute f => exact fun _ hs _ _ => ⟨hs, trivial⟩

omit [Neg α] in
theorem mono {lo' hi' : Nat} {c : CommM α A} (h : c.Uses lo hi n m Q) (h1 : lo' ≤ lo) (h2 : hi ≤ hi') :
    c.Uses lo' hi' n m Q := by
  intro s hs
  refine (h s hs).mono ?_ fun _ h => h
  rintro t ⟨i, rfl, a, b⟩
  exact ⟨i, rfl, by omega, by omega⟩

theorem execCalls (l : Layout) (r : Int) : ∀ (cs : List (Call α)) (n : Nat),
    (FV3.execCalls l r cs).Uses n (n + (cs.map Call.nTags).sum) n (n + (cs.map Call.nTags).sum) fun _ => True
  | [], n => pure trivial
  | c :: cs, n => by
    rw [List.map_cons, List.sum_cons]
    refine CommM.Uses.bind ((exec l r c).mono (Nat.le_refl _) (by omega)) fun _ _ => ?_
    have := (execCalls l r cs (n + c.nTags)).mono (lo' := n) (hi' := n + (c.nTags + (cs.map Call.nTags).sum))
      (by omega) (by omega)
    rwa [Nat.add_assoc] at this

end CommM.Uses

/-! ### A call after others -/

theorem Proc.bind_ret {M R : Type} (p : Proc M R) : p.bind .ret = p := by
  induction p with
  | ret x => rfl
  | isend d t m k ih => simp only [Proc.bind, ih]
  | recv s t k ih => simp only [Proc.bind, ih]
  | await d t i k ih => simp only [Proc.bind, ih]

theorem Net.Completes.of_run {M R : Type} {buf : Buffering} {N A : Net M R} {res : Int → R} (h : N.Completes buf res)
    {sched : List Int} (hA : N.run buf sched = some A) : A.Completes buf res := by
  obtain ⟨T, n, h1, h2⟩ := h
  obtain ⟨s1, h3, -⟩ := h2 sched A hA
  exact Net.completes_of_run h3 h1

variable [Neg α]

/-- What a rank does after the calls so far. -/
def andCalls (l : Layout) (r : Int) (cs : List (Call α)) (x : Py Unit × RankState α) :
    Proc (Msg α) (Py Unit × RankState α) :=
  match x.1 with
  | .ok _ => execCalls l r cs x.2
  | .error e => .ret (.error e, x.2)

theorem execCalls_append (l : Layout) (r : Int) (cs cs' : List (Call α)) (s : RankState α) :
    execCalls l r (cs ++ cs') s = (execCalls l r cs s).bind (andCalls l r cs') := by
  induction cs generalizing s with
  | nil => rfl
  | cons c cs ih =>
    show CommM.bind (c.exec l r) (fun _ => execCalls l r (cs ++ cs')) s =
      (CommM.bind (c.exec l r) (fun _ => execCalls l r cs) s).bind (andCalls l r cs')
    unfold CommM.bind
    rw [Proc.bind_bind]
    congr 1
    funext x
    cases x.1 with
    | ok a => exact ih _
    | error e => rfl

theorem execCalls_one (l : Layout) (r : Int) (c : Call α) (s : RankState α) :
    execCalls l r [c] s = c.exec l r s := by
  show CommM.bind (c.exec l r) (fun _ => CommM.pure ()) s = _
  unfold CommM.bind
  refine Eq.trans ?_ (Proc.bind_ret _)
  congr 1
  funext x
  obtain ⟨a | a, s⟩ := x <;> rfl

theorem callStep_congr {l : Layout} {c : Call α} {m m1 m' m2 : Int → Mem α} (h : CallStep l c m1 m2)
    (h1 : ∀ r ∈ allRanks l, m1 r = m r) (h2 : ∀ r ∈ allRanks l, m' r = m2 r) : CallStep l c m m' := by
  have key : ∀ op : Op α, UpdateStep l op m1 m2 → UpdateStep l op m m' := by
    intro op hop r hr
    obtain ⟨a1, i, a2, a3⟩ := hop r hr
    have e : packedFor l op m1 r = packedFor l op m r := by
      funext src off
      unfold packedFor
      by_cases hs : src ∈ allRanks l
      · rw [if_pos hs, if_pos hs, h1 src hs]
      · rw [if_neg hs, if_neg hs]
    rw [h1 r hr] at a1 a2 a3
    rw [h2 r hr, ← e]
    exact ⟨a1, i, a2, a3⟩
  cases c with
  | haloUpdate q n => exact key _ h
  | vectorHaloUpdate x y n => exact key _ h
  | synchronize x y => exact key _ h
  | compute f =>
    intro r hr
    rw [h2 r hr, h r hr, h1 r hr]

theorem callsRun_last {l : Layout} {hist : List (Call α)} {c : Call α} {m m0 m' : Int → Mem α}
    (h : CallsRun l (hist ++ ([.compute fun r _ => m r] ++ [c])) m0 m') : CallStep l c m m' := by
  induction hist generalizing m0 with
  | nil =>
    obtain ⟨m1, a1, m2, a2, a3⟩ := h
    exact callStep_congr a2 a1 a3
  | cons x xs ih =>
    obtain ⟨m1, -, a2⟩ := h
    exact ih a2

theorem callsRun_set {l : Layout} {hist : List (Call α)} {m m0 m' : Int → Mem α}
    (h : CallsRun l (hist ++ [.compute fun r _ => m r]) m0 m') : ∀ r ∈ allRanks l, m' r = m r := by
  induction hist generalizing m0 with
  | nil =>
    obtain ⟨m1, a1, a2⟩ := h
    intro r hr
    rw [a2 r hr, a1 r hr]
  | cons x xs ih =>
    obtain ⟨m1, -, a2⟩ := h
    exact ih a2

/-- A call, when the tags of other calls have been used before: it completes on an empty network, with the outcome of
being performed on all ranks at once. -/
theorem call_from {l : Layout} {Good : Int → Mem α → Prop} (buf : Buffering) {hist : List (Call α)} {c : Call α}
    {m : Int → Mem α} (hg : ∀ r ∈ allRanks l, Good r (m r))
    (hs : ∀ c' ∈ hist ++ [c], ∀ op, c'.start = some op → StartSound l Good op)
    (hc : ∀ f, Call.compute f ∈ hist ++ [c] → ∀ r ∈ allRanks l, ∀ m, Good r m → Good r (f r m)) :
    ∃ m' : Int → Mem α, CallStep l c m m' ∧ (∀ r ∈ allRanks l, Good r (m' r)) ∧
      (Net.start fun r => if r ∈ allRanks l then c.exec l r ⟨m r, (hist.map Call.nTags).sum, []⟩
        else .ret (.ok (), ⟨m r, 0, []⟩)).Completes buf fun r =>
        (.ok (), ⟨m' r, if r ∈ allRanks l then (hist.map Call.nTags).sum + c.nTags else 0, []⟩) := by
  let st : Call α := .compute fun r _ => m r
  have hstart : st.start = none := rfl
  obtain ⟨m1, a1, -, a3⟩ := calls_bulk (l := l) (Good := Good) (calls := hist ++ [st]) (mem := m) buf hg
    (fun c' hc' op ho => by
      rcases List.mem_append.1 hc' with h | h
      · exact hs c' (by simp [h]) op ho
      · rw [List.mem_singleton] at h
        subst h
        rw [hstart] at ho
        cases ho)
    (fun f hf r hr x hx => by
      rcases List.mem_append.1 hf with h | h
      · exact hc f (by simp [h]) r hr x hx
      · rw [List.mem_singleton] at h
        have e : f = fun r _ => m r := by injection h
        rw [e]
        exact hg r hr)
  obtain ⟨m2, b1, b2, b3⟩ := calls_bulk (l := l) (Good := Good) (calls := hist ++ ([st] ++ [c])) (mem := m) buf hg
    (fun c' hc' op ho => by
      simp only [List.mem_append, List.mem_singleton] at hc'
      rcases hc' with h | h | h
      · exact hs c' (by simp [h]) op ho
      · subst h
        rw [hstart] at ho
        cases ho
      · exact hs c' (by simp [h]) op ho)
    (fun f hf r hr x hx => by
      simp only [List.mem_append, List.mem_singleton] at hf
      rcases hf with h | h | h
      · exact hc f (by simp [h]) r hr x hx
      · have e : f = fun r _ => m r := by injection h
        rw [e]
        exact hg r hr
      · exact hc f (by simp [h]) r hr x hx)
  have hset := callsRun_set a1
  refine ⟨m2, callsRun_last b1, b2, ?_⟩
  obtain ⟨sched, T, r1, r2⟩ := a3.run
  -- the network when the last call begins
  let K : Int → Py Unit × RankState α → Proc (Msg α) (Py Unit × RankState α) := fun r x =>
    if r ∈ allRanks l then andCalls l r [c] x else .ret (.ok (), ⟨m r, 0, []⟩)
  have hK : callNet l (hist ++ ([st] ++ [c])) m = (callNet l (hist ++ [st]) m).andThen K := by
    unfold callNet Net.andThen Net.start
    congr 1
    funext r
    dsimp only [K]
    by_cases hr : r ∈ allRanks l
    · simp only [if_pos hr]
      rw [← List.append_assoc, execCalls_append]
    · simp only [if_neg hr]
      rfl
  have hsum : ((hist ++ [st]).map Call.nTags).sum = (hist.map Call.nTags).sum := by
    simp [st, Call.nTags]
  have hrun := Net.run_andThen K r1
  rw [← hK] at hrun
  obtain ⟨sched2, T2, q1, q2⟩ := (b3.of_run hrun).run
  -- the tags of the last call have not been used
  obtain ⟨T', e1, -, e3, e4⟩ := Net.run_embed (buf := buf) (A := IsHaloIn 0 (hist.map Call.nTags).sum)
    (Q := fun _ _ => True) (N := callNet l (hist ++ [st]) m) (N' := callNet l (hist ++ [st]) m) (fun r => by
      unfold callNet Net.start
      dsimp only
      split
      · have := CommM.Uses.execCalls l r (hist ++ [st]) 0 ⟨m r, 0, []⟩ rfl
        rw [hsum, Nat.zero_add] at this
        exact this.mono (fun _ h => h) fun _ _ => trivial
      · trivial) rfl (fun _ _ _ _ => rfl) (fun _ _ _ _ => rfl) r1
  rw [r1] at e1
  cases e1
  have hprocs : ∀ r, (T.andThen K).procs r = if r ∈ allRanks l then
      c.exec l r ⟨m r, (hist.map Call.nTags).sum, []⟩ else .ret (.ok (), ⟨m r, 0, []⟩) := by
    intro r
    unfold Net.andThen
    dsimp only
    rw [r2 r]
    show K r _ = _
    dsimp only [K]
    by_cases hr : r ∈ allRanks l
    · rw [if_pos hr, if_pos hr, if_pos hr, hsum, hset r hr]
      exact execCalls_one l r c _
    · rw [if_neg hr, if_neg hr]
  have hnot : ∀ t, IsHaloIn (hist.map Call.nTags).sum ((hist.map Call.nTags).sum + c.nTags) t →
      ¬ IsHaloIn 0 (hist.map Call.nTags).sum t := by
    rintro t ⟨i, rfl, h1, h2⟩ ⟨j, h, h3, h4⟩
    cases h
    omega
  obtain ⟨T3, f1, f2, -⟩ := Net.run_embed (buf := buf)
    (A := IsHaloIn (hist.map Call.nTags).sum ((hist.map Call.nTags).sum + c.nTags))
    (Q := fun _ _ => True) (N := T.andThen K) (N' := Net.start fun r => if r ∈ allRanks l then
      c.exec l r ⟨m r, (hist.map Call.nTags).sum, []⟩ else .ret (.ok (), ⟨m r, 0, []⟩)) (fun r => by
      rw [hprocs r]
      split
      · exact (CommM.Uses.exec l r c _ rfl).mono (fun _ h => h) fun _ _ => trivial
      · trivial) (by funext r; rw [hprocs r]; rfl)
    (fun s d t ht => (e3 s d t (hnot t ht)).symm) (fun s d t ht => (e4 s d t (hnot t ht)).symm) q1
  refine Net.completes_of_run f1 fun r => ?_
  rw [f2, q2 r]
  have : ((hist ++ ([st] ++ [c])).map Call.nTags).sum = (hist.map Call.nTags).sum + c.nTags := by
    simp [st, Call.nTags]
  rw [this]

end FV3
