import Verif.Proofs.Phases
import Verif.Proofs.ScatterProg
import Verif.Proofs.Boundaries
import Verif.Model.Driver

/-!
# The phases of a model run
-/

namespace FV3
variable {α A B : Type}

/-- The tags of halo updates. -/
def IsHaloTag (t : Tag) : Prop := ∃ n, t = .halo n

/-- The tags of the collective calls number `lo`, ..., `hi - 1`. -/
def IsCollTag (lo hi : Nat) (t : Tag) : Prop := ∃ i, t = .coll i ∧ lo ≤ i ∧ i < hi

/-! ### Halo updates -/

/-- The program only uses the tags of halo updates. -/
def CommM.Halo (c : CommM α A) : Prop := ∀ s, (c s).Spec IsHaloTag fun _ => True

namespace CommM.Halo

theorem bind {c : CommM α A} {f : A → CommM α B} (hc : c.Halo) (hf : ∀ a, (f a).Halo) : (c >>= f).Halo := by
  intro s
  refine Proc.Spec.bind (hc s) ?_
  rintro ⟨a | a, m⟩ -
  · trivial
  · exact hf a m

theorem pure (a : A) : (Pure.pure a : CommM α A).Halo := fun _ => trivial
theorem lift (a : Py A) : (CommM.lift a : CommM α A).Halo := fun _ => trivial
theorem raise (e : PyErr) : (CommM.raise e : CommM α A).Halo := fun _ => trivial
theorem quantity (q : Nat) : (CommM.quantity q : CommM α _).Halo := fun _ => trivial
theorem getTag : (getHaloTag : CommM α Nat).Halo := fun _ => trivial

theorem isend (dst : Int) (tag : Nat) (a : NDArray α) : (FV3.isend dst tag a).Halo :=
  fun _ => ⟨⟨tag, rfl⟩, fun _ => trivial⟩

theorem recvInto (rq : RecvReq) : (FV3.recvInto rq : CommM α Unit).Halo := by
  refine fun s => ⟨⟨rq.tag, rfl⟩, fun m => ?_⟩
  cases m with
  | data a =>
    dsimp only
    split <;> trivial
  | _ => trivial

theorem awaitSend (sr : SendReq) : (FV3.awaitSend sr : CommM α Unit).Halo :=
  fun _ => ⟨⟨sr.tag, rfl⟩, fun _ => trivial⟩

theorem forEach {f : A → CommM α B} (hf : ∀ a, (f a).Halo) : ∀ l : List A, (CommM.forEach f l).Halo
  | [] => pure _
  | a :: as => (hf a).bind fun _ => (forEach hf as).bind fun _ => pure _

theorem waitRequest (req : Request) : (FV3.waitRequest req : CommM α Unit).Halo :=
  (forEach recvInto _).bind fun _ => (forEach awaitSend _).bind fun _ => pure _

theorem irecvHalos (l : Layout) (r : Int) (q : Nat) (n : Int) (tag : Nat) : (FV3.irecvHalos l r q n tag : CommM α _).Halo :=
  (lift _).bind fun _ => forEach (fun _ => (quantity _).bind fun _ => (lift _).bind fun _ => pure _) _

theorem haloUpdate (l : Layout) (r : Int) (q : Nat) (n : Int) : (FV3.haloUpdate l r q n : CommM α Unit).Halo := by
  refine CommM.Halo.bind ?_ waitRequest
  unfold startHaloUpdate
  split
  · exact raise _
  · exact getTag.bind fun _ => CommM.Halo.bind
      ((lift _).bind fun _ => forEach (fun _ => (quantity _).bind fun _ => (lift _).bind fun _ =>
        (lift _).bind fun _ => isend _ _ _) _)
      fun _ => (irecvHalos _ _ _ _ _).bind fun _ => pure _

variable [Neg α]

theorem vectorHaloUpdate (l : Layout) (r : Int) (x y : Nat) (n : Int) : (FV3.vectorHaloUpdate l r x y n : CommM α Unit).Halo := by
  refine CommM.Halo.bind ?_ waitRequest
  unfold startVectorHaloUpdate
  split
  · exact raise _
  · exact getTag.bind fun _ => getTag.bind fun _ => CommM.Halo.bind
      ((lift _).bind fun _ => CommM.Halo.bind (forEach (fun _ => (quantity _).bind fun _ => (quantity _).bind fun _ =>
        (lift _).bind fun _ => (lift _).bind fun _ => (lift _).bind fun _ => (isend _ _ _).bind fun _ =>
        (isend _ _ _).bind fun _ => pure _) _) fun _ => pure _)
      fun _ => (irecvHalos _ _ _ _ _).bind fun _ => (irecvHalos _ _ _ _ _).bind fun _ => pure _

theorem synchronize (l : Layout) (r : Int) (x y : Nat) : (FV3.synchronize l r x y : CommM α Unit).Halo := by
  refine CommM.Halo.bind ?_ waitRequest
  unfold startSynchronize
  refine (quantity _).bind fun _ => (quantity _).bind fun _ => ?_
  split
  · exact raise _
  · exact getTag.bind fun _ => CommM.Halo.bind
      ((lift _).bind fun _ => (lift _).bind fun _ => (quantity _).bind fun _ => (quantity _).bind fun _ =>
        (lift _).bind fun _ => (lift _).bind fun _ => (isend _ _ _).bind fun _ => (isend _ _ _).bind fun _ => pure _)
      fun _ => CommM.Halo.bind
        ((lift _).bind fun _ => (lift _).bind fun _ => (quantity _).bind fun _ => (quantity _).bind fun _ =>
          (lift _).bind fun _ => (lift _).bind fun _ => pure _)
        fun _ => pure _

theorem execCalls (l : Layout) (r : Int) : ∀ calls : List (Call α), (FV3.execCalls l r calls).Halo
  | [] => pure _
  | c :: cs => by
    refine CommM.Halo.bind ?_ fun _ => execCalls l r cs
    cases c with
    | haloUpdate q n => exact haloUpdate l r q n
    | vectorHaloUpdate x y n => exact vectorHaloUpdate l r x y n
    | synchronize x y => exact synchronize l r x y
    | compute f => exact fun _ => trivial

end CommM.Halo

/-! ### Collectives -/

/-- The program makes at most `k` collective calls, and exactly `k` if it does not raise. -/
def CollM.Calls (k : Nat) (c : CollM α A) : Prop :=
  ∀ n, (c n).Spec (IsCollTag n (n + k)) fun x => ∀ a, x.1 = .ok a → x.2 = n + k

theorem CollM.Calls.bind {j k : Nat} {c : CollM α A} {f : A → CollM α B} (hc : c.Calls j) (hf : ∀ a, (f a).Calls k) :
    (c >>= f).Calls (j + k) := by
  intro n
  refine Proc.Spec.bind (Q := fun x => ∀ a, x.1 = .ok a → x.2 = n + j) ((hc n).mono ?_ fun _ h => h) ?_
  · rintro t ⟨i, h1, h2, h3⟩
    exact ⟨i, h1, h2, by omega⟩
  · rintro ⟨a | a, m⟩ hx
    · intro b hb
      cases hb
    · have := hx a rfl
      dsimp only at this
      subst this
      refine (hf a (n + j)).mono ?_ ?_
      · rintro t ⟨i, h1, h2, h3⟩
        exact ⟨i, h1, by omega, by omega⟩
      · intro x h b hb
        rw [h b hb]
        omega

theorem CollM.Calls.bind0 {k : Nat} {c : CollM α A} {f : A → CollM α B} (hc : c.Calls 0) (hf : ∀ a, (f a).Calls k) :
    (c >>= f).Calls k := by
  have := hc.bind hf
  rwa [Nat.zero_add] at this

theorem CollM.calls_lift (a : Py A) : (CollM.lift a : CollM α A).Calls 0 := fun _ _ _ => rfl
theorem CollM.calls_pure (a : A) : (Pure.pure a : CollM α A).Calls 0 := fun _ _ _ => rfl
theorem CollM.calls_raise (k : Nat) (e : PyErr) : (CollM.raise e : CollM α A).Calls k := by
  intro n a h
  cases h

theorem sendAll_spec {R : Type} {T : Tag → Prop} {Q : R → Prop} (tag : Tag) (ht : T tag) (msg : Int → Msg α)
    {p : Proc (Msg α) R} (hp : p.Spec T Q) : ∀ rs, (sendAll tag msg rs p).Spec T Q
  | [] => hp
  | _ :: rs => ⟨ht, fun _ => sendAll_spec tag ht msg hp rs⟩

theorem awaitAll_spec {R : Type} {T : Tag → Prop} {Q : R → Prop} (tag : Tag) (ht : T tag)
    {p : Proc (Msg α) R} (hp : p.Spec T Q) : ∀ rs, (awaitAll tag rs p).Spec T Q
  | [] => hp
  | _ :: rs => ⟨ht, fun _ => awaitAll_spec tag ht hp rs⟩

theorem recvAll_spec {R : Type} {T : Tag → Prop} {Q : R → Prop} (tag : Tag) (ht : T tag) :
    ∀ (rs : List Int) {k : List (Msg α) → Proc (Msg α) R}, (∀ ms, (k ms).Spec T Q) → (recvAll tag rs k).Spec T Q
  | [], _, hk => hk []
  | _ :: rs, _, hk => ⟨ht, fun _ => recvAll_spec tag ht rs fun _ => hk _⟩

theorem calls_rootSends (size : Int) (msg : Int → Msg α) : (rootSends size msg).Calls 1 := by
  intro n
  have ht : IsCollTag n (n + 1) (.coll n) := ⟨n, rfl, by omega, by omega⟩
  refine sendAll_spec _ ht _ (awaitAll_spec _ ht ?_ _) _
  exact fun _ _ => rfl

theorem calls_clientRecvs : (clientRecvs : CollM α (Msg α)).Calls 1 :=
  fun n => ⟨⟨n, rfl, by omega, by omega⟩, fun _ _ _ => rfl⟩

theorem calls_rootRecvs (size : Int) : (rootRecvs size : CollM α (List (Msg α))).Calls 1 := by
  intro n
  exact recvAll_spec _ ⟨n, rfl, by omega, by omega⟩ _ fun _ _ _ => rfl

theorem calls_clientSends (m : Msg α) : (clientSends m).Calls 1 :=
  fun n => ⟨⟨n, rfl, by omega, by omega⟩, fun _ => ⟨⟨n, rfl, by omega, by omega⟩, fun _ _ _ => rfl⟩⟩

theorem calls_bcast (size rank : Int) (m : Msg α) : (bcast size rank m).Calls 1 := by
  unfold bcast
  split
  · exact (calls_rootSends _ _).bind (k := 0) fun _ => CollM.calls_pure _
  · exact calls_clientRecvs

theorem calls_scatter (c : Comm) (junk : List Nat → α) (rank : Int) (send recv : Option (Quantity α)) :
    (scatter c junk rank send recv).Calls 2 := by
  unfold scatter
  split
  · cases send with
    | none => exact CollM.calls_raise _ _
    | some sq =>
      refine CollM.Calls.bind (j := 1) (k := 1) (calls_bcast _ _ _) fun m => (CollM.calls_lift _).bind0 fun md =>
        (CollM.calls_lift _).bind0 fun sh => (CollM.calls_lift _).bind0 fun rq => (CollM.calls_lift _).bind0 fun blocks => ?_
      cases blocks with
      | nil => exact CollM.calls_raise _ _
      | cons own others => exact (calls_rootSends _ _).bind (k := 0) fun _ => CollM.calls_lift _
  · exact CollM.Calls.bind (j := 1) (k := 1) (calls_bcast _ _ _) fun m => (CollM.calls_lift _).bind0 fun md =>
      (CollM.calls_lift _).bind0 fun sh => (CollM.calls_lift _).bind0 fun rq =>
      calls_clientRecvs.bind (k := 0) fun d => (CollM.calls_lift _).bind0 fun a => CollM.calls_lift _

theorem calls_gather (c : Comm) (junk : List Nat → α) (rank : Int) (send : Quantity α) (recv : Option (Quantity α)) :
    (gather c junk rank send recv).Calls 1 := by
  unfold gather
  split
  · exact (CollM.calls_lift _).bind0 fun own => (calls_rootRecvs _).bind (k := 0) fun ms => (CollM.calls_lift _).bind0 fun b =>
      (CollM.calls_lift _).bind0 fun rq => (CollM.calls_lift _).bind0 fun q => CollM.calls_pure _
  · exact (CollM.calls_lift _).bind0 fun own => (calls_clientSends _).bind (k := 0) fun _ => CollM.calls_pure _

/-! ### The run -/

theorem AllDo.completes {buf : Buffering} {cm : Comm} {p : Int → CollM α A} {n c : Nat} {res : Int → Py A}
    (h : AllDo buf cm p n c res) :
    (Net.start fun r => if r ∈ cm.ranks then (p r n).bind fun x => .ret (some x) else .ret none).Completes buf
      fun r => if r ∈ cm.ranks then some (res r, c) else none := by
  obtain ⟨plan, hs, hr⟩ := h
  refine hs.ok.completes ?_ (fun _ _ _ _ _ _ => rfl) (fun _ _ _ _ _ _ => rfl)
  intro r
  show Real (if r ∈ cm.ranks then _ else _) _ _
  by_cases hm : r ∈ cm.ranks
  · rw [if_pos hm, if_pos hm]
    have := Real.bind (f := fun x : Py A × Nat => Proc.ret (some x)) (hr r hm)
      (Real.ret (M := Msg α) (some (res r, c)))
    rwa [List.append_nil] at this
  · rw [if_neg hm, if_neg hm, hs.ok.idle r hm]
    exact .ret _

theorem Proc.bind_bind {M R S T : Type} (p : Proc M R) (f : R → Proc M S) (g : S → Proc M T) :
    (p.bind f).bind g = p.bind fun x => (f x).bind g := by
  induction p with
  | ret x => rfl
  | isend d t m k ih => simp only [Proc.bind, ih]
  | recv s t k ih => simp only [Proc.bind, ih]
  | await d t i k ih => simp only [Proc.bind, ih]

theorem cube_ranks (l : Layout) (r : Int) : r ∈ (Comm.cube l).ranks ↔ r ∈ allRanks l := by
  rw [mem_ranks, mem_allRanks]
  exact Iff.rfl

variable [Neg α]

/-- The run of all ranks, phase by phase. -/
theorem driver_completes (buf : Buffering) {l : Layout} {junk junk' : List Nat → α} {send recv : Int → Option (Quantity α)}
    {mem : Int → Mem α} {q : Nat} {calls : List (Call α)} {back : Int → Option (Quantity α)}
    {part : Int → Quantity α} {fin : Int → RankState α} {root : Int → Option (Quantity α)} {n : Nat}
    (h1 : AllDo buf (.cube l) (fun r => scatter (.cube l) junk r (send r) (recv r)) 0 2 fun r => .ok (part r))
    (h2 : (callNet l calls fun r => (mem r).put q (part r)).Completes buf fun r => (.ok (), fin r))
    (h3 : AllDo buf (.cube l) (fun r => gather (.cube l) junk' r ((fin r).mem q) (back r)) 2 n fun r => .ok (root r)) :
    (driverNet l junk junk' send recv mem q calls back).Completes buf fun r =>
      if r ∈ allRanks l then some (.ok ((fin r).mem, root r)) else none := by
  -- scatter
  obtain ⟨s1, T1, a1, a2, a3⟩ := Net.phase (A := IsCollTag 0 2) h1.completes (fun r => by
    split
    · exact Proc.Spec.bind (calls_scatter _ _ _ _ _ 0) fun _ _ => trivial
    · trivial) (sent := fun _ _ _ => []) (rcvd := fun _ _ _ => 0) ⟨fun _ _ _ _ => rfl, fun _ _ _ _ => rfl⟩
  have c1 : Net.CleanOn IsHaloTag T1.sent T1.rcvd := a3 _ (by
    rintro t ⟨k, rfl⟩ ⟨i, h, -⟩
    cases h) ⟨fun _ _ _ _ => rfl, fun _ _ _ _ => rfl⟩
  have c1' : Net.CleanOn (IsCollTag 2 3) T1.sent T1.rcvd := a3 _ (by
    rintro t ⟨k, rfl, h, -⟩ ⟨i, h', -, h''⟩
    cases h'
    omega) ⟨fun _ _ _ _ => rfl, fun _ _ _ _ => rfl⟩
  -- calls
  obtain ⟨s2, T2, b1, b2, b3⟩ := Net.phase (A := IsHaloTag) h2 (fun r => by
    dsimp only [callNet, Net.start]
    split
    · exact CommM.Halo.execCalls l r calls _
    · trivial) c1
  have c2 : Net.CleanOn (IsCollTag 2 3) T2.sent T2.rcvd := b3 _ (by
    rintro t ⟨k, rfl, -⟩ ⟨i, h⟩
    cases h) c1'
  -- gather
  obtain ⟨s3, T3, d1, d2, -⟩ := Net.phase (A := IsCollTag 2 3) h3.completes (fun r => by
    split
    · exact Proc.Spec.bind (calls_gather _ _ _ _ _ 2) fun _ _ => trivial
    · trivial) c2
  let K2 : Int → Option (Py (Option (Quantity α)) × Nat) →
      Proc (Msg α) (Option (Py (Mem α × Option (Quantity α)))) := fun r z =>
    match z with
    | none => .ret none
    | some z => .ret (some (z.1.pair (fin r).mem))
  let K1 : Int → Py Unit × RankState α → Proc (Msg α) (Option (Py (Mem α × Option (Quantity α)))) := fun r y =>
    if r ∈ allRanks l then
      match y.1 with
      | .error e => .ret (some (.error e))
      | .ok _ => (gather (.cube l) junk' r (y.2.mem q) (back r) 2).bind fun z => .ret (some (z.1.pair y.2.mem))
    else .ret none
  let K0 : Int → Option (Py (Quantity α) × Nat) → Proc (Msg α) (Option (Py (Mem α × Option (Quantity α)))) := fun r x =>
    match x with
    | none => .ret none
    | some x =>
      match x.1 with
      | .error e => .ret (some (.error e))
      | .ok part =>
        (execCalls l r calls ⟨(mem r).put q part, 0, []⟩).bind fun y =>
          match y.1 with
          | .error e => .ret (some (.error e))
          | .ok _ => (gather (.cube l) junk' r (y.2.mem q) (back r) x.2).bind fun z => .ret (some (z.1.pair y.2.mem))
  have e3 : (⟨fun r => K1 r (.ok (), fin r), T2.sent, T2.rcvd⟩ : Net (Msg α) _).Completes buf fun r =>
      if r ∈ allRanks l then some (.ok ((fin r).mem, root r)) else none := by
    have := Net.Completes.andThen (K := K2) d1 d2 (out := fun r =>
      if r ∈ allRanks l then some (.ok ((fin r).mem, root r)) else none) (by
        refine Net.completes_of_run (sched := []) rfl fun r => ?_
        dsimp only [K2]
        by_cases hr : r ∈ allRanks l
        · rw [if_pos ((cube_ranks l r).2 hr), if_pos hr]; rfl
        · rw [if_neg (fun h => hr ((cube_ranks l r).1 h)), if_neg hr])
    refine cast ?_ this
    congr 1
    unfold Net.andThen
    congr 1
    funext r
    dsimp only [K1, K2]
    by_cases hr : r ∈ allRanks l
    · rw [if_pos ((cube_ranks l r).2 hr), if_pos hr, Proc.bind_bind]
      rfl
    · rw [if_neg (fun h => hr ((cube_ranks l r).1 h)), if_neg hr]
      rfl
  have e2 : (⟨fun r => K0 r (if r ∈ (Comm.cube l).ranks then some (.ok (part r), 2) else none), T1.sent, T1.rcvd⟩ :
      Net (Msg α) _).Completes buf fun r =>
      if r ∈ allRanks l then some (.ok ((fin r).mem, root r)) else none := by
    have := Net.Completes.andThen (K := K1) b1 b2 e3
    refine cast ?_ this
    congr 1
    unfold Net.andThen
    congr 1
    funext r
    dsimp only [K0, K1]
    by_cases hr : r ∈ allRanks l
    · rw [if_pos ((cube_ranks l r).2 hr), if_pos hr]
      simp only [if_pos hr]
    · rw [if_neg (fun h => hr ((cube_ranks l r).1 h)), if_neg hr]
      simp only [if_neg hr]
      rfl
  have := Net.Completes.andThen (K := K0) a1 a2 e2
  refine cast ?_ this
  congr 1
  unfold Net.andThen driverNet Net.start
  congr 1
  funext r
  dsimp only [K0]
  by_cases hr : r ∈ allRanks l
  · rw [if_pos ((cube_ranks l r).2 hr), if_pos hr, Proc.bind_bind]
    unfold driver
    rw [Proc.bind_bind]
    congr 1
    funext x
    dsimp only [Proc.bind]
    cases x.1 with
    | error e => rfl
    | ok p =>
      dsimp only
      rw [Proc.bind_bind]
      congr 1
      funext y
      cases y.1 with
      | error e => rfl
      | ok u =>
        dsimp only
        rw [Proc.bind_bind]
        rfl
  · rw [if_neg (fun h => hr ((cube_ranks l r).1 h)), if_neg hr]
    rfl

end FV3
