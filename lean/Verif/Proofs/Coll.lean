import Verif.Spec.Collective
import Verif.Proofs.Settle

/-!
# Composable plans for programs with collectives

Collective number `n` takes place in the time `3n .. 3n+2`: sends, receives, waits.
-/

namespace FV3
variable {α A B : Type} {M : Type}

/-- The tag of an action. -/
def Act.tag : Act M → Tag
  | .send _ t _ => t
  | .recv _ t _ => t
  | .await _ t => t

/-- A plan of the collectives `c ≤ n < c'`. -/
structure Seg (buf : Buffering) (ranks : List Int) (c c' : Nat) (plan : Int → List (Nat × Act M)) : Prop where
  ok : Plan buf ranks plan
  le : c ≤ c'
  time : ∀ r n a, (n, a) ∈ plan r → 3 * c ≤ n ∧ n < 3 * c'
  tag : ∀ r n a, (n, a) ∈ plan r → ∃ k, a.tag = .coll k ∧ c ≤ k ∧ k < c'

theorem Seg.nil (buf : Buffering) (ranks : List Int) (c : Nat) :
    Seg (M := M) buf ranks c c fun _ => [] := by
  constructor
  · constructor <;> simp
  · exact Nat.le_refl _
  · simp
  · simp

theorem Seg.append {buf : Buffering} {ranks : List Int} {a b c : Nat} {p q : Int → List (Nat × Act M)}
    (hp : Seg buf ranks a b p) (hq : Seg buf ranks b c q) : Seg buf ranks a c fun r => p r ++ q r := by
  have hle := hp.le
  have hle' := hq.le
  constructor
  · constructor
    · intro r hr
      rw [hp.ok.idle r hr, hq.ok.idle r hr]; rfl
    · intro r
      rw [List.pairwise_append]
      refine ⟨hp.ok.ordered r, hq.ok.ordered r, ?_⟩
      rintro ⟨n, x⟩ hx ⟨m, y⟩ hy
      have h1 := hp.time r n x hx
      have h2 := hq.time r m y hy
      show n ≤ m
      omega
    · intro r
      rw [List.filterMap_append, List.nodup_append]
      refine ⟨hp.ok.sendOnce r, hq.ok.sendOnce r, ?_⟩
      intro x hx y hy
      rw [List.mem_filterMap] at hx hy
      obtain ⟨⟨n, u⟩, hu, hu'⟩ := hx
      obtain ⟨⟨m, v⟩, hv, hv'⟩ := hy
      obtain ⟨k, k1, k2, k3⟩ := hp.tag r n u hu
      obtain ⟨j, j1, j2, j3⟩ := hq.tag r m v hv
      cases u <;> cases v <;> simp only [sendKey, Option.some.injEq, reduceCtorEq] at hu' hv'
      subst hu' hv'
      simp only [Act.tag] at k1 j1
      subst k1 j1
      intro h
      simp only [Prod.mk.injEq, Tag.coll.injEq] at h
      omega
    · intro r
      rw [List.filterMap_append, List.nodup_append]
      refine ⟨hp.ok.recvOnce r, hq.ok.recvOnce r, ?_⟩
      intro x hx y hy
      rw [List.mem_filterMap] at hx hy
      obtain ⟨⟨n, u⟩, hu, hu'⟩ := hx
      obtain ⟨⟨m, v⟩, hv, hv'⟩ := hy
      obtain ⟨k, k1, k2, k3⟩ := hp.tag r n u hu
      obtain ⟨j, j1, j2, j3⟩ := hq.tag r m v hv
      cases u <;> cases v <;> simp only [recvKey, Option.some.injEq, reduceCtorEq] at hu' hv'
      subst hu' hv'
      simp only [Act.tag] at k1 j1
      subst k1 j1
      intro h
      simp only [Prod.mk.injEq, Tag.coll.injEq] at h
      omega
    · intro r n s t m h
      rcases List.mem_append.1 h with h | h
      · obtain ⟨n', h1, h2⟩ := hp.ok.recvSent r n s t m h
        exact ⟨n', h1, List.mem_append_left _ h2⟩
      · obtain ⟨n', h1, h2⟩ := hq.ok.recvSent r n s t m h
        exact ⟨n', h1, List.mem_append_right _ h2⟩
    · intro r n d t h
      rcases List.mem_append.1 h with h | h
      · rcases hp.ok.awaitRecv r n d t h with h' | ⟨n', h1, m, h2⟩
        · exact .inl h'
        · exact .inr ⟨n', h1, m, List.mem_append_left _ h2⟩
      · rcases hq.ok.awaitRecv r n d t h with h' | ⟨n', h1, m, h2⟩
        · exact .inl h'
        · exact .inr ⟨n', h1, m, List.mem_append_right _ h2⟩
  · omega
  · intro r n x h
    rcases List.mem_append.1 h with h | h
    · have := hp.time r n x h; omega
    · have := hq.time r n x h; omega
  · intro r n x h
    rcases List.mem_append.1 h with h | h
    · obtain ⟨k, h1, h2, h3⟩ := hp.tag r n x h
      exact ⟨k, h1, h2, by omega⟩
    · obtain ⟨k, h1, h2, h3⟩ := hq.tag r n x h
      exact ⟨k, h1, by omega, h3⟩

/-! ### The ranks -/

theorem mem_ranks (c : Comm) (r : Int) : r ∈ c.ranks ↔ 0 ≤ r ∧ r < c.size := by
  unfold Comm.ranks
  simp only [List.mem_map, List.mem_range]
  constructor
  · rintro ⟨n, h, rfl⟩
    constructor
    · exact Int.natCast_nonneg n
    · show (n : Int) < _
      omega
  · rintro ⟨h0, h1⟩
    refine ⟨r.toNat, by omega, ?_⟩
    show ((r.toNat : Nat) : Int) = r
    omega

theorem mem_clients (n r : Int) : r ∈ clients n ↔ 0 < r ∧ r < n := by
  unfold clients
  simp only [List.mem_map, List.mem_range]
  constructor
  · rintro ⟨k, h, rfl⟩; omega
  · rintro ⟨h0, h1⟩
    exact ⟨(r - 1).toNat, by omega, by omega⟩

theorem nodup_clients (n : Int) : (clients n).Nodup := by
  unfold clients
  refine List.Nodup.map ?_ List.nodup_range
  intro a b h
  simp only at h; omega

theorem ranks_cons (c : Comm) (h : 0 < c.size) : c.ranks = 0 :: clients c.size := by
  unfold Comm.ranks clients
  obtain ⟨n, hn⟩ : ∃ n, c.size.toNat = n + 1 := ⟨c.size.toNat - 1, by omega⟩
  rw [hn, List.range_succ_eq_map]
  simp only [List.map_cons, List.map_map, Nat.add_sub_cancel]
  congr 1

/-! ### One-to-all and all-to-one -/

/-- Root sends `msg r` to each other rank `r`. -/
def distPlan (size : Int) (n : Nat) (msg : Int → M) (r : Int) : List (Nat × Act M) :=
  if r = 0 then
    ((clients size).map fun d => (3 * n, Act.send d (.coll n) (msg d))) ++
    ((clients size).map fun d => (3 * n + 2, Act.await d (.coll n)))
  else if 0 < r ∧ r < size then [(3 * n + 1, Act.recv 0 (.coll n) (msg r))]
  else []

/-- Each other rank `r` sends `msg r` to root. -/
def collectPlan (size : Int) (n : Nat) (msg : Int → M) (r : Int) : List (Nat × Act M) :=
  if r = 0 then (clients size).map fun d => (3 * n + 1, Act.recv d (.coll n) (msg d))
  else if 0 < r ∧ r < size then
    [(3 * n, Act.send 0 (.coll n) (msg r)), (3 * n + 2, Act.await 0 (.coll n))]
  else []

theorem pairwise_map_const {X : Type} (l : List X) (f : X → Act M) (t : Nat) :
    (l.map fun d => (t, f d)).Pairwise (fun a b => a.1 ≤ b.1) := by
  rw [List.pairwise_map]
  exact List.Pairwise.imp (R := fun _ _ => True) (fun _ => Nat.le_refl _) (List.pairwise_of_forall (fun _ _ => trivial))

theorem distPlan_seg (buf : Buffering) (c : Comm) (h : 0 < c.size) (n : Nat) (msg : Int → M) :
    Seg buf c.ranks n (n + 1) (distPlan c.size n msg) := by
  have hmem : ∀ r k a, (k, a) ∈ distPlan c.size n msg r →
      (r = 0 ∧ (∃ d ∈ clients c.size, (k = 3 * n ∧ a = Act.send d (.coll n) (msg d)) ∨
        (k = 3 * n + 2 ∧ a = Act.await d (.coll n)))) ∨
      (0 < r ∧ r < c.size ∧ k = 3 * n + 1 ∧ a = Act.recv 0 (.coll n) (msg r)) := by
    intro r k a hm
    unfold distPlan at hm
    by_cases h0 : r = 0
    · rw [if_pos h0, List.mem_append, List.mem_map, List.mem_map] at hm
      refine .inl ⟨h0, ?_⟩
      rcases hm with ⟨d, hd, e⟩ | ⟨d, hd, e⟩
      · simp only [Prod.mk.injEq] at e
        exact ⟨d, hd, .inl ⟨e.1.symm, e.2.symm⟩⟩
      · simp only [Prod.mk.injEq] at e
        exact ⟨d, hd, .inr ⟨e.1.symm, e.2.symm⟩⟩
    · rw [if_neg h0] at hm
      by_cases h1 : 0 < r ∧ r < c.size
      · rw [if_pos h1, List.mem_singleton] at hm
        simp only [Prod.mk.injEq] at hm
        exact .inr ⟨h1.1, h1.2, hm⟩
      · rw [if_neg h1] at hm; simp at hm
  constructor
  · constructor
    · intro r hr
      rw [mem_ranks] at hr
      unfold distPlan
      rw [if_neg (by omega), if_neg (by omega)]
    · intro r
      unfold distPlan
      split_ifs
      · rw [List.pairwise_append]
        refine ⟨pairwise_map_const _ _ _, pairwise_map_const _ _ _, ?_⟩
        intro x hx y hy
        simp only [List.mem_map] at hx hy
        obtain ⟨_, _, rfl⟩ := hx
        obtain ⟨_, _, rfl⟩ := hy
        show 3 * n ≤ 3 * n + 2
        omega
      · simp
      · simp
    · intro r
      unfold distPlan
      split_ifs
      · rw [List.filterMap_append, List.filterMap_map, List.filterMap_map]
        have e1 : (sendKey ∘ fun d => (3 * n + 2, (Act.await d (.coll n) : Act M))) = fun _ => none := rfl
        have e2 : (sendKey ∘ fun d => (3 * n, Act.send d (.coll n) (msg d))) = fun d => some (d, Tag.coll n) := rfl
        rw [e1, e2, List.filterMap_none, List.append_nil]
        rw [show (fun d : Int => some (d, Tag.coll n)) = some ∘ fun d : Int => (d, Tag.coll n) from rfl,
          List.filterMap_eq_map]
        refine (nodup_clients _).map ?_
        intro a b e
        exact (Prod.mk.inj e).1
      · simp [List.filterMap_cons, sendKey]
      · simp
    · intro r
      unfold distPlan
      split_ifs
      · rw [List.filterMap_append, List.filterMap_map, List.filterMap_map]
        have e1 : (recvKey ∘ fun d => (3 * n + 2, (Act.await d (.coll n) : Act M))) = fun _ => none := rfl
        have e2 : (recvKey ∘ fun d => (3 * n, Act.send d (.coll n) (msg d))) = fun d => none := rfl
        rw [e1, e2, List.filterMap_none]; simp
      · simp [recvKey]
      · simp
    · intro r k s t m hm
      rcases hmem r k _ hm with ⟨-, d, -, ⟨-, e⟩ | ⟨-, e⟩⟩ | ⟨h1, h2, h3, h4⟩
      · cases e
      · cases e
      · cases h4
        refine ⟨3 * n, by omega, ?_⟩
        unfold distPlan
        rw [if_pos rfl]
        apply List.mem_append_left
        exact List.mem_map.2 ⟨r, (mem_clients _ _).2 ⟨h1, h2⟩, rfl⟩
    · intro r k d t hm
      rcases hmem r k _ hm with ⟨h0, d', hd, ⟨-, e⟩ | ⟨e1, e⟩⟩ | ⟨h1, h2, h3, h4⟩
      · cases e
      · cases e
        refine .inr ⟨3 * n + 1, by omega, msg d, ?_⟩
        rw [mem_clients] at hd
        unfold distPlan
        rw [if_neg (by omega), if_pos hd, h0]
        exact List.mem_singleton.2 rfl
      · cases h4
  · omega
  · intro r k a hm
    rcases hmem r k _ hm with ⟨-, d, -, ⟨e, -⟩ | ⟨e, -⟩⟩ | ⟨-, -, e, -⟩ <;> omega
  · intro r k a hm
    refine ⟨n, ?_, by omega, by omega⟩
    rcases hmem r k _ hm with ⟨-, d, -, ⟨-, e⟩ | ⟨-, e⟩⟩ | ⟨-, -, -, e⟩ <;> rw [e] <;> rfl

theorem collectPlan_seg (buf : Buffering) (c : Comm) (h : 0 < c.size) (n : Nat) (msg : Int → M) :
    Seg buf c.ranks n (n + 1) (collectPlan c.size n msg) := by
  have hmem : ∀ r k a, (k, a) ∈ collectPlan c.size n msg r →
      (r = 0 ∧ (∃ d ∈ clients c.size, k = 3 * n + 1 ∧ a = Act.recv d (.coll n) (msg d))) ∨
      (0 < r ∧ r < c.size ∧ ((k = 3 * n ∧ a = Act.send 0 (.coll n) (msg r)) ∨
        (k = 3 * n + 2 ∧ a = Act.await 0 (.coll n)))) := by
    intro r k a hm
    unfold collectPlan at hm
    by_cases h0 : r = 0
    · rw [if_pos h0, List.mem_map] at hm
      obtain ⟨d, hd, e⟩ := hm
      simp only [Prod.mk.injEq] at e
      exact .inl ⟨h0, d, hd, e.1.symm, e.2.symm⟩
    · rw [if_neg h0] at hm
      by_cases h1 : 0 < r ∧ r < c.size
      · rw [if_pos h1] at hm
        simp only [List.mem_cons, Prod.mk.injEq, List.not_mem_nil, or_false] at hm
        exact .inr ⟨h1.1, h1.2, hm⟩
      · rw [if_neg h1] at hm; simp at hm
  constructor
  · constructor
    · intro r hr
      rw [mem_ranks] at hr
      unfold collectPlan
      rw [if_neg (by omega), if_neg (by omega)]
    · intro r
      unfold collectPlan
      split_ifs
      · exact pairwise_map_const _ _ _
      · simp
      · simp
    · intro r
      unfold collectPlan
      split_ifs
      · rw [List.filterMap_map]
        have e1 : (sendKey ∘ fun d => (3 * n + 1, Act.recv d (.coll n) (msg d))) = fun _ => none := rfl
        rw [e1, List.filterMap_none]; simp
      · simp [List.filterMap_cons, sendKey]
      · simp
    · intro r
      unfold collectPlan
      split_ifs
      · rw [List.filterMap_map]
        have e2 : (recvKey ∘ fun d => (3 * n + 1, Act.recv d (.coll n) (msg d))) = fun d => some (d, Tag.coll n) := rfl
        rw [e2]
        rw [show (fun d : Int => some (d, Tag.coll n)) = some ∘ fun d : Int => (d, Tag.coll n) from rfl,
          List.filterMap_eq_map]
        refine (nodup_clients _).map ?_
        intro a b e
        exact (Prod.mk.inj e).1
      · simp [List.filterMap_cons, recvKey]
      · simp
    · intro r k s t m hm
      rcases hmem r k _ hm with ⟨h0, d, hd, e1, e⟩ | ⟨-, -, ⟨-, e⟩ | ⟨-, e⟩⟩
      · cases e
        rw [mem_clients] at hd
        refine ⟨3 * n, by omega, ?_⟩
        unfold collectPlan
        rw [if_neg (by omega), if_pos hd, h0]
        exact List.mem_cons_self
      · cases e
      · cases e
    · intro r k d t hm
      rcases hmem r k _ hm with ⟨h0, d', hd, e1, e⟩ | ⟨h1, h2, ⟨-, e⟩ | ⟨e1, e⟩⟩
      · cases e
      · cases e
      · cases e
        refine .inr ⟨3 * n + 1, by omega, msg r, ?_⟩
        unfold collectPlan
        rw [if_pos rfl]
        exact List.mem_map.2 ⟨r, (mem_clients _ _).2 ⟨h1, h2⟩, rfl⟩
  · omega
  · intro r k a hm
    rcases hmem r k _ hm with ⟨-, d, -, e, -⟩ | ⟨-, -, ⟨e, -⟩ | ⟨e, -⟩⟩ <;> omega
  · intro r k a hm
    refine ⟨n, ?_, by omega, by omega⟩
    rcases hmem r k _ hm with ⟨-, d, -, -, e⟩ | ⟨-, -, ⟨-, e⟩ | ⟨-, e⟩⟩ <;> rw [e] <;> rfl

/-! ### Programs and plans -/

/-- The program of a rank, started after `c` collectives, performs the actions and ends after `c'`. -/
def RealC (p : CollM α A) (c : Nat) (acts : List (Nat × Act (Msg α))) (a : Py A) (c' : Nat) : Prop :=
  Real (p c) (acts.map (·.2)) (a, c')

theorem RealC.bind {p : CollM α A} {f : A → CollM α B} {c c' c'' : Nat} {as bs : List (Nat × Act (Msg α))}
    {a : A} {b : Py B} (h : RealC p c as (.ok a) c') (h' : RealC (f a) c' bs b c'') :
    RealC (p >>= f) c (as ++ bs) b c'' := by
  unfold RealC at *
  rw [List.map_append]
  exact Real.bind h h'

theorem RealC.pure (a : A) (c : Nat) : RealC (α := α) (Pure.pure a : CollM α A) c [] (.ok a) c := Real.ret _

theorem RealC.lift (x : Py A) (c : Nat) : RealC (α := α) (CollM.lift x : CollM α A) c [] x c := Real.ret _

theorem RealC.raise (x : PyErr) (c : Nat) :
    RealC (α := α) (CollM.raise x : CollM α A) c [] (.error x) c := Real.ret _

/-- Sequencing after a computation without communication. -/
theorem RealC.lift_bind {x : Py A} {f : A → CollM α B} {c c' : Nat} {as : List (Nat × Act (Msg α))}
    {a : A} {b : Py B} (hx : x = .ok a) (h' : RealC (f a) c as b c') :
    RealC (CollM.lift x >>= f) c as b c' := by
  subst hx
  exact RealC.bind (RealC.lift _ c) h'

/-- A last part without communication. -/
theorem RealC.bind_end {p : CollM α A} {f : A → CollM α B} {c c' c'' : Nat} {as : List (Nat × Act (Msg α))}
    {a : A} {b : Py B} (h : RealC p c as (.ok a) c') (h' : RealC (f a) c' [] b c'') :
    RealC (p >>= f) c as b c'' := by
  have := RealC.bind h h'
  rwa [List.append_nil] at this

theorem RealC.map_pure {p : CollM α A} {f : A → B} {c c' : Nat} {as : List (Nat × Act (Msg α))}
    {a : A} (h : RealC p c as (.ok a) c') : RealC (p >>= fun x => Pure.pure (f x)) c as (.ok (f a)) c' := by
  have := RealC.bind (f := fun x => Pure.pure (f x)) h (RealC.pure (f a) c')
  rwa [List.append_nil] at this

theorem real_sendAll {R : Type} (tag : Tag) (msg : Int → Msg α) (rs : List Int) (p : Proc (Msg α) R)
    (as : List (Act (Msg α))) (r : R) (h : Real p as r) :
    Real (sendAll tag msg rs p) ((rs.map fun d => Act.send d tag (msg d)) ++ as) r := by
  induction rs with
  | nil => exact h
  | cons d rs ih => exact .send ih

theorem real_awaitAll {R : Type} (tag : Tag) (rs : List Int) (p : Proc (Msg α) R)
    (as : List (Act (Msg α))) (r : R) (h : Real p as r) :
    Real (awaitAll tag rs p) ((rs.map fun d => Act.await d tag) ++ as) r := by
  induction rs with
  | nil => exact h
  | cons d rs ih => exact .await ih

theorem real_recvAll {R : Type} (tag : Tag) (msg : Int → Msg α) (rs : List Int)
    (k : List (Msg α) → Proc (Msg α) R) (as : List (Act (Msg α))) (r : R) (h : Real (k (rs.map msg)) as r) :
    Real (recvAll tag rs k) ((rs.map fun d => Act.recv d tag (msg d)) ++ as) r := by
  induction rs generalizing k with
  | nil => exact h
  | cons d rs ih => exact .recv (ih _ h)

theorem rootSends_real (size : Int) (msg : Int → Msg α) (n : Nat) :
    RealC (rootSends size msg) n (distPlan size n msg 0) (.ok ()) (n + 1) := by
  unfold RealC rootSends distPlan
  rw [if_pos rfl, List.map_append, List.map_map, List.map_map]
  refine real_sendAll _ _ _ _ _ _ ?_
  have := real_awaitAll (α := α) (R := Py Unit × Nat) (.coll n) (clients size) (.ret (.ok (), n + 1)) [] _ (Real.ret _)
  rwa [List.append_nil] at this

theorem clientRecvs_real (size : Int) (msg : Int → Msg α) (n : Nat) (r : Int) (h : 0 < r ∧ r < size) :
    RealC clientRecvs n (distPlan size n msg r) (.ok (msg r)) (n + 1) := by
  unfold RealC clientRecvs distPlan
  rw [if_neg (by omega), if_pos h]
  exact .recv (.ret _)

theorem rootRecvs_real (size : Int) (msg : Int → Msg α) (n : Nat) :
    RealC (rootRecvs size) n (collectPlan size n msg 0) (.ok ((clients size).map msg)) (n + 1) := by
  unfold RealC rootRecvs collectPlan
  rw [if_pos rfl, List.map_map]
  have := real_recvAll (R := Py (List (Msg α)) × Nat) (.coll n) msg (clients size)
    (fun ms => .ret (.ok ms, n + 1)) [] _ (Real.ret _)
  rwa [List.append_nil] at this

theorem clientSends_real (size : Int) (msg : Int → Msg α) (n : Nat) (r : Int) (h : 0 < r ∧ r < size) :
    RealC (clientSends (msg r)) n (collectPlan size n msg r) (.ok ()) (n + 1) := by
  unfold RealC clientSends collectPlan
  rw [if_neg (by omega), if_pos h]
  exact .send (.await (.ret _))

theorem bcast_real (size : Int) (own : Int → Msg α) (n : Nat) (r : Int) (h : 0 ≤ r ∧ r < size) :
    RealC (bcast size r (own r)) n (distPlan size n (fun _ => own 0) r) (.ok (own 0)) (n + 1) := by
  unfold bcast
  by_cases h0 : r = 0
  · subst h0
    rw [if_pos (show (0 : Int) = ROOT_RANK from rfl)]
    exact RealC.map_pure (f := fun _ => own 0) (rootSends_real size (fun _ => own 0) n)
  · rw [if_neg (show ¬ r = ROOT_RANK from h0)]
    exact clientRecvs_real size (fun _ => own 0) n r (by omega)

/-! ### All ranks -/

/-- Started after `c` collectives, all ranks run `p` to the end, after `c'` collectives. -/
def AllDo (buf : Buffering) (cm : Comm) (p : Int → CollM α A) (c c' : Nat) (res : Int → Py A) : Prop :=
  ∃ plan, Seg buf cm.ranks c c' plan ∧ ∀ r ∈ cm.ranks, RealC (p r) c (plan r) (res r) c'

theorem AllDo.bind {buf : Buffering} {cm : Comm} {p : Int → CollM α A} {f : Int → A → CollM α B}
    {c c' c'' : Nat} {res : Int → A} {res' : Int → Py B}
    (h : AllDo buf cm p c c' fun r => .ok (res r)) (h' : AllDo buf cm (fun r => f r (res r)) c' c'' res') :
    AllDo buf cm (fun r => p r >>= f r) c c'' res' := by
  obtain ⟨p1, s1, r1⟩ := h
  obtain ⟨p2, s2, r2⟩ := h'
  exact ⟨_, s1.append s2, fun r hr => (r1 r hr).bind (r2 r hr)⟩

theorem AllDo.returns {buf : Buffering} {cm : Comm} {p : Int → CollM α A} {c : Nat} {res : Int → Py A}
    (h : AllDo buf cm p 0 c res) : cm.Returns buf p res := by
  obtain ⟨plan, hs, hr⟩ := h
  refine hs.ok.completes ?_ (fun _ _ _ _ _ _ => rfl) (fun _ _ _ _ _ _ => rfl)
  intro r
  show Real (if r ∈ cm.ranks then _ else _) _ _
  by_cases hm : r ∈ cm.ranks
  · rw [if_pos hm, if_pos hm]
    have := Real.bind (f := fun x : Py A × Nat => Proc.ret (some x.1)) (hr r hm)
      (Real.ret (M := Msg α) (some (res r)))
    rwa [List.append_nil] at this
  · rw [if_neg hm, if_neg hm, hs.ok.idle r hm]
    exact .ret _

end FV3
