import Verif.Props.Buffer
import Verif.Spec.BufferUse

/-!
# C79 Buffers are recycled
-/

namespace FV3
namespace Buf
variable {α : Type}

/-- Arrays waiting in the cache under a key. -/
def cached (s : BufSt α) (k : BKey) : Nat := ((s.cache.get? k).getD []).length

theorem allocated_new (s : BufSt α) (k k' : BKey) (c : Dict BKey (List Nat)) (mem : Nat → NDArray α) :
    allocated { s with cache := c, next := s.next + 1, key := upd s.key s.next k', mem := mem } k =
      allocated s k + if k' = k then 1 else 0 := by
  unfold allocated
  dsimp only
  rw [List.range_succ, List.countP_append]
  congr 1
  · refine List.countP_congr fun a ha => ?_
    have := List.mem_range.1 ha
    have e : upd s.key s.next k' a = s.key a := by unfold upd; rw [if_neg (by omega)]
    simp only [e]
  · simp [upd, List.countP_cons]

theorem acquire_counts (env : BufEnv α) (s : BufSt α) (k k' : BKey) :
    let x := (acquire env k' s).2
    (allocated x k = allocated s k ∨ allocated x k = allocated s k + 1 ∧ cached x k = 0) ∧
    allocated x k + cached s k = allocated s k + cached x k + if k' = k then 1 else 0 := by
  intro x
  by_cases e : k' = k
  · subst e
    rw [if_pos rfl]
    show (allocated (acquire env k' s).2 k' = _ ∨ _) ∧ _
    unfold x acquire
    cases hc : s.cache.get? k' with
    | none =>
      simp only
      rw [allocated_new, if_pos rfl]
      have h1 : cached s k' = 0 := by simp [cached, hc]
      have h2 : ∀ (n : Nat) (key : Nat → BKey) (mem : Nat → NDArray α),
          cached { s with cache := s.cache.set k' [], next := n, key := key, mem := mem } k' = 0 := by
        intro n key mem
        simp [cached, Dict.get?_set_self]
      rw [h1, h2]
      exact ⟨.inr ⟨rfl, rfl⟩, by omega⟩
    | some l =>
      have h1 : cached s k' = l.length := by simp [cached, hc]
      cases l with
      | nil =>
        simp only
        have e2 := allocated_new s k' k' s.cache (upd s.mem s.next (env.fresh k' s.next))
        rw [if_pos rfl] at e2
        rw [e2]
        have h2 : ∀ (n : Nat) (key : Nat → BKey) (mem : Nat → NDArray α),
            cached { s with next := n, key := key, mem := mem } k' = 0 := by
          intro n key mem
          simp [cached, hc]
        rw [h1, h2]
        exact ⟨.inr ⟨rfl, rfl⟩, by simp⟩
      | cons a rest =>
        simp only
        have h2 : cached { s with cache := s.cache.set k' rest } k' = rest.length := by
          simp [cached, Dict.get?_set_self]
        rw [h1, h2]
        refine ⟨.inl rfl, ?_⟩
        show allocated s k' + _ = _
        simp only [List.length_cons]
        omega
  · have h2 : cached x k = cached s k := by
      unfold x acquire cached
      cases hc : s.cache.get? k' with
      | none => simp only; rw [Dict.get?_set_ne _ _ (fun h => e h.symm)]
      | some l => cases l with
        | nil => rfl
        | cons a rest => simp only; rw [Dict.get?_set_ne _ _ (fun h => e h.symm)]
    have h1 : allocated x k = allocated s k := by
      unfold x acquire
      cases hc : s.cache.get? k' with
      | none => simp only; rw [allocated_new, if_neg e]; rfl
      | some l => cases l with
        | nil =>
          simp only
          have e2 := allocated_new s k k' s.cache (upd s.mem s.next (env.fresh k' s.next))
          rw [if_neg e] at e2
          exact e2
        | cons a rest => rfl
    rw [if_neg e, h1, h2]
    exact ⟨.inl rfl, rfl⟩

/-- What one event does to the numbers. -/
structure Counts (env : BufEnv α) (k : BKey) (s s' : BufSt α) (lost : Nat) : Prop where
  alloc : allocated s' k = allocated s k ∨ allocated s' k = allocated s k + 1 ∧ cached s' k = 0
  sum : allocated s' k + cached s k + inUse env s k = allocated s k + cached s' k + inUse env s' k + lost

theorem Counts.same {env : BufEnv α} {k : BKey} {s s' : BufSt α} (h1 : s'.next = s.next) (h2 : s'.key = s.key)
    (h3 : s'.cache = s.cache) (h4 : s'.ctxs = s.ctxs) : Counts env k s s' 0 := by
  have a : allocated s' k = allocated s k := by unfold allocated; rw [h1, h2]
  have b : cached s' k = cached s k := by unfold cached; rw [h3]
  have c : inUse env s' k = inUse env s k := by unfold inUse; rw [h4]
  exact ⟨.inl a, by rw [a, b, c]; rfl⟩

theorem inUse_push (env : BufEnv α) (k : BKey) (s : BufSt α) (t : BufSt α) (c : Ctx)
    (h : t.ctxs = s.ctxs ++ [some c]) :
    inUse env t k = inUse env s k + if uses env k (some c) then 1 else 0 := by
  unfold inUse
  rw [h, List.countP_append]
  simp [List.countP_cons]

theorem Counts.push (env : BufEnv α) (k k' : BKey) (s t : BufSt α) (c : Ctx) (b : Nat) (hb : c.buf = some b)
    (hk : kindKey env c.kind = k') (h1 : t.next = (acquire env k' s).2.next) (h2 : t.key = (acquire env k' s).2.key)
    (h3 : t.cache = (acquire env k' s).2.cache) (h4 : t.ctxs = s.ctxs ++ [some c]) : Counts env k s t 0 := by
  obtain ⟨e1, e2⟩ := acquire_counts env s k k'
  have a : allocated t k = allocated (acquire env k' s).2 k := by unfold allocated; rw [h1, h2]
  have a' : cached t k = cached (acquire env k' s).2 k := by unfold cached; rw [h3]
  have a'' := inUse_push env k s t c h4
  have u : uses env k (some c) = decide (k' = k) := by simp [uses, hb, hk]
  rw [u] at a''
  refine ⟨by rw [a, a']; exact e1, ?_⟩
  rw [a, a', a'']
  by_cases e : k' = k
  · simp only [e, decide_true, if_true] at e2 ⊢
    omega
  · simp only [e, decide_false, if_false] at e2 ⊢
    simp only [Bool.false_eq_true, if_false]
    omega

theorem inUse_close (env : BufEnv α) (k : BKey) (s t : BufSt α) (i : Nat) (h : t.ctxs = s.ctxs.set i none) :
    inUse env s k = inUse env t k + if uses env k (ctx? s i) then 1 else 0 := by
  unfold inUse
  rw [h]
  by_cases hi : i < s.ctxs.length
  · have hc : ctx? s i = s.ctxs[i] := by
      unfold ctx?
      rw [List.getElem?_eq_getElem hi]; rfl
    rw [hc, List.countP_set hi]
    have : (uses env k none) = false := rfl
    simp only [this]
    by_cases u : uses env k s.ctxs[i] = true
    · have : 0 < s.ctxs.countP (uses env k) := List.countP_pos_iff.2 ⟨_, List.getElem_mem hi, u⟩
      simp only [u, if_true]
      simp
      omega
    · simp [u]
  · have hc : ctx? s i = none := by
      unfold ctx?
      rw [List.getElem?_eq_none (by omega)]; rfl
    rw [hc, List.set_eq_of_length_le (by omega)]
    simp [uses]

theorem step_counts (env : BufEnv α) {s : BufSt α} (I : Inv env s) (e : Ev α) (k : BKey) :
    Counts env k s (step env s e).2 (lostBy env k s e) := by
  have pushNone : ∀ kind, Counts env k s { s with ctxs := s.ctxs ++ [some ⟨kind, none⟩] } 0 := by
    intro kind
    have := inUse_push env k s { s with ctxs := s.ctxs ++ [some ⟨kind, none⟩] } ⟨kind, none⟩ rfl
    refine ⟨.inl rfl, ?_⟩
    rw [this]
    show allocated s k + cached s k + _ = allocated s k + cached s k + (_ + if uses env k (some ⟨kind, none⟩) then 1 else 0) + 0
    simp [uses]
  cases e with
  | enter kind =>
    cases kind with
    | plain k' => exact Counts.push env k k' s _ ⟨.plain k', some _⟩ _ rfl rfl rfl rfl rfl rfl
    | send u =>
      show Counts env k s (enter env (.send u) s).2 0
      unfold enter
      dsimp only
      split
      · exact pushNone _
      · exact Counts.push env k (env.spec u) s _ ⟨.send u, some _⟩ _ rfl rfl rfl rfl rfl rfl
    | recv u =>
      show Counts env k s (enter env (.recv u) s).2 0
      unfold enter
      dsimp only
      split
      · exact pushNone _
      · exact Counts.push env k (env.spec u) s _ ⟨.recv u, some _⟩ _ rfl rfl rfl rfl rfl rfl
  | write i v =>
    unfold step
    dsimp only
    split
    · exact .same rfl rfl rfl rfl
    · split
      · exact .same rfl rfl rfl rfl
      · split <;> exact .same rfl rfl rfl rfl
  | userWrite u v =>
    unfold step
    dsimp only
    split <;> exact .same rfl rfl rfl rfl
  | exit i =>
    have rel : ∀ (c : Ctx) (a : Nat) (usr : Nat → NDArray α), ctx? s i = some c → c.buf = some a →
        Counts env k s (release (kindKey env c.kind) a { s with ctxs := s.ctxs.set i none, usr := usr }).2 0 := by
      intro c a usr hc hb
      obtain ⟨l, hl⟩ := I.open_key i c a hc hb
      unfold release
      simp only [hl]
      generalize ht : ({ s with ctxs := s.ctxs.set i none, usr := usr, cache := s.cache.set (kindKey env c.kind) (a :: l) } : BufSt α) = t
      have h1 : allocated t k = allocated s k := by rw [← ht]; rfl
      have h2 := inUse_close env k s t i (by rw [← ht])
      have h3 : cached t k = cached s k + if kindKey env c.kind = k then 1 else 0 := by
        rw [← ht]
        unfold cached
        dsimp only
        rw [Dict.get?_set]
        by_cases e : k = kindKey env c.kind
        · rw [if_pos e, if_pos e.symm, e, hl]; simp
        · rw [if_neg e, if_neg (fun h => e h.symm)]; rfl
      have h4 : uses env k (ctx? s i) = decide (kindKey env c.kind = k) := by
        rw [hc]; simp [uses, hb]
      refine ⟨.inl h1, ?_⟩
      rw [h1, h2, h3, h4]
      by_cases e : kindKey env c.kind = k
      · simp only [e, decide_true, if_true]; omega
      · simp [e]
    unfold step
    dsimp only
    split
    · exact .same rfl rfl rfl rfl
    · rename_i c hc
      split
      · rename_i hb
        have h2 := inUse_close env k s { s with ctxs := s.ctxs.set i none } i rfl
        rw [hc] at h2
        refine ⟨.inl rfl, ?_⟩
        have : uses env k (some c) = false := by simp [uses, hb]
        rw [this] at h2
        rw [h2]
        rfl
      · rename_i a hb
        obtain ⟨kind, buf⟩ := c
        cases kind with
        | plain k' => exact rel _ a s.usr hc hb
        | send u => exact rel _ a s.usr hc hb
        | recv u => exact rel _ a _ hc hb
  | abort i =>
    unfold step
    dsimp only
    split
    · rename_i hc
      have : lostBy env k s (.abort i) = 0 := by simp [lostBy, hc, uses]
      rw [this]
      exact .same rfl rfl rfl rfl
    · rename_i c hc
      have h2 := inUse_close env k s { s with ctxs := s.ctxs.set i none } i rfl
      refine ⟨.inl rfl, ?_⟩
      rw [h2]
      exact (Nat.add_assoc _ _ _).symm

theorem run_counts (env : BufEnv α) {s : BufSt α} (I : Inv env s) (es : List (Ev α)) (k : BKey) (L : Nat)
    (h : allocated s k = cached s k + inUse env s k + L) :
    allocated (run env s es) k = cached (run env s es) k + inUse env (run env s es) k + L + lost env k s es ∧
    allocated s k ≤ allocated (run env s es) k ∧ peak env k s es ≤ allocated (run env s es) k ∧
    allocated (run env s es) k ≤ max (allocated s k) (peak env k s es + L + lost env k s es) := by
  induction es generalizing s L with
  | nil =>
    simp only [run, lost, peak]
    omega
  | cons e es ih =>
    have C := step_counts env I e k
    have hlost : lost env k s (e :: es) = lostBy env k s e + lost env k (step env s e).2 es := rfl
    generalize lostBy env k s e = l1 at C hlost
    obtain ⟨h1, h2, h3, h4⟩ := ih (step_inv env I e) (L + l1) (by have := C.sum; omega)
    rw [hlost]
    simp only [run, peak]
    have hp : inUse env (step env s e).2 k ≤ peak env k (step env s e).2 es := by
      cases es with
      | nil => exact le_refl _
      | cons e' es => exact le_max_left ..
    have := C.sum
    rcases C.alloc with ha | ⟨ha, hc⟩
    · refine ⟨by omega, by omega, by omega, by omega⟩
    · refine ⟨by omega, by omega, by omega, by omega⟩

theorem init_counts (env : BufEnv α) (usr : Nat → NDArray α) (k : BKey) :
    allocated (init env usr) k = cached (init env usr) k + inUse env (init env usr) k + 0 := rfl

/-- **C79.**  After any history of contexts, the number of arrays that were allocated with a key is the largest number
that were in use at the same time, plus at most the number of contexts which were left by an exception. -/
theorem C79_allocated (env : BufEnv α) (usr : Nat → NDArray α) (hu : ∀ u, (usr u).shape = (env.spec u).shape)
    (es : List (Ev α)) (k : BKey) :
    peak env k (init env usr) es ≤ allocated (run env (init env usr) es) k ∧
    allocated (run env (init env usr) es) k ≤ peak env k (init env usr) es + lost env k (init env usr) es := by
  obtain ⟨-, -, h3, h4⟩ := run_counts env (init_inv env usr hu) es k 0 (init_counts env usr k)
  have : allocated (init env usr) k = 0 := rfl
  omega

/-- **C79.**  Without exceptions in the blocks no buffer is lost: as many arrays were allocated with a key as were in use
at the same time at most. -/
theorem C79_no_exceptions (env : BufEnv α) (usr : Nat → NDArray α) (hu : ∀ u, (usr u).shape = (env.spec u).shape)
    (es : List (Ev α)) (hes : ∀ i, .abort i ∉ es) (k : BKey) :
    allocated (run env (init env usr) es) k = peak env k (init env usr) es := by
  have h0 : ∀ s : BufSt α, lost env k s es = 0 := by
    clear hu
    induction es with
    | nil => exact fun s => rfl
    | cons e es ih =>
      intro s
      have : lost env k s (e :: es) = lostBy env k s e + lost env k (step env s e).2 es := rfl
      rw [this, ih (fun i h => hes i (.tail _ h))]
      cases e with
      | abort i => exact absurd (.head _) (hes i)
      | _ => rfl
  obtain ⟨h1, h2⟩ := C79_allocated env usr hu es k
  rw [h0] at h2
  omega

theorem peak_append (env : BufEnv α) (k : BKey) (s : BufSt α) (a b : List (Ev α)) :
    peak env k s (a ++ b) = max (peak env k s a) (peak env k (run env s a) b) := by
  induction a generalizing s with
  | nil =>
    cases b with
    | nil => simp [peak, run]
    | cons e b => simp [peak, run]
  | cons e a ih => simp only [List.cons_append, peak, run, ih, max_assoc]

theorem run_append (env : BufEnv α) (s : BufSt α) (a b : List (Ev α)) :
    run env s (a ++ b) = run env (run env s a) b := by
  induction a generalizing s with
  | nil => rfl
  | cons e a ih => exact ih _

theorem enter_ctxs (env : BufEnv α) (k : BKey) (s : BufSt α) (kind : CtxKind) :
    ∃ b, (step env s (.enter kind)).2.ctxs = s.ctxs ++ [some ⟨kind, b⟩] ∧
      (if uses env k (some ⟨kind, b⟩) then 1 else 0) = needs env k kind := by
  cases kind with
  | plain k' => exact ⟨_, rfl, by by_cases e : k' = k <;> simp [uses, needs, kindKey, e]⟩
  | send u =>
    show ∃ b, (enter env (.send u) s).2.ctxs = _ ∧ _
    unfold enter
    dsimp only
    split
    · next h => exact ⟨none, rfl, by simp [uses, needs, h]⟩
    · next h => exact ⟨_, rfl, by by_cases e : env.spec u = k <;> simp [uses, needs, h, kindKey, e]⟩
  | recv u =>
    show ∃ b, (enter env (.recv u) s).2.ctxs = _ ∧ _
    unfold enter
    dsimp only
    split
    · next h => exact ⟨none, rfl, by simp [uses, needs, h]⟩
    · next h => exact ⟨_, rfl, by by_cases e : env.spec u = k <;> simp [uses, needs, h, kindKey, e]⟩

theorem write_ctxs (env : BufEnv α) (s : BufSt α) (i : Nat) (v : NDArray α) :
    (step env s (.write i v)).2.ctxs = s.ctxs := by
  unfold step
  dsimp only
  split
  · rfl
  · split
    · rfl
    · split <;> rfl

theorem release_ctxs (k : BKey) (a : Nat) (s : BufSt α) : (release k a s).2.ctxs = s.ctxs := by
  unfold release
  split <;> rfl

theorem exit_ctxs (env : BufEnv α) (s : BufSt α) (i : Nat) (c : Ctx) (hc : ctx? s i = some c) :
    (step env s (.exit i)).2.ctxs = s.ctxs.set i none := by
  unfold step
  simp only [hc]
  split
  · rfl
  · split <;> rw [release_ctxs]

/-- Running a program of `with` blocks. -/
theorem events_run (env : BufEnv α) (k : BKey) (p : Withs α) (s : BufSt α) :
    let x := p.events s.ctxs.length
    let s' := run env s x.1
    s'.ctxs.length = x.2 ∧ s.ctxs.length ≤ x.2 ∧ (∀ j, j < s.ctxs.length → ctx? s' j = ctx? s j) ∧
      inUse env s' k = inUse env s k ∧ peak env k s x.1 = inUse env s k + p.depth env k := by
  induction p generalizing s with
  | done => exact ⟨rfl, le_refl _, fun _ _ => rfl, rfl, rfl⟩
  | block kind v body rest ihb ihr =>
    intro x s'
    obtain ⟨b, e1, u1⟩ := enter_ctxs env k s kind
    have hs1 := inUse_push env k s (step env s (.enter kind)).2 ⟨kind, b⟩ e1
    rw [u1] at hs1
    generalize hse : (step env s (.enter kind)).2 = s1 at e1 hs1
    have e2 := write_ctxs env s1 s.ctxs.length v
    generalize hsw : (step env s1 (.write s.ctxs.length v)).2 = s2 at e2
    have hs2 : inUse env s2 k = inUse env s k + needs env k kind := by rw [← hs1]; unfold inUse; rw [e2]
    have l2 : s2.ctxs.length = s.ctxs.length + 1 := by rw [e2, e1]; simp
    obtain ⟨b1, b2, b3, b4, b5⟩ := ihb s2
    rw [l2] at b1 b2 b3 b4 b5
    generalize hbe : body.events (s.ctxs.length + 1) = be at b1 b2 b3 b4 b5
    generalize hs3 : run env s2 be.1 = s3 at b1 b3 b4
    have c3 : ctx? s3 s.ctxs.length = some ⟨kind, b⟩ := by
      rw [b3 _ (by omega)]
      unfold ctx?
      rw [e2, e1]
      simp
    have e4 := exit_ctxs env s3 s.ctxs.length _ c3
    have u4 := inUse_close env k s3 (step env s3 (.exit s.ctxs.length)).2 s.ctxs.length e4
    rw [c3, u1] at u4
    generalize hs4 : (step env s3 (.exit s.ctxs.length)).2 = s4 at e4 u4
    have l4 : s4.ctxs.length = be.2 := by rw [e4, List.length_set, b1]
    obtain ⟨r1, r2, r3, r4, r5⟩ := ihr s4
    rw [l4] at r1 r2 r3 r4 r5
    have hx : x = (.enter kind :: .write s.ctxs.length v :: be.1 ++ .exit s.ctxs.length :: (rest.events be.2).1,
        (rest.events be.2).2) := by
      show Withs.events _ _ = _
      simp only [Withs.events, hbe]
    have hrun : s' = run env s4 (rest.events be.2).1 := by
      show run env s x.1 = _
      rw [hx]
      simp only [List.cons_append, run, hse, hsw, run_append, hs3, hs4]
    have hold : ∀ j, j < s.ctxs.length → ctx? s4 j = ctx? s j := by
      intro j hj
      have h1 : ctx? s4 j = ctx? s3 j := by
        unfold ctx?
        rw [e4, ctx?_set, if_neg (by omega)]
      have h2 : ctx? s2 j = ctx? s j := by
        unfold ctx?
        rw [e2, e1, List.getElem?_append_left hj]
      rw [h1, b3 j (by omega), h2]
    have hpeak : peak env k s x.1 = max (inUse env s k) (max (inUse env s1 k) (max (peak env k s2 be.1)
        (max (inUse env s3 k) (peak env k s4 (rest.events be.2).1)))) := by
      rw [hx]
      simp only [List.cons_append, peak, hse, hsw, peak_append, hs3, hs4]
    refine ⟨?_, ?_, ?_, ?_, ?_⟩
    · rw [hrun, hx]; exact r1
    · rw [hx]; show _ ≤ (rest.events be.2).2; omega
    · intro j hj
      rw [hrun, r3 j (by omega), hold j hj]
    · rw [hrun, r4]; omega
    · rw [hpeak, b5, r5, hs1, b4, hs2]
      simp only [Withs.depth]
      omega

theorem events_no_abort (p : Withs α) (n i : Nat) : .abort i ∉ (p.events n).1 := by
  induction p generalizing n with
  | done => exact fun h => by cases h
  | block kind v body rest ihb ihr =>
    intro h
    simp only [Withs.events, List.cons_append, List.mem_cons, List.mem_append, reduceCtorEq, false_or] at h
    rcases h with h | h
    · exact ihb _ h
    · exact ihr _ h

/-- **C79.**  A program of `with` blocks, of any length, allocates as many arrays with a key as blocks that need a buffer
with this key are nested in each other. -/
theorem C79_nesting (env : BufEnv α) (usr : Nat → NDArray α) (hu : ∀ u, (usr u).shape = (env.spec u).shape)
    (p : Withs α) (k : BKey) : allocated (run env (init env usr) (p.events 0).1) k = p.depth env k := by
  rw [C79_no_exceptions env usr hu _ (events_no_abort p 0) k]
  have := (events_run env k p (init env usr)).2.2.2.2
  have h0 : inUse env (init env usr) k = 0 := rfl
  rw [h0, Nat.zero_add] at this
  exact this

theorem depth_flat (env : BufEnv α) (k : BKey) (l : List (CtxKind × NDArray α)) :
    (Withs.flat l).depth env k = if ∃ x ∈ l, needs env k x.1 = 1 then 1 else 0 := by
  have h01 : ∀ kind, needs env k kind = 0 ∨ needs env k kind = 1 := by
    intro kind
    cases kind <;> simp only [needs] <;> split <;> simp
  induction l with
  | nil => simp [Withs.flat, Withs.depth]
  | cons x l ih =>
    simp only [Withs.flat, Withs.depth, ih, List.mem_cons, exists_eq_or_imp]
    rcases h01 x.1 with h | h
    · by_cases e : ∃ x ∈ l, needs env k x.1 = 1
      · simp [h, e]
      · rw [if_neg e, if_neg (by simp only [h]; rintro (h | h); · cases h
                                 · exact e h)]
        omega
    · simp only [h, true_or, if_true]
      split <;> rfl

/-- **C79.**  However many arrays are received one after the other (all the halo updates of a model run), one array is
allocated for each allocator, shape and dtype of the arrays that are not contiguous, and none for others. -/
theorem C79_one_after_the_other (env : BufEnv α) (usr : Nat → NDArray α)
    (hu : ∀ u, (usr u).shape = (env.spec u).shape) (l : List (Nat × NDArray α)) (k : BKey) :
    allocated (run env (init env usr) ((Withs.flat (l.map fun x => (.recv x.1, x.2))).events 0).1) k =
      if ∃ x ∈ l, env.contiguous x.1 = false ∧ env.spec x.1 = k then 1 else 0 := by
  rw [C79_nesting env usr hu, depth_flat]
  congr 1
  refine propext ⟨?_, ?_⟩
  · rintro ⟨y, hy, h⟩
    obtain ⟨x, hx, rfl⟩ := List.mem_map.1 hy
    refine ⟨x, hx, ?_⟩
    simp only [needs] at h
    split at h
    · assumption
    · cases h
  · rintro ⟨x, hx, h⟩
    refine ⟨_, List.mem_map.2 ⟨x, hx, rfl⟩, ?_⟩
    simp only [needs]
    rw [if_pos h]

theorem failing_run (env : BufEnv α) (k : BKey) (n : Nat) (s : BufSt α) (h : inUse env s k = 0) :
    lost env k s (failing k s.ctxs.length n) = n ∧ peak env k s (failing k s.ctxs.length n) ≤ 1 := by
  induction n generalizing s with
  | zero => exact ⟨rfl, by show inUse env s k ≤ 1; omega⟩
  | succ n ih =>
    obtain ⟨b, e1, u1⟩ := enter_ctxs env k s (.plain k)
    have hn : needs env k (.plain k) = 1 := if_pos rfl
    have hs1 := inUse_push env k s (step env s (.enter (.plain k))).2 ⟨.plain k, b⟩ e1
    rw [u1, hn, h] at hs1
    rw [hn] at u1
    simp only [failing, lost, peak]
    generalize (step env s (.enter (.plain k))).2 = s1 at e1 hs1
    have c1 : ctx? s1 s.ctxs.length = some ⟨.plain k, b⟩ := by
      unfold ctx?
      rw [e1]; simp
    have e2 : (step env s1 (.abort s.ctxs.length)).2.ctxs = s1.ctxs.set s.ctxs.length none := by
      unfold step
      simp only [c1]
    have u2 := inUse_close env k s1 (step env s1 (.abort s.ctxs.length)).2 s.ctxs.length e2
    rw [c1, u1, hs1] at u2
    have l1 : lostBy env k s1 (.abort s.ctxs.length) = 1 := by
      simp only [lostBy, c1]; exact u1
    rw [l1]
    generalize (step env s1 (.abort s.ctxs.length)).2 = s2 at e2 u2
    have l2 : s2.ctxs.length = s.ctxs.length + 1 := by rw [e2, List.length_set, e1]; simp
    obtain ⟨i1, i2⟩ := ih s2 (by omega)
    rw [l2] at i1 i2
    rw [i1]
    refine ⟨?_, by omega⟩
    show 0 + (1 + n) = n + 1
    omega

/-- **C79, limit.**  A block that is left by an exception does not give its buffer back to the cache: `n` such blocks
allocate `n` arrays, although only one is in use at a time. -/
theorem C79_limit_exceptions (env : BufEnv α) (usr : Nat → NDArray α)
    (hu : ∀ u, (usr u).shape = (env.spec u).shape) (k : BKey) (n : Nat) :
    n ≤ allocated (run env (init env usr) (failing k 0 n)) k ∧ peak env k (init env usr) (failing k 0 n) ≤ 1 := by
  obtain ⟨h1, h2⟩ := failing_run env k n (init env usr) rfl
  obtain ⟨h3, -⟩ := run_counts env (init_inv env usr hu) (failing k 0 n) k 0 (init_counts env usr k)
  have h1' : lost env k (init env usr) (failing k 0 n) = n := h1
  exact ⟨by omega, h2⟩

/-- Two user arrays of the same shape which are not contiguous, and one that is. -/
def exUse : BufEnv Nat := ⟨fun u => ⟨0, if u = 3 then [4] else [2], 0⟩, fun u => u == 2, fun k _ => ⟨k.shape, fun _ => 9⟩, fun _ _ => rfl⟩

/-- Three receives, of which one needs no buffer. -/
example (x : NDArray Nat) : allocated (run exUse (init exUse fun u => ⟨(exUse.spec u).shape, fun _ => 0⟩)
    ((Withs.flat ([(0, x), (1, x), (2, x)].map fun x => (.recv x.1, x.2))).events 0).1) ⟨0, [2], 0⟩ = 1 := by
  rw [C79_one_after_the_other exUse _ fun _ => rfl]
  rfl

/-- A gather on the root: the buffer for all ranks, and in its block the buffer for what the root sends itself; and this
twice. -/
example (x y : NDArray Nat) : allocated (run exUse (init exUse fun u => ⟨(exUse.spec u).shape, fun _ => 0⟩)
    ((Withs.block (.plain ⟨0, [6, 2], 0⟩) x (.block (.send 0) y .done .done)
      (.block (.plain ⟨0, [6, 2], 0⟩) x (.block (.send 1) y .done .done) .done)).events 0).1) ⟨0, [2], 0⟩ = 1 := by
  rw [C79_nesting exUse _ fun _ => rfl]
  rfl

/-- Two blocks in one another need two buffers. -/
example (x y : NDArray Nat) : allocated (run exUse (init exUse fun u => ⟨(exUse.spec u).shape, fun _ => 0⟩)
    ((Withs.block (.recv 0) x (.block (.send 1) y .done .done) .done).events 0).1) ⟨0, [2], 0⟩ = 2 := by
  rw [C79_nesting exUse _ fun _ => rfl]
  rfl

/-- Blocks that overlap without being nested. -/
example : allocated (run exUse (init exUse fun u => ⟨(exUse.spec u).shape, fun _ => 0⟩)
    [.enter (.recv 0), .enter (.recv 1), .exit 0, .enter (.recv 0), .exit 1, .exit 2]) ⟨0, [2], 0⟩ = 2 := by
  rw [C79_no_exceptions exUse _ (fun _ => rfl) _ (by simp)]
  rfl

/-- With an exception: two arrays although one is in use at a time; the bounds are 1 and 2. -/
example : 1 ≤ allocated (run exUse (init exUse fun u => ⟨(exUse.spec u).shape, fun _ => 0⟩)
    [.enter (.recv 0), .abort 0, .enter (.recv 1), .exit 1, .enter (.recv 0), .exit 2]) ⟨0, [2], 0⟩ ∧
    allocated (run exUse (init exUse fun u => ⟨(exUse.spec u).shape, fun _ => 0⟩)
    [.enter (.recv 0), .abort 0, .enter (.recv 1), .exit 1, .enter (.recv 0), .exit 2]) ⟨0, [2], 0⟩ ≤ 2 :=
  C79_allocated exUse (fun u => ⟨(exUse.spec u).shape, fun _ => 0⟩) (fun _ => rfl)
    [.enter (.recv 0), .abort 0, .enter (.recv 1), .exit 1, .enter (.recv 0), .exit 2] ⟨0, [2], 0⟩

example : 3 ≤ allocated (run exUse (init exUse fun u => ⟨(exUse.spec u).shape, fun _ => 0⟩)
    (failing ⟨0, [2], 0⟩ 0 3)) ⟨0, [2], 0⟩ := (C79_limit_exceptions exUse _ (fun _ => rfl) _ 3).1

end Buf
end FV3
