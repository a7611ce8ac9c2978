import Verif.Proofs.Broadcast
import Mathlib.Data.List.Induction
import Verif.Spec.DummyComm
import Verif.Proofs.Dict
import Mathlib.Tactic.Linarith

/-!
# C48 DummyComm delivers messages in order
-/

namespace FV3
namespace Dummy
variable {α : Type}

/-- The queue from `src` to `dst` (empty if absent). -/
def queue (s : DSt α) (src dst : Int) : List Nat :=
  (((s.sendRecv.getD []).get? (src, dst))).getD []

/-- Arrays in queues are private, and exist; the user's arrays exist. -/
structure Inv (s : DSt α) : Prop where
  owned_lt : ∀ a ∈ s.owned, a < s.heap.length
  queue_lt : ∀ src dst, ∀ a ∈ queue s src dst, a < s.heap.length
  priv : ∀ src dst, ∀ a ∈ queue s src dst, a ∉ s.owned

/-- The queue from `src` to `dst` holds the values not yet received; the dictionary has an
entry iff something was sent. -/
structure Holds (s : DSt α) (src dst : Int) (sent : List (NDArray α)) (k : Nat) : Prop where
  le : k ≤ sent.length
  values : (queue s src dst).map (read s) = (sent.drop k).map some
  entry : ((s.sendRecv.getD []).get? (src, dst)).isSome = true ↔ sent ≠ []

theorem queue_put (s : DSt α) (src dst src' dst' : Int) (v : NDArray α) :
    queue (put s src dst v) src' dst'
      = if src' = src ∧ dst' = dst then queue s src dst ++ [s.heap.length] else queue s src' dst' := by
  unfold queue put
  simp only [Option.getD_some, Dict.get?_set, Prod.mk.injEq]
  by_cases h : src' = src ∧ dst' = dst
  · rw [if_pos h, if_pos h]; rfl
  · rw [if_neg h, if_neg h]

theorem take_cases (s : DSt α) (dst src : Int) :
    (queue s src dst = [] ∧ take s dst src = (.error (if ((s.sendRecv.getD []).get? (src, dst)).isSome
        then .indexError else .concurrency), s)) ∨
    ∃ a q d, queue s src dst = a :: q ∧ s.sendRecv = some d ∧
      take s dst src = (.ok a, { s with sendRecv := some (d.set (src, dst) q) }) ∧
      ((s.sendRecv.getD []).get? (src, dst)).isSome = true := by
  unfold take queue
  cases hs : s.sendRecv with
  | none => left; simp [Dict.get?]
  | some d =>
    simp only [Option.getD_some]
    have hd : d.get? (src, dst) = none ∨ d.get? (src, dst) = some [] ∨
        ∃ a q, d.get? (src, dst) = some (a :: q) := by
      rcases d.get? (src, dst) with _ | _ | ⟨a, q⟩
      · exact .inl rfl
      · exact .inr (.inl rfl)
      · exact .inr (.inr ⟨a, q, rfl⟩)
    rcases hd with hd | hd | ⟨a, q, hd⟩
    · left; simp [hd]
    · left; simp [hd]
    · right; exact ⟨a, q, d, by simp [hd], rfl, by simp [hd], by simp [hd]⟩

theorem queue_taken (s : DSt α) (d : Dict (Int × Int) (List Nat)) (hs : s.sendRecv = some d)
    (src dst : Int) (q : List Nat) (src' dst' : Int) :
    queue { s with sendRecv := some (d.set (src, dst) q) } src' dst'
      = if src' = src ∧ dst' = dst then q else queue s src' dst' := by
  unfold queue
  simp only [Option.getD_some, Dict.get?_set, Prod.mk.injEq, hs]
  by_cases h : src' = src ∧ dst' = dst
  · rw [if_pos h, if_pos h]; rfl
  · rw [if_neg h, if_neg h]

/-- What a step does to the private part: heap contents of unowned arrays are kept. -/
theorem step_inv {s : DSt α} (I : Inv s) (e : Ev α) : Inv (step s e).2 := by
  cases e with
  | create v =>
    show Inv { s with heap := s.heap ++ [v], owned := s.heap.length :: s.owned }
    refine ⟨?_, ?_, ?_⟩
    · intro a ha
      rw [List.length_append]
      rcases List.mem_cons.1 ha with rfl | h
      · simp
      · have := I.owned_lt a h; simp; omega
    · intro src dst a ha
      have := I.queue_lt src dst a ha
      rw [List.length_append]; omega
    · intro src dst a ha h
      have h1 := I.queue_lt src dst a ha
      rcases List.mem_cons.1 h with rfl | h
      · omega
      · exact I.priv src dst a ha h
  | mutate a v =>
    unfold step; dsimp only
    split
    · exact ⟨fun b hb => by simpa using I.owned_lt b hb, fun src dst b hb => by simpa using I.queue_lt src dst b hb,
        I.priv⟩
    · exact I
  | send src dst a =>
    unfold step; dsimp only
    split
    · split
      · exact I
      · rename_i v _
        refine ⟨?_, ?_, ?_⟩
        · intro b hb
          have := I.owned_lt b hb
          show b < (s.heap ++ [v]).length
          rw [List.length_append]; omega
        · intro src' dst' b hb
          rw [queue_put] at hb
          show b < (s.heap ++ [v]).length
          rw [List.length_append]
          split at hb
          · rcases List.mem_append.1 hb with h | h
            · have := I.queue_lt _ _ b h; omega
            · rw [List.mem_singleton.1 h]; simp
          · have := I.queue_lt _ _ b hb; omega
        · intro src' dst' b hb hb'
          have hb' : b ∈ s.owned := hb'
          rw [queue_put] at hb
          split at hb
          · rcases List.mem_append.1 hb with h | h
            · exact I.priv _ _ b h hb'
            · rw [List.mem_singleton.1 h] at hb'
              exact absurd (I.owned_lt _ hb') (by omega)
          · exact I.priv _ _ b hb hb'
    · exact I
  | recv dst src a =>
    unfold step; dsimp only
    split
    · rcases take_cases s dst src with ⟨-, h⟩ | ⟨b, q, d, hq, hs, h, -⟩
      · rw [h]; exact I
      · rw [h]
        dsimp only
        have J : Inv { s with sendRecv := some (d.set (src, dst) q) } := by
          refine ⟨I.owned_lt, ?_, ?_⟩
          · intro src' dst' c hc
            rw [queue_taken s d hs] at hc
            split at hc
            · exact I.queue_lt src dst c (by rw [hq]; exact List.mem_cons_of_mem _ hc)
            · exact I.queue_lt _ _ c hc
          · intro src' dst' c hc
            rw [queue_taken s d hs] at hc
            split at hc
            · exact I.priv src dst c (by rw [hq]; exact List.mem_cons_of_mem _ hc)
            · exact I.priv _ _ c hc
        split
        · split
          · exact J
          · split
            · exact ⟨fun b hb => by simpa using J.owned_lt b hb,
                fun src dst b hb => by simpa using J.queue_lt src dst b hb, J.priv⟩
            · exact J
        · exact J
    · exact I

theorem read_set_ne (s : DSt α) {a b : Nat} (v : NDArray α) (h : b ≠ a) (sr) :
    read { s with heap := s.heap.set a v, sendRecv := sr } b = read s b := by
  unfold read
  simp [List.getElem?_set, Ne.symm h]

theorem map_read_congr {s s' : DSt α} {l : List Nat} (h : ∀ a ∈ l, read s' a = read s a) :
    l.map (read s') = l.map (read s) := List.map_congr_left h

/-- One step keeps the queue in line with what was sent and received. -/
theorem step_holds {s : DSt α} (I : Inv s) (src dst : Int) {sent : List (NDArray α)} {k : Nat}
    (H : Holds s src dst sent k) (e : Ev α) :
    Holds (step s e).2 src dst (sent ++ sentValues src dst s [e]) (k + takes dst src (sent.length - k) s e) := by
  cases e with
  | create v =>
    simp only [sentValues, takes, List.append_nil, Nat.add_zero]
    refine ⟨H.le, ?_, H.entry⟩
    rw [← H.values]
    refine map_read_congr (s := s) fun a ha => ?_
    show (s.heap ++ [v])[a]? = s.heap[a]?
    rw [List.getElem?_append_left (I.queue_lt src dst a ha)]
  | mutate a v =>
    simp only [sentValues, takes, List.append_nil, Nat.add_zero]
    unfold step; dsimp only
    split
    · rename_i hown
      refine ⟨H.le, ?_, H.entry⟩
      rw [← H.values]
      refine map_read_congr (s := s) fun b hb => ?_
      have : b ≠ a := fun e => I.priv src dst b hb (e ▸ hown)
      exact read_set_ne s v this s.sendRecv
    · exact H
  | send src' dst' a =>
    simp only [sentValues, takes, List.append_nil, Nat.add_zero]
    unfold step; dsimp only
    split
    · rename_i hown
      have hlt := I.owned_lt a hown
      have hr : read s a = some (s.heap[a]) := List.getElem?_eq_getElem hlt
      rw [hr]
      dsimp only
      by_cases e : src' = src ∧ dst' = dst
      · obtain ⟨rfl, rfl⟩ := e
        rw [if_pos ⟨rfl, rfl, hown⟩]
        refine ⟨?_, ?_, ?_⟩
        · have := H.le; simp; omega
        · rw [queue_put, if_pos ⟨rfl, rfl⟩, List.map_append, List.drop_append_of_le_length H.le,
            List.map_append, ← H.values]
          refine congrArg₂ _ (map_read_congr (s := s) fun b hb => ?_) ?_
          · show (s.heap ++ _)[b]? = s.heap[b]?
            rw [List.getElem?_append_left (I.queue_lt _ _ b hb)]
          · show [(s.heap ++ _)[s.heap.length]?] = _
            simp
        · constructor
          · intro _; simp
          · intro _
            show (Dict.get? (Option.getD (some _) []) (src', dst')).isSome = true
            simp [Dict.get?_set]
      · rw [if_neg (fun h => e ⟨h.1, h.2.1⟩), List.append_nil]
        refine ⟨H.le, ?_, ?_⟩
        · rw [queue_put, if_neg (fun h => e ⟨h.1.symm, h.2.symm⟩), ← H.values]
          refine map_read_congr (s := s) fun b hb => ?_
          show (s.heap ++ _)[b]? = s.heap[b]?
          rw [List.getElem?_append_left (I.queue_lt _ _ b hb)]
        · rw [← H.entry]
          show (Dict.get? (Option.getD (some _) []) (src, dst)).isSome = true ↔ _
          rw [Option.getD_some, Dict.get?_set, if_neg]
          intro h
          rw [Prod.mk.injEq] at h
          exact e ⟨h.1.symm, h.2.symm⟩
    · rename_i hown
      rw [if_neg (fun h => hown h.2.2), List.append_nil]
      exact H
  | recv dst' src' a =>
    simp only [sentValues, takes, List.append_nil, Nat.add_zero]
    by_cases hown : a ∈ s.owned
    · have hlta := I.owned_lt a hown
      have hra : read s a = some (s.heap[a]) := List.getElem?_eq_getElem hlta
      rcases take_cases s dst' src' with ⟨hq, h⟩ | ⟨b, q, d, hq, hs, h, hent⟩
      · have hstep : step s (.recv dst' src' a) = (.error (if ((s.sendRecv.getD []).get? (src', dst')).isSome
            then .indexError else .concurrency), s) := by
          unfold step; simp only [if_pos hown, h]
        rw [hstep]
        have hno : ¬ (dst' = dst ∧ src' = src ∧ a ∈ s.owned ∧ 0 < sent.length - k) := by
          rintro ⟨rfl, rfl, -, h⟩
          have := congrArg List.length H.values
          rw [hq] at this
          simp at this
          omega
        rw [if_neg hno]
        exact H
      · have hltb : b < s.heap.length := I.queue_lt src' dst' b (by rw [hq]; exact List.mem_cons_self)
        have hrb : read s b = some (s.heap[b]) := List.getElem?_eq_getElem hltb
        set s1 : DSt α := { s with sendRecv := some (d.set (src', dst') q) } with hs1
        have hstep : step s (.recv dst' src' a) =
            if (s.heap[a]).shape = [] then (.error .indexError, s1)
            else if fits (s.heap[b]).shape (s.heap[a]).shape then
              (.ok (), { s1 with heap := s1.heap.set a ((s.heap[b]).stretch (s.heap[a]).shape) })
            else (.error .valueError, s1) := by
          unfold step
          simp only [if_pos hown, h]
          have h1 : read s1 a = some (s.heap[a]) := hra
          have h2 : read s1 b = some (s.heap[b]) := hrb
          rw [h1, h2]
        -- the queue after the step
        have hqs : ∀ x y, queue (step s (.recv dst' src' a)).2 x y
            = if x = src' ∧ y = dst' then q else queue s x y := by
          intro x y
          rw [hstep]
          split
          · exact queue_taken s d hs src' dst' q x y
          · split <;> exact queue_taken s d hs src' dst' q x y
        have hrd : ∀ x y, ∀ c ∈ queue s x y, read (step s (.recv dst' src' a)).2 c = read s c := by
          intro x y c hc
          have hca : c ≠ a := fun e => I.priv x y c hc (e ▸ hown)
          rw [hstep]
          split
          · rfl
          · split
            · exact read_set_ne s _ hca _
            · rfl
        have hen : ∀ x y, (((step s (.recv dst' src' a)).2.sendRecv.getD []).get? (x, y)).isSome
            = ((s.sendRecv.getD []).get? (x, y)).isSome := by
          intro x y
          have : (step s (.recv dst' src' a)).2.sendRecv = some (d.set (src', dst') q) := by
            rw [hstep]; split
            · rfl
            · split <;> rfl
          rw [this, Option.getD_some, Dict.get?_set]
          by_cases e : (x, y) = (src', dst')
          · rw [if_pos e, e, hent]; rfl
          · rw [if_neg e, hs]; rfl
        by_cases e : dst' = dst ∧ src' = src
        · obtain ⟨rfl, rfl⟩ := e
          have hv := H.values
          rw [hq] at hv
          have hk : k < sent.length := by
            by_contra hk
            rw [List.drop_eq_nil_of_le (by omega)] at hv
            simp at hv
          rw [if_pos ⟨rfl, rfl, hown, by omega⟩]
          rw [List.drop_eq_getElem_cons hk] at hv
          refine ⟨by omega, ?_, ?_⟩
          · rw [hqs, if_pos ⟨rfl, rfl⟩, map_read_congr (s := s) (fun c hc => hrd src' dst' c
              (by rw [hq]; exact List.mem_cons_of_mem _ hc))]
            simp only [List.map_cons, List.cons.injEq] at hv
            exact hv.2
          · rw [hen]; exact H.entry
        · rw [if_neg (fun h => e ⟨h.1, h.2.1⟩), Nat.add_zero]
          refine ⟨H.le, ?_, ?_⟩
          · rw [hqs, if_neg (fun h => e ⟨h.2.symm, h.1.symm⟩), ← H.values]
            exact map_read_congr (s := s) fun c hc => hrd src dst c hc
          · rw [hen]; exact H.entry
    · rw [if_neg (fun h => hown h.2.2.1)]
      unfold step
      simp only [if_neg hown]
      exact H

theorem sentValues_cons (src dst : Int) (s : DSt α) (e : Ev α) (es : List (Ev α)) :
    sentValues src dst s (e :: es) = sentValues src dst s [e] ++ sentValues src dst (step s e).2 es := by
  simp [sentValues]

theorem run_holds {s : DSt α} (I : Inv s) (src dst : Int) {sent : List (NDArray α)} {k : Nat}
    (H : Holds s src dst sent k) (es : List (Ev α)) :
    Inv (run s es) ∧ Holds (run s es) src dst (sent ++ sentValues src dst s es)
      (k + taken dst src (sent.length - k) s es) := by
  induction es generalizing s sent k with
  | nil => simpa [sentValues, taken, run] using ⟨I, H⟩
  | cons e es ih =>
    have h := ih (step_inv I e) (step_holds I src dst H e)
    rw [sentValues_cons, taken, ← List.append_assoc, ← Nat.add_assoc]
    have hl : (sent ++ sentValues src dst s [e]).length - (k + takes dst src (sent.length - k) s e) =
        sent.length - k + (sentValues src dst s [e]).length - takes dst src (sent.length - k) s e := by
      rw [List.length_append]
      have := H.le
      omega
    rw [hl] at h
    exact h

theorem init_inv : Inv (init : DSt α) :=
  ⟨fun a h => absurd h (by simp [init]), fun _ _ a h => absurd h (by simp [queue, init, Dict.get?]),
   fun _ _ a h => absurd h (by simp [queue, init, Dict.get?])⟩

theorem init_holds (src dst : Int) : Holds (init : DSt α) src dst [] 0 :=
  ⟨le_refl _, by simp [queue, init, Dict.get?], by simp [init, Dict.get?]⟩

/-- **C48.**  After any history of sends and receives by any ranks and of changes the user
makes to their arrays, let rank `dst` receive from `src` into an array `a` of theirs.  If `k`
messages from `src` to `dst` have been received before and more than `k` were sent, the
`k`-th value sent (as it was at the time of sending) is stored in `a` and nothing else of the
user's changes.  If `a` has another shape the value is broadcast; if this is not possible ValueError
is raised, and IndexError if `a` has no axes (in both cases nothing is stored, and the message is lost).
Otherwise nothing changes: ConcurrencyError is raised if `src` never sent anything to `dst`,
IndexError if all its messages have been received. -/
theorem C48_delivery (h : List (Ev α)) (dst src : Int) (a : Nat)
    (ha : a ∈ (run init h).owned) :
    let s := run (init : DSt α) h
    let sent := sentValues src dst init h
    let k := received dst src init h
    let x := step s (.recv dst src a)
    (∀ v, sent[k]? = some v → ∃ old, read s a = some old ∧
      (old.shape ≠ [] → old.shape = v.shape → x.1 = .ok () ∧ read x.2 a = some v ∧ ∀ b, b ≠ a → read x.2 b = read s b) ∧
      (old.shape ≠ [] → Broadcastable v.shape old.shape → x.1 = .ok () ∧
        (∃ w, read x.2 a = some w ∧ IsBroadcast v old.shape w) ∧ ∀ b, b ≠ a → read x.2 b = read s b) ∧
      (old.shape ≠ [] → ¬ Broadcastable v.shape old.shape → x.1 = .error .valueError ∧ ∀ b, read x.2 b = read s b) ∧
      (old.shape = [] → x.1 = .error .indexError ∧ ∀ b, read x.2 b = read s b)) ∧
    (k = sent.length → sent = [] → x = (.error .concurrency, s)) ∧
    (k = sent.length → sent ≠ [] → x = (.error .indexError, s)) ∧
    k ≤ sent.length := by
  intro s sent k x
  obtain ⟨I, H⟩ := run_holds (s := (init : DSt α)) init_inv src dst (init_holds src dst) h
  rw [List.nil_append, Nat.zero_add] at H
  have I : Inv s := I
  have H : Holds s src dst sent k := H
  have hown : a ∈ s.owned := ha
  have hlta := I.owned_lt a hown
  have hra : read s a = some (s.heap[a]) := List.getElem?_eq_getElem hlta
  have hval := H.values
  refine ⟨?_, ?_, ?_, H.le⟩
  · intro v hv
    have hk : k < sent.length := (List.getElem?_eq_some_iff.1 hv).1
    have hvk : sent[k] = v := (List.getElem?_eq_some_iff.1 hv).2
    rw [List.drop_eq_getElem_cons hk, hvk] at hval
    rcases take_cases s dst src with ⟨hq, -⟩ | ⟨b, q, d, hq, hs, hT, -⟩
    · rw [hq] at hval; simp at hval
    · rw [hq] at hval
      simp only [List.map_cons, List.cons.injEq] at hval
      have hrb : read s b = some v := hval.1
      have hx : x = if (s.heap[a]).shape = [] then
            (.error .indexError, { s with sendRecv := some (d.set (src, dst) q) })
          else if fits v.shape (s.heap[a]).shape then
            (.ok (), { s with sendRecv := some (d.set (src, dst) q), heap := s.heap.set a (v.stretch (s.heap[a]).shape) })
          else (.error .valueError, { s with sendRecv := some (d.set (src, dst) q) }) := by
        show step s (.recv dst src a) = _
        unfold step
        simp only [if_pos hown, hT]
        have h1 : read { s with sendRecv := some (d.set (src, dst) q) } a = some (s.heap[a]) := hra
        have h2 : read { s with sendRecv := some (d.set (src, dst) q) } b = some v := hrb
        rw [h1, h2]
      have hread : ∀ w : NDArray α, (s.heap.set a w)[a]? = some w := fun w => by simp [hlta]
      refine ⟨_, hra, fun h0 he => ?_, fun h0 he => ?_, fun h0 he => ?_, fun h0 => ?_⟩
      · rw [hx, if_neg h0, if_pos (fits_of he.symm), NDArray.stretch_of he.symm]
        exact ⟨rfl, hread _, fun c hc => read_set_ne s _ hc _⟩
      · rw [hx, if_neg h0, if_pos ((fits_iff _ _).2 he)]
        exact ⟨rfl, ⟨_, hread _, stretch_spec he⟩, fun c hc => read_set_ne s _ hc _⟩
      · rw [hx, if_neg h0, if_neg (fun h => he ((fits_iff _ _).1 h))]
        exact ⟨rfl, fun _ => rfl⟩
      · rw [hx, if_pos h0]
        exact ⟨rfl, fun _ => rfl⟩
  · intro hk hempty
    have hq : queue s src dst = [] := by
      rw [hempty] at hval
      simpa using hval
    rcases take_cases s dst src with ⟨-, hT⟩ | ⟨b, q, d, hq', -⟩
    · have hn : ¬ (((s.sendRecv.getD []).get? (src, dst)).isSome = true) :=
        fun hh => H.entry.1 hh hempty
      show step s (.recv dst src a) = _
      unfold step
      simp only [if_pos hown, hT, if_neg hn]
    · rw [hq] at hq'; cases hq'
  · intro hk hne
    have hq : queue s src dst = [] := by
      rw [hk, List.drop_length] at hval
      simpa using hval
    rcases take_cases s dst src with ⟨-, hT⟩ | ⟨b, q, d, hq', -⟩
    · have hn := H.entry.2 hne
      show step s (.recv dst src a) = _
      unfold step
      simp only [if_pos hown, hT, if_pos hn]
    · rw [hq] at hq'; cases hq'

/-- A history meeting the hypotheses: the sent array is overwritten before the receive. -/
example :
    let h : List (Ev Int) := [.create ⟨[1], fun _ => 3⟩, .create ⟨[1], fun _ => 0⟩, .send 0 1 0,
      .mutate 0 ⟨[1], fun _ => 4⟩, .send 0 1 0, .recv 1 0 1]
    1 ∈ (run init h).owned ∧ received 1 0 init h = 1 ∧ (sentValues 0 1 init h).length = 2 ∧
    ((read (run init h) 1).map (·.get [0])) = some 3 := by decide +kernel

/-- **C48, collectives.**  In any history of `bcast` calls (root 0) in which the communicator is
new, the `k`-th call of a rank returns the `k`-th value broadcast by rank 0 if rank 0 has
already made its `k`-th call, and raises IndexError otherwise. -/
theorem C48_bcast {V : Type} (cs : List (Int × V)) (r : Int) (v : V) :
    let s := (bcasts (⟨[], fun _ => 0⟩ : CSt V) cs).2
    let before := cs.filter (·.1 = r)
    let roots := ((cs ++ [(r, v)]).filter (·.1 = 0)).map (·.2)
    (bcast s r v).1 = match roots[before.length]? with
      | some w => .ok w
      | none => .error .indexError := by
  have key : ∀ (cs : List (Int × V)) (s : CSt V),
      (bcasts s cs).2.values = s.values ++ (cs.filter (·.1 = 0)).map (·.2) ∧
      ∀ r, (bcasts s cs).2.calls r = s.calls r + (cs.filter (·.1 = r)).length := by
    intro cs
    induction cs with
    | nil => intro s; simp [bcasts]
    | cons c cs ih =>
      intro s
      obtain ⟨r, v⟩ := c
      have hv : (bcast s r v).2.values = s.values ++ if r = 0 then [v] else [] := by
        unfold bcast; dsimp only
        by_cases e : r = 0
        · simp only [if_pos e]; split <;> rfl
        · simp only [if_neg e, List.append_nil]; split <;> rfl
      have hc : ∀ r', (bcast s r v).2.calls r' = s.calls r' + if r' = r then 1 else 0 := by
        intro r'
        have : (bcast s r v).2.calls r' = if r' = r then s.calls r + 1 else s.calls r' := by
          unfold bcast; dsimp only; split <;> rfl
        rw [this]
        by_cases e : r' = r
        · subst e; simp
        · simp [e]
      obtain ⟨h1, h2⟩ := ih (bcast s r v).2
      refine ⟨?_, fun r' => ?_⟩
      · show (bcasts (bcast s r v).2 cs).2.values = _
        rw [h1, hv]
        by_cases e : r = 0
        · simp [e]
        · simp [e]
      · show (bcasts (bcast s r v).2 cs).2.calls r' = _
        rw [h2, hc]
        by_cases e : r' = r
        · subst e; simp; omega
        · have : ¬ r = r' := fun h => e h.symm
          simp [e, this]
  intro s before roots
  obtain ⟨h1, h2⟩ := key cs ⟨[], fun _ => 0⟩
  have hs1 : s.values = (cs.filter (·.1 = 0)).map (·.2) := by rw [← List.nil_append (List.map _ _)]; exact h1
  have hs2 : s.calls r = before.length := by
    have := h2 r
    rw [Nat.zero_add] at this
    exact this
  have hroots : roots = if r = 0 then s.values ++ [v] else s.values := by
    show ((cs ++ [(r, v)]).filter (·.1 = 0)).map (·.2) = _
    rw [hs1]
    by_cases e : r = 0 <;> simp [e]
  unfold bcast
  simp only [hs2, ← hroots]
  cases roots[before.length]? <;> rfl

example : (bcasts (⟨[], fun _ => 0⟩ : CSt Int) [(0, 5), (0, 6), (1, 0), (2, 0), (1, 0)]).1.map
    (fun x => x.toOption) = [some 5, some 6, some 5, some 5, some 6] := by decide +kernel

/-- **C48, limit.**  The gather buffer is not cleared: in a second gather the root may call
first and then silently gets the other ranks' values of the first one, instead of a
ConcurrencyError. -/
theorem C48_gather_stale {V : Type} (a0 a1 b0 : V) :
    let s1 := (gather [none, none] 0 1 a1).2
    let s2 := gather s1 0 0 a0
    (gather [none, none] 0 0 a0).1 = .error .concurrency ∧
    s2.1 = .ok (some [a0, a1]) ∧
    (gather s2.2 0 0 b0).1 = .ok (some [b0, a1]) := by
  refine ⟨rfl, rfl, rfl⟩

theorem gather_slots {V : Type} (slots : List (Option V)) (root r : Nat) (v : V) :
    (gather slots root r v).2 = slots.set r (some v) := by
  unfold gather
  dsimp only
  split
  · split <;> rfl
  · rfl

theorem gathers_slots {V : Type} (n : Nat) (cs : List (Nat × Nat × V)) :
    (gathers (List.replicate n none) cs).length = n ∧
    ∀ i, i < n → (gathers (List.replicate n none) cs)[i]? = some (lastGiven cs i) := by
  have key : ∀ (cs : List (Nat × Nat × V)) (slots : List (Option V)),
      (gathers slots cs).length = slots.length ∧
      ∀ i, i < slots.length → (gathers slots cs)[i]? = some ((lastGiven cs i).or (slots[i]?.getD none)) := by
    intro cs
    induction cs with
    | nil =>
      intro slots
      refine ⟨rfl, fun i hi => ?_⟩
      simp [gathers, lastGiven, hi]
    | cons c cs ih =>
      obtain ⟨root, r, v⟩ := c
      intro slots
      have := ih (gather slots root r v).2
      rw [gather_slots] at this
      unfold gathers
      rw [gather_slots]
      refine ⟨by rw [this.1]; simp, fun i hi => ?_⟩
      rw [this.2 i (by simpa using hi)]
      by_cases e : r = i
      · subst e
        simp only [lastGiven, List.filter_cons, decide_true, if_true]
        rw [List.getElem?_set_self hi, List.getLast?_cons]
        cases (cs.filter (·.2.1 = r)).getLast? <;> simp
      · simp only [lastGiven, List.filter_cons, e, decide_false]
        rw [List.getElem?_set_ne e]
        simp
  have := key cs (List.replicate n none)
  simp only [List.length_replicate] at this
  refine ⟨this.1, fun i hi => ?_⟩
  rw [this.2 i hi]
  simp [hi]

theorem mapM_id_iff {V : Type} (l : List (Option V)) (vs : List V) :
    l.mapM id = some vs ↔ l = vs.map some := by
  induction l generalizing vs with
  | nil => cases vs <;> simp
  | cons o l ih =>
    rw [List.mapM_cons]
    cases o with
    | none => cases vs <;> simp
    | some x =>
      cases h : l.mapM id with
      | none =>
        cases vs with
        | nil => simp [h]
        | cons w ws =>
          have := ih ws
          simp [h] at this ⊢
          exact fun _ => this
      | some ys =>
        have hy := (ih ys).1 h
        cases vs with
        | nil => simp [h]
        | cons w ws =>
          subst hy
          simp [h, List.map_inj_right]

/-- **C48, collectives.**  In any history of `Gather` calls on a communicator of `n` ranks, a call by the root
stores for every rank the value of its last call (its own is the one just given), and raises
ConcurrencyError when some rank has not made any call. -/
theorem C48_gather {V : Type} (n : Nat) (cs : List (Nat × Nat × V)) (root : Nat) (hroot : root < n) (v : V) :
    let slots := gathers (List.replicate n none) cs
    let given := lastGiven (cs ++ [(root, root, v)])
    given root = some v ∧
    (∀ vs, (gather slots root root v).1 = .ok (some vs) ↔
      vs.length = n ∧ ∀ i, i < n → given i = vs[i]?) ∧
    ((∃ i, i < n ∧ given i = none) → (gather slots root root v).1 = .error .concurrency) := by
  intro slots given
  have hg := gathers_slots n cs
  have hset : ∀ i, i < n → (slots.set root (some v))[i]? = some (given i) := by
    intro i hi
    by_cases e : root = i
    · subst e
      rw [List.getElem?_set_self (by rw [hg.1]; exact hi)]
      simp [given, lastGiven, List.filter_append]
    · rw [List.getElem?_set_ne e, hg.2 i hi]
      simp [given, lastGiven, List.filter_append, e]
  have hlen : (slots.set root (some v)).length = n := by rw [List.length_set]; exact hg.1
  have hiff : ∀ vs, (slots.set root (some v)).mapM id = some vs ↔
      vs.length = n ∧ ∀ i, i < n → given i = vs[i]? := by
    intro vs
    rw [mapM_id_iff]
    constructor
    · intro h
      have hl : vs.length = n := by rw [← hlen, h, List.length_map]
      refine ⟨hl, fun i hi => ?_⟩
      have := hset i hi
      rw [h, List.getElem?_map] at this
      rw [List.getElem?_eq_getElem (by omega)] at this ⊢
      simpa using this.symm
    · rintro ⟨hl, h⟩
      refine List.ext_getElem? (fun i => ?_)
      by_cases hi : i < n
      · rw [hset i hi, h i hi, List.getElem?_map, List.getElem?_eq_getElem (by omega)]
        rfl
      · rw [List.getElem?_eq_none (by omega), List.getElem?_eq_none (by rw [List.length_map]; omega)]
  refine ⟨by simp [given, lastGiven, List.filter_append], ?_, ?_⟩
  · intro vs
    rw [← hiff]
    unfold gather
    simp only [if_true]
    cases (slots.set root (some v)).mapM id <;> simp
  · rintro ⟨i, hi, hnone⟩
    unfold gather
    simp only [if_true]
    cases hm : (slots.set root (some v)).mapM id with
    | none => rfl
    | some vs =>
      have := (hiff vs).1 hm
      have h2 := this.2 i hi
      rw [hnone, List.getElem?_eq_getElem (by omega)] at h2
      cases h2

/-- Three ranks gather to rank 1; rank 2 calls twice. -/
example : (gather (gathers (List.replicate 3 none) [(1, 2, 7), (1, 0, 8), (1, 2, 9)]) 1 1 5).1 =
    .ok (some [8, 5, 9]) := rfl

theorem scatter_state {V : Type} (s : CSt (Option (List V))) (r : Int) (v : Option (List V)) :
    (scatter s r v).2 = (bcast s r v).2 := by
  unfold scatter
  rcases h : bcast s r v with ⟨x, s'⟩
  cases x with
  | error e => rfl
  | ok o =>
    cases o with
    | none => rfl
    | some items =>
      dsimp only
      split <;> rfl

theorem scatters_eq {V : Type} (cs : List (Int × Option (List V))) (s : CSt (Option (List V))) :
    scatters s cs = (bcasts s cs).2 := by
  induction cs generalizing s with
  | nil => rfl
  | cons c cs ih =>
    obtain ⟨r, v⟩ := c
    unfold scatters bcasts
    rw [scatter_state, ih]

/-- **C48, collectives.**  In any history of `Scatter` calls (root 0) on a new communicator, the `k`-th call
of a rank stores its item of the `k`-th array scattered by rank 0, if rank 0 has already made its `k`-th
call with an array that has such an item.  It raises TypeError if rank 0 gave no array in that call, and
IndexError if rank 0 has not made the call yet or its array is too short. -/
theorem C48_scatter {V : Type} (cs : List (Int × Option (List V))) (r : Int) (v : Option (List V)) :
    let s := scatters (⟨[], fun _ => 0⟩ : CSt (Option (List V))) cs
    let before := cs.filter (·.1 = r)
    let roots := ((cs ++ [(r, v)]).filter (·.1 = 0)).map (·.2)
    (∀ x, (scatter s r v).1 = .ok x ↔
      ∃ items, roots[before.length]? = some (some items) ∧ items[r.toNat]? = some x) ∧
    ((scatter s r v).1 = .error .typeError ↔ roots[before.length]? = some none) ∧
    ((scatter s r v).1 = .error .indexError ↔ roots[before.length]? = none ∨
      ∃ items, roots[before.length]? = some (some items) ∧ items.length ≤ r.toNat) := by
  intro s before roots
  have h : (bcast s r v).1 = match roots[before.length]? with
      | some w => Except.ok w
      | none => Except.error PyErr.indexError := by
    have hs : s = (bcasts (⟨[], fun _ => 0⟩ : CSt (Option (List V))) cs).2 := scatters_eq _ _
    rw [hs]
    refine (C48_bcast cs r v).trans ?_
    dsimp only [roots, before]
    cases (((cs ++ [(r, v)]).filter (·.1 = 0)).map (·.2))[(cs.filter (·.1 = r)).length]? <;> rfl
  unfold scatter
  rcases hb : bcast s r v with ⟨y, s'⟩
  rw [hb] at h
  dsimp only at h
  cases hr : roots[before.length]? with
  | none =>
    rw [hr] at h
    subst h
    simp
  | some o =>
    rw [hr] at h
    subst h
    cases o with
    | none => simp
    | some items =>
      dsimp only
      cases hi : items[r.toNat]? with
      | none => simp [hi]; exact List.getElem?_eq_none_iff.1 hi
      | some w => simp [hi]; exact (List.getElem?_eq_some_iff.1 hi).1

/-- Rank 0 scatters twice; rank 1 gets its items in order. -/
example : (scatter (scatters (⟨[], fun _ => 0⟩ : CSt (Option (List Nat)))
    [(0, some [10, 11]), (0, some [20, 21]), (1, none)]) 1 none).1 = .ok 21 := rfl

/-- **C48, limit.**  The communicators made by `Split` are remembered by each rank for itself: when every
rank calls `Split` once on its own object, as `CubedSphereCommunicator.tile` does, each of them becomes rank 0
of a communicator of size 1, whatever the colours, and not, as in MPI, one of the ranks with its colour. -/
theorem C48_split_limit (color key : Int) : (split [] color key).1 = ⟨0, 1⟩ := rfl

/-- Ranks and sizes of the communicators come out as in MPI only if all the calls are made on one object,
in the order of the keys: then the `k`-th call with a colour has rank `k`. -/
theorem C48_split_one_object (calls : List (Int × Int)) (color key : Int) :
    (split (calls.foldl (fun s c => (split s c.1 c.2).2) []) color key).1 =
      ⟨calls.countP (·.1 = color), calls.countP (·.1 = color) + 1⟩ := by
  have key' : ∀ (s : Dict Int (List SplitComm)),
      ((Dict.get? (calls.foldl (fun s c => (split s c.1 c.2).2) s) color).getD []).length =
        ((Dict.get? s color).getD []).length + calls.countP (·.1 = color) := by
    induction calls with
    | nil => intro s; simp
    | cons c calls ih =>
      intro s
      rw [List.foldl_cons, ih, List.countP_cons]
      unfold split
      dsimp only
      rw [Dict.get?_set]
      by_cases e : color = c.1
      · subst e
        simp
        omega
      · rw [if_neg e]
        have : ¬ c.1 = color := fun h => e h.symm
        simp [this]
  have := key' []
  unfold split at this ⊢
  dsimp only
  rw [this]
  simp [Dict.get?]

/-- And the communicators handed out earlier have grown: after any calls on one object, those of a colour are
ranks 0, 1, ... of communicators that all have as many ranks as there were calls with that colour. -/
theorem C48_split_sizes (calls : List (Int × Int)) (color : Int) :
    (Dict.get? (calls.foldl (fun s c => (split s c.1 c.2).2) []) color).getD [] =
      (List.range (calls.countP (·.1 = color))).map fun i => ⟨i, calls.countP (·.1 = color)⟩ := by
  induction calls using List.reverseRecOn with
  | nil => rfl
  | append_singleton calls c ih =>
    rw [List.foldl_append, List.foldl_cons, List.foldl_nil, List.countP_append, List.countP_singleton]
    generalize calls.foldl (fun s c => (split s c.1 c.2).2) [] = s at ih
    unfold split
    dsimp only
    rw [Dict.get?_set]
    by_cases e : color = c.1
    · subst e
      rw [if_pos rfl, Option.getD_some, ih]
      simp [List.range_succ]
    · have : ¬ c.1 = color := fun h => e h.symm
      rw [if_neg e, ih]
      simp [this]

example : (Dict.get? (([(3, 0), (4, 0), (3, 1)] : List (Int × Int)).foldl (fun s c => (split s c.1 c.2).2) []) 3).getD [] =
    [⟨0, 2⟩, ⟨1, 2⟩] := rfl

end Dummy
end FV3
