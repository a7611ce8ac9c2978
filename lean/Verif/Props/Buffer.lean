import Verif.Proofs.Broadcast
import Verif.Model.Buffer
import Verif.Proofs.Dict
import Mathlib.Tactic.Linarith

/-!
# C35 buffers are exclusive, C36 send and receive buffers are transparent
-/

namespace FV3
namespace Buf
variable {α : Type}

/-- The buffer held by an open context. -/
def Holds (s : BufSt α) (i a : Nat) : Prop := ∃ c, ctx? s i = some c ∧ c.buf = some a

/-- A buffer waiting in the cache under a key. -/
def Waits (s : BufSt α) (k : BKey) (a : Nat) : Prop := ∃ l, s.cache.get? k = some l ∧ a ∈ l

/-- Invariant of the cache. -/
structure Inv (env : BufEnv α) (s : BufSt α) : Prop where
  held_lt : ∀ i a, Holds s i a → a < s.next
  waits_lt : ∀ k a, Waits s k a → a < s.next
  held_inj : ∀ i j a, Holds s i a → Holds s j a → i = j
  held_waits : ∀ i a k, Holds s i a → ¬ Waits s k a
  waits_key : ∀ k a, Waits s k a → s.key a = k
  waits_nodup : ∀ k l, s.cache.get? k = some l → l.Nodup
  held_key : ∀ i c a, ctx? s i = some c → c.buf = some a → s.key a = kindKey env c.kind
  open_key : ∀ i c a, ctx? s i = some c → c.buf = some a → ∃ l, s.cache.get? (kindKey env c.kind) = some l
  shape : ∀ a, a < s.next → (s.mem a).shape = (s.key a).shape
  usr_shape : ∀ u, (s.usr u).shape = (env.spec u).shape

theorem ctx?_append (s : BufSt α) (c : Ctx) (i : Nat) :
    ((s.ctxs ++ [some c])[i]?).join = if i = s.ctxs.length then some c else ctx? s i := by
  unfold ctx?
  by_cases h : i < s.ctxs.length
  · rw [List.getElem?_append_left h, if_neg (by omega)]
  · by_cases e : i = s.ctxs.length
    · subst e; simp
    · rw [if_neg e, List.getElem?_eq_none (by simp; omega), List.getElem?_eq_none (by omega)]

theorem ctx?_length (s : BufSt α) : ctx? s s.ctxs.length = none := by
  unfold ctx?
  rw [List.getElem?_eq_none (le_refl _)]; rfl

theorem ctx?_set (l : List (Option Ctx)) (i j : Nat) :
    ((l.set i none)[j]?).join = if j = i then none else (l[j]?).join := by
  rw [List.getElem?_set]
  by_cases e : i = j
  · subst e
    simp only [if_true]
    split <;> rfl
  · rw [if_neg e, if_neg (fun h => e h.symm)]

/-- What `acquire` returns is not held or waiting any more, and was allocated with the key. -/
structure Fresh (env : BufEnv α) (s : BufSt α) (k : BKey) (a : Nat) (s' : BufSt α) : Prop where
  ctxs : s'.ctxs = s.ctxs
  usr : s'.usr = s.usr
  le : s.next ≤ s'.next
  lt : a < s'.next
  not_held : ∀ i, ¬ Holds s i a
  not_waits : ∀ k', ¬ Waits s' k' a
  waits : ∀ k' b, Waits s' k' b → Waits s k' b
  nodup : ∀ k l, s'.cache.get? k = some l → l.Nodup
  key : s'.key a = k
  key_old : ∀ b, b < s.next → s'.key b = s.key b
  mem_old : ∀ b, b < s.next → s'.mem b = s.mem b
  some_key : ∃ l, s'.cache.get? k = some l
  old_keys : ∀ k' l, s.cache.get? k' = some l → ∃ l', s'.cache.get? k' = some l'
  shape : ∀ b, b < s'.next → (s'.mem b).shape = (s'.key b).shape

theorem acquire_fresh (env : BufEnv α) {s : BufSt α} (I : Inv env s) (k : BKey) :
    Fresh env s k (acquire env k s).1 (acquire env k s).2 := by
  have alloc : ∀ cache : Dict BKey (List Nat),
      (∀ k' b, (∃ l, cache.get? k' = some l ∧ b ∈ l) → Waits s k' b) →
      (∀ k l, cache.get? k = some l → l.Nodup) →
      (∃ l, cache.get? k = some l) →
      (∀ k' l, s.cache.get? k' = some l → ∃ l', cache.get? k' = some l') →
      Fresh env s k s.next { s with cache := cache, next := s.next + 1, key := upd s.key s.next k
                                    mem := upd s.mem s.next (env.fresh k s.next) } := by
    intro cache h1 hn h2 h3
    refine ⟨rfl, rfl, Nat.le_succ _, Nat.lt_succ_self _, fun i h => ?_, fun k' h => ?_, h1, hn, ?_, ?_, ?_,
      h2, h3, ?_⟩
    · exact absurd (I.held_lt i _ h) (by omega)
    · exact absurd (I.waits_lt k' _ (h1 _ _ h)) (by omega)
    · simp [upd]
    · intro b hb
      show upd s.key s.next k b = _
      unfold upd
      rw [if_neg (by omega)]
    · intro b hb
      show upd s.mem s.next _ b = _
      unfold upd
      rw [if_neg (by omega)]
    · intro b hb
      show (upd s.mem s.next _ b).shape = (upd s.key s.next k b).shape
      unfold upd
      by_cases e : b = s.next
      · rw [if_pos e, if_pos e]; exact env.fresh_shape _ _
      · rw [if_neg e, if_neg e]
        exact I.shape b (by
          have : b < s.next + 1 := hb
          omega)
  unfold acquire
  cases hc : s.cache.get? k with
  | none =>
    refine alloc _ ?_ ?_ ?_ ?_
    · rintro k' b ⟨l, hl, hb⟩
      rw [Dict.get?_set] at hl
      by_cases e : k' = k
      · rw [if_pos e] at hl
        cases hl; cases hb
      · rw [if_neg e] at hl
        exact ⟨l, hl, hb⟩
    · intro k' l hl
      rw [Dict.get?_set] at hl
      by_cases e : k' = k
      · rw [if_pos e] at hl
        cases hl; exact List.nodup_nil
      · rw [if_neg e] at hl
        exact I.waits_nodup _ _ hl
    · exact ⟨_, Dict.get?_set_self _ _ _⟩
    · intro k' l hl
      rw [Dict.get?_set]
      split
      · exact ⟨_, rfl⟩
      · exact ⟨_, hl⟩
  | some l =>
    cases l with
    | nil =>
      exact alloc s.cache (fun k' b h => h) I.waits_nodup ⟨_, hc⟩ (fun k' l hl => ⟨_, hl⟩)
    | cons a rest =>
      have hw : Waits s k a := ⟨_, hc, List.mem_cons_self⟩
      have hnd := List.nodup_cons.1 (I.waits_nodup _ _ hc)
      refine ⟨rfl, rfl, le_refl _, I.waits_lt k a hw, fun i h => I.held_waits i a k h hw, ?_, ?_, ?_,
        I.waits_key k a hw, fun _ _ => rfl, fun _ _ => rfl, ⟨_, Dict.get?_set_self _ _ _⟩, ?_, I.shape⟩
      · rintro k' ⟨l, hl, ha⟩
        have hl' : Dict.get? (s.cache.set k rest) k' = some l := hl
        rw [Dict.get?_set] at hl'
        by_cases e : k' = k
        · rw [if_pos e] at hl'
          cases hl'
          exact hnd.1 ha
        · rw [if_neg e] at hl'
          have h1 := I.waits_key k' a ⟨l, hl', ha⟩
          rw [I.waits_key k a hw] at h1
          exact e h1.symm
      · rintro k' b ⟨l, hl, hb⟩
        have hl' : Dict.get? (s.cache.set k rest) k' = some l := hl
        rw [Dict.get?_set] at hl'
        by_cases e : k' = k
        · rw [if_pos e] at hl'
          cases hl'
          exact ⟨_, by rw [e]; exact hc, List.mem_cons_of_mem _ hb⟩
        · rw [if_neg e] at hl'
          exact ⟨l, hl', hb⟩
      · intro k' l hl
        have hl' : Dict.get? (s.cache.set k rest) k' = some l := hl
        rw [Dict.get?_set] at hl'
        by_cases e : k' = k
        · rw [if_pos e] at hl'
          cases hl'; exact hnd.2
        · rw [if_neg e] at hl'
          exact I.waits_nodup _ _ hl'
      · intro k' l hl
        show ∃ l', Dict.get? (s.cache.set k rest) k' = some l'
        rw [Dict.get?_set]
        split
        · exact ⟨_, rfl⟩
        · exact ⟨_, hl⟩

/-- Adding a context that holds an acquired buffer. -/
theorem Inv.push {env : BufEnv α} {s s' : BufSt α} {kind : CtxKind} {a : Nat} (I : Inv env s)
    (F : Fresh env s (kindKey env kind) a s') (mem : Nat → NDArray α)
    (hmem : ∀ b, b < s'.next → (mem b).shape = (s'.key b).shape) :
    Inv env { s' with mem := mem, ctxs := s.ctxs ++ [some ⟨kind, some a⟩] } := by
  set t : BufSt α := { s' with mem := mem, ctxs := s.ctxs ++ [some ⟨kind, some a⟩] } with ht
  have hctx : ∀ i, ctx? t i = if i = s.ctxs.length then some ⟨kind, some a⟩ else ctx? s i :=
    fun i => ctx?_append s _ i
  have hheld : ∀ i b, Holds t i b → (i = s.ctxs.length ∧ b = a) ∨ (i ≠ s.ctxs.length ∧ Holds s i b) := by
    rintro i b ⟨c, hc, hb⟩
    rw [hctx] at hc
    by_cases e : i = s.ctxs.length
    · rw [if_pos e] at hc
      cases hc; cases hb
      exact .inl ⟨e, rfl⟩
    · rw [if_neg e] at hc
      exact .inr ⟨e, c, hc, hb⟩
  have hw : ∀ k b, Waits t k b → Waits s' k b := fun k b h => h
  refine ⟨?_, ?_, ?_, ?_, ?_, F.nodup, ?_, ?_, hmem, ?_⟩
  · intro i b h
    rcases hheld i b h with ⟨-, rfl⟩ | ⟨-, h'⟩
    · exact F.lt
    · exact lt_of_lt_of_le (I.held_lt i b h') F.le
  · intro k b h
    exact lt_of_lt_of_le (I.waits_lt k b (F.waits k b (hw k b h))) F.le
  · intro i j b hi hj
    rcases hheld i b hi with ⟨e1, rfl⟩ | ⟨e1, h1⟩
    · rcases hheld j b hj with ⟨e2, -⟩ | ⟨e2, h2⟩
      · rw [e1, e2]
      · exact absurd h2 (F.not_held j)
    · rcases hheld j b hj with ⟨e2, rfl⟩ | ⟨e2, h2⟩
      · exact absurd h1 (F.not_held i)
      · exact I.held_inj i j b h1 h2
  · intro i b k hi hk
    rcases hheld i b hi with ⟨e1, rfl⟩ | ⟨e1, h1⟩
    · exact F.not_waits k (hw k b hk)
    · exact I.held_waits i b k h1 (F.waits k b (hw k b hk))
  · intro k b hk
    have h := F.waits k b (hw k b hk)
    show s'.key b = k
    rw [F.key_old b (I.waits_lt k b h)]
    exact I.waits_key k b h
  · intro i c b hc hb
    rw [hctx] at hc
    by_cases e : i = s.ctxs.length
    · rw [if_pos e] at hc
      cases hc; cases hb
      exact F.key
    · rw [if_neg e] at hc
      show s'.key b = _
      rw [F.key_old b (I.held_lt i b ⟨c, hc, hb⟩)]
      exact I.held_key i c b hc hb
  · intro i c b hc hb
    rw [hctx] at hc
    by_cases e : i = s.ctxs.length
    · rw [if_pos e] at hc
      cases hc
      exact F.some_key
    · rw [if_neg e] at hc
      obtain ⟨l, hl⟩ := I.open_key i c b hc hb
      exact F.old_keys _ _ hl
  · intro u
    show (s'.usr u).shape = _
    rw [F.usr]
    exact I.usr_shape u

/-- A context without a buffer. -/
theorem Inv.pushNone {env : BufEnv α} {s : BufSt α} {kind : CtxKind} (I : Inv env s) :
    Inv env { s with ctxs := s.ctxs ++ [some ⟨kind, none⟩] } := by
  set t : BufSt α := { s with ctxs := s.ctxs ++ [some ⟨kind, none⟩] } with ht
  have hctx : ∀ i, ctx? t i = if i = s.ctxs.length then some ⟨kind, none⟩ else ctx? s i :=
    fun i => ctx?_append s _ i
  have hb' : ∀ i c b, ctx? t i = some c → c.buf = some b → ctx? s i = some c := by
    intro i c b hc hb
    rw [hctx] at hc
    by_cases e : i = s.ctxs.length
    · rw [if_pos e] at hc
      cases hc; cases hb
    · rw [if_neg e] at hc; exact hc
  have hheld : ∀ i b, Holds t i b → Holds s i b := fun i b ⟨c, hc, hb⟩ => ⟨c, hb' i c b hc hb, hb⟩
  exact ⟨fun i a h => I.held_lt i a (hheld i a h), I.waits_lt,
    fun i j a h h' => I.held_inj i j a (hheld i a h) (hheld j a h'),
    fun i a k h => I.held_waits i a k (hheld i a h), I.waits_key, I.waits_nodup,
    fun i c a hc hb => I.held_key i c a (hb' i c a hc hb) hb,
    fun i c a hc hb => I.open_key i c a (hb' i c a hc hb) hb, I.shape, I.usr_shape⟩

/-- Closing a context without returning its buffer. -/
theorem Inv.drop {env : BufEnv α} {s : BufSt α} (I : Inv env s) (i : Nat) (usr : Nat → NDArray α)
    (hu : ∀ u, (usr u).shape = (env.spec u).shape) :
    Inv env { s with ctxs := s.ctxs.set i none, usr := usr } := by
  set t : BufSt α := { s with ctxs := s.ctxs.set i none, usr := usr } with ht
  have hctx : ∀ j, ctx? t j = if j = i then none else ctx? s j := fun j => ctx?_set _ _ _
  have hb' : ∀ j c, ctx? t j = some c → ctx? s j = some c := by
    intro j c hc
    rw [hctx] at hc
    by_cases e : j = i
    · rw [if_pos e] at hc; cases hc
    · rw [if_neg e] at hc; exact hc
  have hheld : ∀ i b, Holds t i b → Holds s i b := fun i b ⟨c, hc, hb⟩ => ⟨c, hb' i c hc, hb⟩
  exact ⟨fun i a h => I.held_lt i a (hheld i a h), I.waits_lt,
    fun i j a h h' => I.held_inj i j a (hheld i a h) (hheld j a h'),
    fun i a k h => I.held_waits i a k (hheld i a h), I.waits_key, I.waits_nodup,
    fun i c a hc hb => I.held_key i c a (hb' i c hc) hb,
    fun i c a hc hb => I.open_key i c a (hb' i c hc) hb, I.shape, hu⟩

/-- Returning the buffer of a closed context. -/
theorem Inv.release {env : BufEnv α} {s : BufSt α} (I : Inv env s) {i : Nat} {c : Ctx} {a : Nat}
    (hc : ctx? s i = some c) (hb : c.buf = some a) (usr : Nat → NDArray α)
    (hu : ∀ u, (usr u).shape = (env.spec u).shape) :
    let x := release (kindKey env c.kind) a { s with ctxs := s.ctxs.set i none, usr := usr }
    x.1 = .ok () ∧ Inv env x.2 ∧ x.2.ctxs = s.ctxs.set i none ∧ x.2.usr = usr ∧ x.2.mem = s.mem := by
  obtain ⟨l, hl⟩ := I.open_key i c a hc hb
  have D := I.drop i usr hu
  have hk := I.held_key i c a hc hb
  have hnot : ∀ j, ¬ Holds { s with ctxs := s.ctxs.set i none, usr := usr } j a := by
    rintro j ⟨c', hc', hb'⟩
    have hc'' : ((s.ctxs.set i none)[j]?).join = some c' := hc'
    rw [ctx?_set] at hc''
    by_cases e : j = i
    · rw [if_pos e] at hc''; cases hc''
    · rw [if_neg e] at hc''
      exact e (I.held_inj j i a ⟨c', hc'', hb'⟩ ⟨c, hc, hb⟩)
  unfold Buf.release
  simp only [hl]
  refine ⟨trivial, ?_, trivial, trivial, trivial⟩
  generalize hs2 : ({ s with ctxs := s.ctxs.set i none, usr := usr } : BufSt α) = s2 at D hnot
  have hcache : s2.cache = s.cache := by rw [← hs2]
  have hkey : s2.key a = kindKey env c.kind := by rw [← hs2]; exact hk
  have hlt : a < s2.next := by rw [← hs2]; exact I.held_lt i a ⟨c, hc, hb⟩
  have hnw : ∀ k, ¬ Waits s2 k a := by
    intro k h
    refine I.held_waits i a k ⟨c, hc, hb⟩ ?_
    obtain ⟨l, h1, h2⟩ := h
    exact ⟨l, by rw [← hcache]; exact h1, h2⟩
  have hw : ∀ k b, Waits ({ s2 with cache := s.cache.set (kindKey env c.kind) (a :: l) }) k b →
      (b = a ∧ k = kindKey env c.kind) ∨ Waits s2 k b := by
    rintro k b ⟨l', h1, h2⟩
    have h1' : Dict.get? (s.cache.set (kindKey env c.kind) (a :: l)) k = some l' := h1
    rw [Dict.get?_set] at h1'
    by_cases e : k = kindKey env c.kind
    · rw [if_pos e] at h1'
      cases h1'
      rcases List.mem_cons.1 h2 with h3 | h3
      · exact .inl ⟨h3, e⟩
      · exact .inr ⟨l, by rw [hcache, e]; exact hl, h3⟩
    · rw [if_neg e] at h1'
      exact .inr ⟨l', by rw [hcache]; exact h1', h2⟩
  have goal : Inv env { s2 with cache := s.cache.set (kindKey env c.kind) (a :: l) } := by
    refine ⟨fun j b h => D.held_lt j b h, ?_, fun j j' b h h' => D.held_inj j j' b h h', ?_, ?_, ?_,
      fun j c' b h h' => D.held_key j c' b h h', ?_, D.shape, D.usr_shape⟩
    · intro k b h
      rcases hw k b h with ⟨rfl, -⟩ | h
      · exact hlt
      · exact D.waits_lt k b h
    · intro j b k h h'
      rcases hw k b h' with ⟨rfl, -⟩ | h'
      · exact hnot j h
      · exact D.held_waits j b k h h'
    · intro k b h
      rcases hw k b h with ⟨rfl, rfl⟩ | h
      · exact hkey
      · exact D.waits_key k b h
    · intro k l' h1
      have h1' : Dict.get? (s.cache.set (kindKey env c.kind) (a :: l)) k = some l' := h1
      rw [Dict.get?_set] at h1'
      by_cases e : k = kindKey env c.kind
      · rw [if_pos e] at h1'
        cases h1'
        exact List.nodup_cons.2 ⟨fun h => hnw _ ⟨l, by rw [hcache]; exact hl, h⟩,
          I.waits_nodup _ _ hl⟩
      · rw [if_neg e] at h1'
        exact D.waits_nodup k l' (by rw [hcache]; exact h1')
    · intro j c' b h h'
      obtain ⟨l', hl'⟩ := D.open_key j c' b h h'
      show ∃ l, Dict.get? (s.cache.set (kindKey env c.kind) (a :: _)) _ = some l
      rw [Dict.get?_set]
      split
      · exact ⟨_, rfl⟩
      · exact ⟨l', by rw [← hcache]; exact hl'⟩
  rw [← hs2] at goal
  exact goal

theorem step_inv (env : BufEnv α) {s : BufSt α} (I : Inv env s) (e : Ev α) :
    Inv env (step env s e).2 := by
  cases e with
  | enter kind =>
    cases kind with
    | plain k =>
      have F := acquire_fresh env I k
      exact I.push (kind := .plain k) F _ F.shape
    | send u =>
      show Inv env (enter env (.send u) s).2
      unfold enter
      dsimp only
      split
      · exact I.pushNone
      · have F := acquire_fresh env I (env.spec u)
        refine I.push (kind := .send u) F _ ?_
        intro b hb
        unfold upd
        split
        · rename_i e
          rw [e, F.key, F.usr, I.usr_shape]
        · exact F.shape b hb
    | recv u =>
      show Inv env (enter env (.recv u) s).2
      unfold enter
      dsimp only
      split
      · exact I.pushNone
      · have F := acquire_fresh env I (env.spec u)
        exact I.push (kind := .recv u) F _ F.shape
  | write i v =>
    unfold step
    dsimp only
    split
    · exact I
    · rename_i c hc
      split
      · exact I
      · rename_i hv
        split
        · exact I
        · rename_i a _ hb
          refine ⟨I.held_lt, I.waits_lt, I.held_inj, I.held_waits, I.waits_key, I.waits_nodup, I.held_key,
            I.open_key, ?_, I.usr_shape⟩
          intro b hlt
          show (upd s.mem a (v.stretch _) b).shape = _
          unfold upd
          split
          · rename_i e
            rw [e, NDArray.stretch_shape, ← I.held_key i c a hc (by assumption)]
          · exact I.shape b hlt
        · rename_i u hb hk
          refine ⟨I.held_lt, I.waits_lt, I.held_inj, I.held_waits, I.waits_key, I.waits_nodup, I.held_key,
            I.open_key, I.shape, ?_⟩
          intro u'
          show (upd s.usr u (v.stretch _) u').shape = _
          unfold upd
          split
          · rename_i e
            rw [e, NDArray.stretch_shape]
          · exact I.usr_shape u'
        · exact I
  | userWrite u v =>
    unfold step
    dsimp only
    split
    · exact I
    · rename_i hv
      refine ⟨I.held_lt, I.waits_lt, I.held_inj, I.held_waits, I.waits_key, I.waits_nodup, I.held_key,
        I.open_key, I.shape, ?_⟩
      intro u'
      show (upd s.usr u (v.stretch _) u').shape = _
      unfold upd
      split
      · rename_i e
        rw [e, NDArray.stretch_shape]
      · exact I.usr_shape u'
  | exit i =>
    unfold step
    dsimp only
    split
    · exact I
    · rename_i c hc
      split
      · exact I.drop i s.usr I.usr_shape
      · rename_i a hb
        obtain ⟨kind, buf⟩ := c
        cases kind with
        | plain k => exact (I.release hc hb s.usr I.usr_shape).2.1
        | send u => exact (I.release hc hb s.usr I.usr_shape).2.1
        | recv u =>
          refine (I.release hc hb (upd s.usr u (s.mem a)) ?_).2.1
          intro u'
          unfold upd
          split
          · rename_i e
            rw [e, I.shape a (I.held_lt i a ⟨_, hc, hb⟩), I.held_key i _ a hc hb]; rfl
          · exact I.usr_shape u'
  | abort i =>
    unfold step
    dsimp only
    split
    · exact I
    · exact I.drop i s.usr I.usr_shape

theorem run_inv (env : BufEnv α) {s : BufSt α} (I : Inv env s) (es : List (Ev α)) :
    Inv env (run env s es) := by
  induction es generalizing s with
  | nil => exact I
  | cons e es ih => exact ih (step_inv env I e)

theorem init_inv (env : BufEnv α) (usr : Nat → NDArray α)
    (hu : ∀ u, (usr u).shape = (env.spec u).shape) : Inv env (init env usr) := by
  have h0 : ∀ i, ctx? (init env usr) i = none := fun i => by simp [ctx?, init]
  have hh : ∀ i a, ¬ Holds (init env usr) i a := by
    rintro i a ⟨c, hc, -⟩
    rw [h0] at hc; cases hc
  have hw : ∀ k a, ¬ Waits (init env usr) k a := by
    rintro k a ⟨l, hl, -⟩
    cases hl
  exact ⟨fun i a h => absurd h (hh i a), fun k a h => absurd h (hw k a),
    fun i j a h => absurd h (hh i a), fun i a k h => absurd h (hh i a),
    fun k a h => absurd h (hw k a), fun k l h => (by cases h),
    fun i c a h => (by rw [h0] at h; cases h), fun i c a h => (by rw [h0] at h; cases h),
    fun a h => absurd h (by simp [init]), hu⟩

/-- **C35.**  After any history of entering contexts, writing, leaving them normally or by an
exception, in any order and nesting: the arrays held by two different open contexts are
different; each was created by the allocator, with the shape and dtype, asked for; and none
of them is available in the cache. -/
theorem C35_exclusive (env : BufEnv α) (usr : Nat → NDArray α)
    (hu : ∀ u, (usr u).shape = (env.spec u).shape) (es : List (Ev α)) :
    let s := run env (init env usr) es
    (∀ i j c c' a, ctx? s i = some c → ctx? s j = some c' → c.buf = some a → c'.buf = some a → i = j) ∧
    (∀ i c a, ctx? s i = some c → c.buf = some a →
      s.key a = kindKey env c.kind ∧ (s.mem a).shape = (kindKey env c.kind).shape) ∧
    (∀ i c a, ctx? s i = some c → c.buf = some a → ∀ k l, s.cache.get? k = some l → a ∉ l) := by
  intro s
  have I : Inv env s := run_inv env (init_inv env usr hu) es
  refine ⟨fun i j c c' a h h' hb hb' => I.held_inj i j a ⟨c, h, hb⟩ ⟨c', h', hb'⟩,
    fun i c a h hb => ⟨I.held_key i c a h hb, ?_⟩,
    fun i c a h hb k l hl hm => I.held_waits i a k ⟨c, h, hb⟩ ⟨l, hl, hm⟩⟩
  rw [I.shape a (I.held_lt i a ⟨c, h, hb⟩), I.held_key i c a h hb]

/-- **C35.**  Leaving an open context never raises. -/
theorem C35_exit_succeeds (env : BufEnv α) (usr : Nat → NDArray α)
    (hu : ∀ u, (usr u).shape = (env.spec u).shape) (es : List (Ev α)) (i : Nat) (c : Ctx)
    (hc : ctx? (run env (init env usr) es) i = some c) :
    (step env (run env (init env usr) es) (.exit i)).1 = .ok () := by
  have I : Inv env (run env (init env usr) es) := run_inv env (init_inv env usr hu) es
  generalize run env (init env usr) es = s at *
  unfold step
  simp only [hc]
  obtain ⟨kind, buf⟩ := c
  cases buf with
  | none => rfl
  | some a =>
    cases kind with
    | plain k => exact (I.release hc rfl s.usr I.usr_shape).1
    | send u => exact (I.release hc rfl s.usr I.usr_shape).1
    | recv u =>
      refine (I.release hc rfl (upd s.usr u (s.mem a)) ?_).1
      intro u'
      unfold upd
      split
      · rename_i e
        rw [e, I.shape a (I.held_lt i a ⟨_, hc, rfl⟩), I.held_key i _ a hc rfl]; rfl
      · exact I.usr_shape u'

/-! ### C36 -/

/-- An event that does not concern context `i`: not its end, and no write by its body. -/
def Ev.other (i : Nat) : Ev α → Prop
  | .enter _ => True
  | .write j _ => j ≠ i
  | .userWrite _ _ => True
  | .exit j => j ≠ i
  | .abort j => j ≠ i

/-- The buffer held by a context is only changed by the body of that context. -/
theorem step_other (env : BufEnv α) {s : BufSt α} (I : Inv env s) {i : Nat} {c : Ctx}
    (hc : ctx? s i = some c) (e : Ev α) (he : e.other i) :
    ctx? (step env s e).2 i = some c ∧
    ∀ a, c.buf = some a → (step env s e).2.mem a = s.mem a := by
  have hi : i < s.ctxs.length := by
    by_contra h
    unfold ctx? at hc
    rw [List.getElem?_eq_none (by omega)] at hc
    cases hc
  have happ : ∀ c', ((s.ctxs ++ [some c'])[i]?).join = some c := by
    intro c'
    rw [ctx?_append, if_neg (by omega)]; exact hc
  have hset : ∀ j, j ≠ i → ((s.ctxs.set j none)[i]?).join = some c := by
    intro j hj
    rw [ctx?_set, if_neg (Ne.symm hj)]; exact hc
  have hlt : ∀ a, c.buf = some a → a < s.next := fun a ha => I.held_lt i a ⟨c, hc, ha⟩
  cases e with
  | enter kind =>
    have hF : ∀ k a, c.buf = some a → (acquire env k s).2.mem a = s.mem a :=
      fun k a ha => (acquire_fresh env I k).mem_old a (hlt a ha)
    cases kind with
    | plain k => exact ⟨happ _, fun a ha => hF k a ha⟩
    | send u =>
      show ctx? (enter env (.send u) s).2 i = _ ∧ ∀ a, _ → (enter env (.send u) s).2.mem a = _
      unfold enter
      dsimp only
      split
      · exact ⟨happ _, fun _ _ => rfl⟩
      · refine ⟨happ _, fun a ha => ?_⟩
        show upd _ _ _ a = _
        unfold upd
        split
        · rename_i e
          have := (acquire_fresh env I (env.spec u)).not_held i
          rw [← e] at this
          exact absurd ⟨c, hc, ha⟩ this
        · exact hF _ a ha
    | recv u =>
      show ctx? (enter env (.recv u) s).2 i = _ ∧ ∀ a, _ → (enter env (.recv u) s).2.mem a = _
      unfold enter
      dsimp only
      split
      · exact ⟨happ _, fun _ _ => rfl⟩
      · exact ⟨happ _, fun a ha => hF _ a ha⟩
  | write j v =>
    have hj : j ≠ i := he
    unfold step
    dsimp only
    split
    · exact ⟨hc, fun _ _ => rfl⟩
    · rename_i c' hc'
      split
      · exact ⟨hc, fun _ _ => rfl⟩
      · split
        · exact ⟨hc, fun _ _ => rfl⟩
        · rename_i b hb _ _
          refine ⟨hc, fun a ha => ?_⟩
          show upd _ _ _ a = _
          unfold upd
          split
          · rename_i e
            refine absurd (I.held_inj j i a ⟨c', hc', ?_⟩ ⟨c, hc, ha⟩) hj
            rw [e]; assumption
          · rfl
        · exact ⟨hc, fun _ _ => rfl⟩
        · exact ⟨hc, fun _ _ => rfl⟩
  | userWrite u v =>
    unfold step
    dsimp only
    split
    · exact ⟨hc, fun _ _ => rfl⟩
    · exact ⟨hc, fun _ _ => rfl⟩
  | exit j =>
    have hj : j ≠ i := he
    unfold step
    dsimp only
    split
    · exact ⟨hc, fun _ _ => rfl⟩
    · rename_i c' hc'
      split
      · exact ⟨hset j hj, fun _ _ => rfl⟩
      · have hrel : ∀ k b usr,
            ctx? (release k b { s with ctxs := s.ctxs.set j none, usr := usr }).2 i = some c ∧
            ∀ a, c.buf = some a →
              (release k b { s with ctxs := s.ctxs.set j none, usr := usr }).2.mem a = s.mem a := by
          intro k b usr
          unfold release
          dsimp only
          split
          · exact ⟨hset j hj, fun _ _ => rfl⟩
          · exact ⟨hset j hj, fun _ _ => rfl⟩
        split
        · exact hrel _ _ _
        · exact hrel _ _ s.usr
        · exact hrel _ _ s.usr
  | abort j =>
    have hj : j ≠ i := he
    unfold step
    dsimp only
    split
    · exact ⟨hc, fun _ _ => rfl⟩
    · exact ⟨hset j hj, fun _ _ => rfl⟩

theorem run_other (env : BufEnv α) {s : BufSt α} (I : Inv env s) {i : Nat} {c : Ctx}
    (hc : ctx? s i = some c) (es : List (Ev α)) (he : ∀ e ∈ es, e.other i) :
    ctx? (run env s es) i = some c ∧ ∀ a, c.buf = some a → (run env s es).mem a = s.mem a := by
  induction es generalizing s with
  | nil => exact ⟨hc, fun _ _ => rfl⟩
  | cons e es ih =>
    obtain ⟨h1, h2⟩ := step_other env I hc e (he e List.mem_cons_self)
    obtain ⟨h3, h4⟩ := ih (step_inv env I e) h1 (fun e' h' => he e' (List.mem_cons_of_mem _ h'))
    exact ⟨h3, fun a ha => (h4 a ha).trans (h2 a ha)⟩

theorem enter_index (env : BufEnv α) (kind : CtxKind) (s : BufSt α) :
    ∃ b, (step env s (.enter kind)).2.ctxs = s.ctxs ++ [some ⟨kind, b⟩] := by
  cases kind with
  | plain k => exact ⟨_, rfl⟩
  | send u =>
    show ∃ b, (enter env (.send u) s).2.ctxs = _
    unfold enter; dsimp only; split <;> exact ⟨_, rfl⟩
  | recv u =>
    show ∃ b, (enter env (.recv u) s).2.ctxs = _
    unfold enter; dsimp only; split <;> exact ⟨_, rfl⟩

/-- **C36, sending.**  After any history `before`, a `send_buffer(array)` context is opened.
Whatever happens while it is open (other contexts opened and left, recycled buffers,
writes to user arrays), the array it yields has the contents `array` had when the context
was opened, if `array` is not contiguous; a contiguous array is yielded itself. -/
theorem C36_send (env : BufEnv α) (usr : Nat → NDArray α)
    (hu : ∀ u, (usr u).shape = (env.spec u).shape) (before during : List (Ev α)) (u : Nat) :
    let s := run env (init env usr) before
    let i := s.ctxs.length
    (∀ e ∈ during, e.other i) →
    let t := run env (step env s (.enter (.send u))).2 during
    yielded t i = some (if env.contiguous u then t.usr u else s.usr u) := by
  intro s i hd t
  have I : Inv env s := run_inv env (init_inv env usr hu) before
  have I' := step_inv env I (.enter (.send u))
  by_cases hcg : env.contiguous u = true
  · have hstep : (step env s (.enter (.send u))).2
        = { s with ctxs := s.ctxs ++ [some ⟨.send u, none⟩] } := by
      show (enter env (.send u) s).2 = _
      unfold enter; dsimp only; rw [if_pos hcg]
    have hc : ctx? (step env s (.enter (.send u))).2 i = some ⟨.send u, none⟩ := by
      rw [hstep]
      show ((s.ctxs ++ _)[i]?).join = _
      rw [ctx?_append, if_pos rfl]
    have h := (run_other env I' hc during hd).1
    show yielded t i = _
    unfold yielded
    rw [h, if_pos hcg]
  · have hstep : (step env s (.enter (.send u))).2
        = { (acquire env (env.spec u) s).2 with
            mem := upd (acquire env (env.spec u) s).2.mem (acquire env (env.spec u) s).1
              ((acquire env (env.spec u) s).2.usr u)
            ctxs := s.ctxs ++ [some ⟨.send u, some (acquire env (env.spec u) s).1⟩] } := by
      show (enter env (.send u) s).2 = _
      unfold enter; dsimp only; rw [if_neg hcg]
    have hc : ctx? (step env s (.enter (.send u))).2 i
        = some ⟨.send u, some (acquire env (env.spec u) s).1⟩ := by
      rw [hstep]
      show ((s.ctxs ++ _)[i]?).join = _
      rw [ctx?_append, if_pos rfl]
    obtain ⟨h1, h2⟩ := run_other env I' hc during hd
    show yielded t i = _
    unfold yielded
    rw [h1, if_neg hcg]
    show some (t.mem (acquire env (env.spec u) s).1) = _
    rw [h2 _ rfl, hstep]
    show some (upd _ _ _ _) = _
    rw [(acquire_fresh env I (env.spec u)).usr]
    simp [upd]

/-- Events that leave the user array `u` alone, apart from receive contexts for other
arrays being closed. -/
def Ev.sparesUser (s : BufSt α) (u : Nat) : Ev α → Prop
  | .enter _ => True
  | .write j _ => ∀ c, ctx? s j = some c → c.kind ≠ .recv u
  | .userWrite u' _ => u' ≠ u
  | .exit j => ∀ c, ctx? s j = some c → c.kind ≠ .recv u
  | .abort _ => True

/-- **C36, receiving.**  After any history, a `recv_buffer(array)` context is opened; its body
stores the message `m` in the array it was given, with anything else happening before and
after that does not concern this context; then the context is left normally.  Afterwards
`array` contains exactly `m` if it is not contiguous, whatever the recycled buffer contained.
(If it is contiguous the message was stored in `array` directly: `C36_recv_contiguous`.)
No other user array is changed by leaving the context. -/
theorem C36_recv (env : BufEnv α) (usr : Nat → NDArray α)
    (hu : ∀ u, (usr u).shape = (env.spec u).shape) (before h1 h2 : List (Ev α)) (u : Nat)
    (m : NDArray α) (hm : m.shape = (env.spec u).shape) (hcg : env.contiguous u = false) :
    let s := run env (init env usr) before
    let i := s.ctxs.length
    (∀ e ∈ h1, e.other i) → (∀ e ∈ h2, e.other i) →
    let t := run env (step env (run env (step env s (.enter (.recv u))).2 h1) (.write i m)).2 h2
    (step env t (.exit i)).1 = .ok () ∧
    (step env t (.exit i)).2.usr u = m ∧
    (∀ v, v ≠ u → (step env t (.exit i)).2.usr v = t.usr v) ∧
    (step env t (.abort i)).2.usr = t.usr := by
  intro s i o1 o2 t
  have I : Inv env s := run_inv env (init_inv env usr hu) before
  have I1 := step_inv env I (.enter (.recv u))
  have hstep : (step env s (.enter (.recv u))).2
      = { (acquire env (env.spec u) s).2 with
          ctxs := s.ctxs ++ [some ⟨.recv u, some (acquire env (env.spec u) s).1⟩] } := by
    show (enter env (.recv u) s).2 = _
    unfold enter; dsimp only; rw [if_neg (by simp [hcg])]
  generalize ha : (acquire env (env.spec u) s).1 = a at hstep
  have hc : ctx? (step env s (.enter (.recv u))).2 i = some ⟨.recv u, some a⟩ := by
    rw [hstep]
    show ((s.ctxs ++ _)[i]?).join = _
    rw [ctx?_append, if_pos rfl]
  obtain ⟨c1, -⟩ := run_other env I1 hc h1 o1
  have I2 := run_inv env I1 h1
  have hw : (step env (run env (step env s (.enter (.recv u))).2 h1) (.write i m)).2
      = { run env (step env s (.enter (.recv u))).2 h1 with
          mem := upd (run env (step env s (.enter (.recv u))).2 h1).mem a m } := by
    generalize run env (step env s (.enter (.recv u))).2 h1 = r at c1
    unfold step
    simp only [c1]
    rw [if_neg (by simp [kindKey, fits_of hm]), NDArray.stretch_of (show m.shape = (kindKey env (CtxKind.recv u)).shape from hm)]
  have I3 := step_inv env I2 (.write i m)
  have c2 : ctx? (step env (run env (step env s (.enter (.recv u))).2 h1) (.write i m)).2 i
      = some ⟨.recv u, some a⟩ := by rw [hw]; exact c1
  obtain ⟨c3, m3⟩ := run_other env I3 c2 h2 o2
  have I4 : Inv env t := run_inv env I3 h2
  have hma : t.mem a = m := by
    show (run env _ h2).mem a = m
    rw [m3 a rfl, hw]
    simp [upd]
  have c4 : ctx? t i = some ⟨.recv u, some a⟩ := c3
  have hrel := I4.release c4 rfl (upd t.usr u (t.mem a)) (by
    intro u'
    unfold upd
    split
    · rename_i e
      rw [e, hma, hm]
    · exact I4.usr_shape u')
  have hex : step env t (.exit i)
      = release (env.spec u) a { t with ctxs := t.ctxs.set i none, usr := upd t.usr u (t.mem a) } := by
    conv_lhs => unfold step
    simp only [c4]
  refine ⟨?_, ?_, ?_, ?_⟩
  · rw [hex]; exact hrel.1
  · rw [hex]
    have h : (release (env.spec u) a
      { t with ctxs := t.ctxs.set i none, usr := upd t.usr u (t.mem a) }).2.usr = _ := hrel.2.2.2.1
    rw [h, hma]
    simp [upd]
  · intro v hv
    rw [hex]
    have h : (release (env.spec u) a
      { t with ctxs := t.ctxs.set i none, usr := upd t.usr u (t.mem a) }).2.usr = _ := hrel.2.2.2.1
    rw [h]
    simp [upd, hv]
  · unfold step
    simp only [c4]

/-- **C36, contiguous targets.**  A contiguous array is received into directly, and leaving the
context changes no array. -/
theorem C36_recv_contiguous (env : BufEnv α) (usr : Nat → NDArray α)
    (hu : ∀ u, (usr u).shape = (env.spec u).shape) (before h1 : List (Ev α)) (u : Nat)
    (m : NDArray α) (hm : m.shape = (env.spec u).shape) (hcg : env.contiguous u = true) :
    let s := run env (init env usr) before
    let i := s.ctxs.length
    (∀ e ∈ h1, e.other i) →
    let t := run env (step env s (.enter (.recv u))).2 h1
    (step env t (.write i m)).1 = .ok () ∧ (step env t (.write i m)).2.usr u = m ∧
    (step env t (.exit i)).1 = .ok () ∧ (step env t (.exit i)).2.usr = t.usr ∧
    (step env t (.exit i)).2.mem = t.mem := by
  intro s i o1 t
  have I : Inv env s := run_inv env (init_inv env usr hu) before
  have I1 := step_inv env I (.enter (.recv u))
  have hstep : (step env s (.enter (.recv u))).2
      = { s with ctxs := s.ctxs ++ [some ⟨.recv u, none⟩] } := by
    show (enter env (.recv u) s).2 = _
    unfold enter; dsimp only; rw [if_pos hcg]
  have hc : ctx? (step env s (.enter (.recv u))).2 i = some ⟨.recv u, none⟩ := by
    rw [hstep]
    show ((s.ctxs ++ _)[i]?).join = _
    rw [ctx?_append, if_pos rfl]
  have c1 : ctx? t i = some ⟨.recv u, none⟩ := (run_other env I1 hc h1 o1).1
  have hw : step env t (.write i m) = (.ok (), { t with usr := upd t.usr u m }) := by
    unfold step
    simp only [c1]
    rw [if_neg (by simp [kindKey, fits_of hm]), NDArray.stretch_of hm]
  have he : step env t (.exit i) = (.ok (), { t with ctxs := t.ctxs.set i none }) := by
    unfold step
    simp only [c1]
  rw [hw, he]
  refine ⟨rfl, ?_, rfl, rfl, rfl⟩
  simp [upd]

/-- An open receive context leaves a non-contiguous user array alone: only assignments by the
user, direct receives into it, and leaving a receive context for it change a user array. -/
theorem C36_untouched (env : BufEnv α) (s : BufSt α) (u : Nat) (e : Ev α) (h : e.sparesUser s u) :
    (step env s e).2.usr u = s.usr u := by
  have hacq : ∀ k, (acquire env k s).2.usr = s.usr := by
    intro k; unfold acquire; split <;> rfl
  cases e with
  | enter kind =>
    cases kind with
    | plain k => exact congrFun (hacq k) u
    | send v =>
      show (enter env (.send v) s).2.usr u = _
      unfold enter; dsimp only
      split
      · rfl
      · exact congrFun (hacq _) u
    | recv v =>
      show (enter env (.recv v) s).2.usr u = _
      unfold enter; dsimp only
      split
      · rfl
      · exact congrFun (hacq _) u
  | write j v =>
    unfold step; dsimp only
    split
    · rfl
    · rename_i c hc
      split
      · rfl
      · split
        · rfl
        · rfl
        · rename_i u' _ hk
          show upd _ _ _ u = _
          unfold upd
          split
          · rename_i e
            exact absurd (by rw [hk, e]) (h c hc)
          · rfl
        · rfl
  | userWrite u' v =>
    unfold step; dsimp only
    split
    · rfl
    · show upd _ _ _ u = _
      unfold upd
      rw [if_neg (fun e => h e.symm)]
  | exit j =>
    unfold step; dsimp only
    split
    · rfl
    · rename_i c hc
      have hrel : ∀ k b (s' : BufSt α), (release k b s').2.usr = s'.usr := by
        intro k b s'; unfold release; split <;> rfl
      split
      · rfl
      · split
        · rename_i u' hk
          rw [hrel]
          show upd _ _ _ u = _
          unfold upd
          split
          · rename_i e
            exact absurd (by rw [hk, e]) (h c hc)
          · rfl
        · rw [hrel]
        · rw [hrel]
  | abort j =>
    unfold step; dsimp only
    split <;> rfl

/-! ### A concrete history -/

/-- Two user arrays of shape `[2]`, number 0 not contiguous. -/
def exEnv : BufEnv Int :=
  { spec := fun _ => ⟨0, [2], 0⟩, contiguous := fun u => u = 1
    fresh := fun k n => ⟨k.shape, fun _ => -(n : Int) - 1⟩, fresh_shape := fun _ _ => rfl }

/-- A buffer is used and returned, reused for a receive while a second one is in use; stale
contents do not show. -/
def exHist : List (Ev Int) :=
  [.enter (.plain ⟨0, [2], 0⟩), .write 0 ⟨[2], fun _ => 7⟩, .exit 0, .enter (.recv 0),
   .enter (.send 0), .write 1 ⟨[2], fun i => i.getD 0 0⟩, .exit 1]

example :
    let s := run exEnv (init exEnv fun _ => ⟨[2], fun _ => 5⟩) exHist
    (s.usr 0).get [0] = 0 ∧ (s.usr 0).get [1] = 1 ∧ s.next = 2 ∧
    (yielded s 2).map (·.get [0]) = some 5 ∧ s.cache = [(⟨0, [2], 0⟩, [0])] := by decide +kernel

/-- **C36, limit.**  If the body of a receive context stores nothing, leaving it overwrites a
non-contiguous array with whatever the buffer contained before. -/
theorem C36_recv_stale :
    let s := run exEnv (init exEnv fun _ => ⟨[2], fun _ => 5⟩)
      [.enter (.plain ⟨0, [2], 0⟩), .write 0 ⟨[2], fun _ => 7⟩, .exit 0, .enter (.recv 0), .exit 1]
    (s.usr 0).get [0] = 7 := by decide +kernel

end Buf
end FV3
