import Verif.Spec.LateSend
import Verif.Spec.Net
import Verif.Props.Net
import Verif.Props.Rotate
import Verif.Proofs.Deliver
import Verif.Proofs.Settle

/-!
# Reading messages late makes no difference, as long as what is sent is not changed
-/

namespace FV3.Late
open FV3
variable {σ α R S A B : Type}

/-! ### Reading at once -/

/-- The program that sends what the views contain when `Isend` is called. -/
def eager [Memory σ α] (fin : R → σ → S) : LProc σ α R → σ → Proc (Msg α) S
  | .ret x, m => .ret (fin x m)
  | .get k, m => eager fin (k m) m
  | .put f k, m => eager fin (k ()) (f m)
  | .isend d t rd k, m => .isend d t (.data (rd m)) fun i => eager fin (k i) m
  | .recv s t q ix k, m => .recv s t fun x =>
    match x with
    | .data a =>
      match Memory.store m q ix a with
      | .ok m' => eager fin (k (.ok ())) m'
      | .error e => eager fin (k (.error e)) m
    | _ => eager fin (k (.error .typeError)) m
  | .await d t i k, m => .await d t i fun u => eager fin (k u) m

/-! ### What must not change -/

/-- A send that may not be complete: the view that is sent, and its content when sent. -/
structure Pend (σ α : Type) where
  dst : Int
  tag : Tag
  idx : Nat
  read : σ → NDArray α
  a : NDArray α

/-- The views contain what they contained when they were sent. -/
def Kept (P : List (Pend σ α)) (m : σ) : Prop := ∀ p ∈ P, (p.read m).Eqv p.a

/-- The list without the sends to `d` with tag `t` and number `i`. -/
def dropPend (P : List (Pend σ α)) (d : Int) (t : Tag) (i : Nat) : List (Pend σ α) :=
  P.filter fun p => ¬ (p.dst = d ∧ p.tag = t ∧ p.idx = i)

/-- Whatever is received, the program does not change what it is sending; it ends with `Q`. -/
def SafeP [Memory σ α] : LProc σ α R → σ → List (Pend σ α) → (R → σ → List (Pend σ α) → Prop) → Prop
  | .ret x, m, P, Q => Q x m P
  | .get k, m, P, Q => SafeP (k m) m P Q
  | .put f k, m, P, Q => Kept P (f m) ∧ SafeP (k ()) (f m) P Q
  | .isend d t rd k, m, P, Q => ∀ i, SafeP (k i) m (⟨d, t, i, rd, rd m⟩ :: P) Q
  | .recv _ _ q ix k, m, P, Q => ∀ a : NDArray α,
    (∀ m', Memory.store m q ix a = .ok m' → Kept P m' ∧ SafeP (k (.ok ())) m' P Q) ∧
    (∀ e, Memory.store m q ix a = .error e → SafeP (k (.error e)) m P Q)
  | .await d t i k, m, P, Q => SafeP (k ()) m (dropPend P d t i) Q

theorem SafeP.mono [Memory σ α] {p : LProc σ α R} {m : σ} {P : List (Pend σ α)}
    {Q Q' : R → σ → List (Pend σ α) → Prop} (h : SafeP p m P Q) (hq : ∀ x m P, Q x m P → Q' x m P) :
    SafeP p m P Q' := by
  induction p generalizing m P with
  | ret x => exact hq _ _ _ h
  | get k ih => exact ih m h
  | put f k ih => exact ⟨h.1, ih () h.2⟩
  | isend d t rd k ih => exact fun i => ih i (h i)
  | recv s t q ix k ih =>
    exact fun a => ⟨fun m' hm => ⟨((h a).1 m' hm).1, ih _ ((h a).1 m' hm).2⟩, fun e he => ih _ ((h a).2 e he)⟩
  | await d t i k ih => exact ih () h

theorem SafeP.bind [Memory σ α] {p : LProc σ α R} {f : R → LProc σ α S} {m : σ} {P : List (Pend σ α)}
    {Q : R → σ → List (Pend σ α) → Prop} {Q' : S → σ → List (Pend σ α) → Prop} (h : SafeP p m P Q)
    (hf : ∀ x m P, Q x m P → SafeP (f x) m P Q') : SafeP (p.bind f) m P Q' := by
  induction p generalizing m P with
  | ret x => exact hf _ _ _ h
  | get k ih => exact ih m h
  | put f k ih => exact ⟨h.1, ih () h.2⟩
  | isend d t rd k ih => exact fun i => ih i (h i)
  | recv s t q ix k ih =>
    exact fun a => ⟨fun m' hm => ⟨((h a).1 m' hm).1, ih _ ((h a).1 m' hm).2⟩, fun e he => ih _ ((h a).2 e he)⟩
  | await d t i k ih => exact ih () h

/-! ### Storing equal arrays -/

theorem unview_inB {rs : List RIx} {idx rel : List Nat} (h : unview rs idx = some rel) :
    InB (viewShape rs) rel := by
  induction rs generalizing idx rel with
  | nil =>
    cases idx with
    | nil => simp only [unview, Option.some.injEq] at h; subst h; trivial
    | cons _ _ => simp [unview] at h
  | cons a rs ih =>
    cases idx with
    | nil => cases a <;> simp [unview] at h
    | cons k idx =>
      cases a with
      | int i =>
        simp only [unview] at h
        split at h
        · exact ih h
        · simp at h
      | slice a st c =>
        simp only [unview] at h
        split at h
        next hc =>
          rw [Option.map_eq_some_iff] at h
          obtain ⟨rel', h1, rfl⟩ := h
          refine ⟨?_, ih h1⟩
          omega
        · simp at h

theorem storeInto_eqv {m : Mem α} {q : Nat} {ix : List Ix} {a b : NDArray α} (h : a.Eqv b) :
    storeInto m q ix a = storeInto m q ix b := by
  unfold storeInto NDArray.fillItem
  cases hr : resolveAll ix (m q).data.shape with
  | error e => rfl
  | ok rs =>
    simp only [Bind.bind, Except.bind, h.1]
    by_cases hs : viewShape rs = b.shape
    · simp only [if_pos hs]
      have : (m q).data.assign rs a = (m q).data.assign rs b := by
        unfold NDArray.assign
        congr 1
        funext idx
        cases hu : unview rs idx with
        | none => rfl
        | some rel => exact h.2 rel (by rw [h.1, ← hs]; exact unview_inB hu)
      rw [this]
    · simp only [if_neg hs]

/-- Elements outside of a message do not matter. -/
class SoundMemory (σ α : Type) [Memory σ α] : Prop where
  store_eqv : ∀ {m : σ} {q : Nat} {ix : List Ix} {a b : NDArray α}, a.Eqv b → Memory.store m q ix a = Memory.store m q ix b

instance : SoundMemory (Mem α) α := ⟨storeInto_eqv⟩

variable [Memory σ α]

/-! ### The simulation -/

/-- The state `L`, in which messages are read late, corresponds to the state `N`, in which they
were read at once; `P` are the sends which may not be complete. -/
structure Sim (fin : R → σ → S) (L : LNet σ α R) (N : Net (Msg α) S) (P : Int → List (Pend σ α)) :
    Prop where
  procs : ∀ r, N.procs r = eager fin (L.procs r) (L.mem r)
  rcvd : N.rcvd = L.rcvd
  len : ∀ s d t, (N.sent s d t).length = (L.sent s d t).length
  rcvdLe : ∀ s d t, L.rcvd s d t ≤ (L.sent s d t).length
  msgs : ∀ (s d : Int) (t : Tag) (i : Nat) (e : Entry σ α), (L.sent s d t)[i]? = some e →
    ∃ a : NDArray α, (N.sent s d t)[i]? = some (Msg.data a) ∧
    e.shape = a.shape ∧ ∀ idx, InB a.shape idx → ∀ v, e.got idx = some v → v = a.get idx
  pend : ∀ (s d : Int) (t : Tag) (i : Nat) (e : Entry σ α), (L.sent s d t)[i]? = some e → ¬ e.Complete →
    ∃ p ∈ P s, p.dst = d ∧ p.tag = t ∧ p.idx = i ∧ p.read = e.read ∧
      (N.sent s d t)[i]? = some (.data p.a)
  done : ∀ (s d : Int) (t : Tag) (i : Nat) (e : Entry σ α), i < L.rcvd s d t → (L.sent s d t)[i]? = some e → e.Complete
  kept : ∀ r, Kept (P r) (L.mem r)
  safe : ∀ r, SafeP (L.procs r) (L.mem r) (P r) fun _ _ _ => True

theorem updCh_app {A : Type} (f : Int → Int → Tag → A) (s d : Int) (t : Tag) (v : A) (s' d' : Int) (t' : Tag) :
    (s' = s ∧ d' = d ∧ t' = t ∧ updCh f s d t v s' d' t' = v) ∨
    (¬ (s' = s ∧ d' = d ∧ t' = t) ∧ updCh f s d t v s' d' t' = f s' d' t') := by
  unfold updCh
  by_cases h : s' = s ∧ d' = d ∧ t' = t
  · left; exact ⟨h.1, h.2.1, h.2.2, if_pos h⟩
  · right; exact ⟨h, if_neg h⟩

theorem updRank_app {A : Type} (f : Int → A) (r : Int) (v : A) (r' : Int) :
    (r' = r ∧ updRank f r v r' = v) ∨ (r' ≠ r ∧ updRank f r v r' = f r') := by
  unfold updRank
  by_cases h : r' = r
  · left; exact ⟨h, if_pos h⟩
  · right; exact ⟨h, if_neg h⟩

theorem updRank_self {A : Type} (f : Int → A) (r : Int) (v : A) (h : f r = v) : updRank f r v = f := by
  funext r'
  rcases updRank_app f r v r' with ⟨rfl, e⟩ | ⟨-, e⟩
  · rw [e, h]
  · exact e

theorem step_isend {M : Type} {buf : Buffering} {N : Net M S} {r d : Int} {t : Tag} {m : M} {k : Nat → Proc M S}
    (h : N.procs r = .isend d t m k) : N.step buf r = some
      { procs := updRank N.procs r (k (N.sent r d t).length)
        sent := updCh N.sent r d t (N.sent r d t ++ [m])
        rcvd := N.rcvd } := by
  unfold Net.step; rw [h]

theorem step_recv {M : Type} {buf : Buffering} {N : Net M S} {r s : Int} {t : Tag} {m : M} {k : M → Proc M S}
    (h : N.procs r = .recv s t k) (hm : (N.sent s r t)[N.rcvd s r t]? = some m) : N.step buf r = some
      { procs := updRank N.procs r (k m)
        sent := N.sent
        rcvd := updCh N.rcvd s r t (N.rcvd s r t + 1) } := by
  unfold Net.step; rw [h]; simp only [hm]

theorem step_await {M : Type} {buf : Buffering} {N : Net M S} {r d : Int} {t : Tag} {i : Nat} {k : Unit → Proc M S}
    (h : N.procs r = .await d t i k) (hc : buf r d t i = true ∨ i < N.rcvd r d t) : N.step buf r = some
      { procs := updRank N.procs r (k ()), sent := N.sent, rcvd := N.rcvd } := by
  unfold Net.step; rw [h]; simp only [if_pos hc]

/-- The number of steps of a program before it communicates. -/
def silent : LProc σ α R → σ → Nat
  | .get k, m => silent (k m) m + 1
  | .put f k, m => silent (k ()) (f m) + 1
  | _, _ => 0

/-- A rank goes on without communicating. -/
def Quiet (L L' : LNet σ α R) : Prop :=
  ∃ r, silent (L'.procs r) (L'.mem r) + 1 = silent (L.procs r) (L.mem r) ∧
    (∀ r', r' ≠ r → L'.procs r' = L.procs r' ∧ L'.mem r' = L.mem r') ∧ L'.sent = L.sent

/-- The network reads an element. -/
def Reads (L L' : LNet σ α R) : Prop :=
  L'.procs = L.procs ∧ L'.mem = L.mem ∧ ∃ s d t i e idx v, (L.sent s d t)[i]? = some e ∧ InB e.shape idx ∧
    e.got idx = none ∧ L'.sent = updCh L.sent s d t ((L.sent s d t).set i
      { e with got := fun j => if j = idx then some v else e.got j })

/-- Every step of the late network is a step of the early one, or none. -/
theorem Sim.step [SoundMemory σ α] {fin : R → σ → S} {buf : Buffering} {L L' : LNet σ α R} {N : Net (Msg α) S}
    {P : Int → List (Pend σ α)} (h : Sim fin L N P) (hs : Step buf L L') :
    ∃ N' P', (N' = N ∧ (Quiet L L' ∨ Reads L L') ∨
      (∃ r, N.step buf r = some N' ∧ ∀ r', r' ≠ r → L'.procs r' = L.procs r')) ∧ Sim fin L' N' P' := by
  cases hs with
  | @get r k hp =>
    have hsf := h.safe r
    have hpr := h.procs r
    rw [hp] at hsf hpr
    refine ⟨N, P, Or.inl ⟨rfl, Or.inl ⟨r, by simp only [updRank_same, hp, silent],
      fun r' hn => ⟨updRank_ne _ _ hn, rfl⟩, rfl⟩⟩, ?_, h.rcvd, h.len, h.rcvdLe, h.msgs, h.pend, h.done, h.kept, ?_⟩
    · intro r'
      rcases updRank_app L.procs r (k (L.mem r)) r' with ⟨rfl, e⟩ | ⟨-, e⟩
      · simp only [e]; exact hpr
      · simp only [e]; exact h.procs r'
    · intro r'
      rcases updRank_app L.procs r (k (L.mem r)) r' with ⟨rfl, e⟩ | ⟨-, e⟩
      · simp only [e]; exact hsf
      · simp only [e]; exact h.safe r'
  | @put r f k hp =>
    have hsf := h.safe r
    have hpr := h.procs r
    rw [hp] at hsf hpr
    refine ⟨N, P, Or.inl ⟨rfl, Or.inl ⟨r, by simp only [updRank_same, hp, silent],
      fun r' hn => ⟨updRank_ne _ _ hn, updRank_ne _ _ hn⟩, rfl⟩⟩, ?_, h.rcvd, h.len, h.rcvdLe, h.msgs, h.pend,
      h.done, ?_, ?_⟩
    · intro r'
      rcases updRank_app L.procs r (k ()) r' with ⟨rfl, e⟩ | ⟨hn, e⟩
      · simp only [e, updRank_same]; exact hpr
      · simp only [e, updRank_ne _ _ hn]; exact h.procs r'
    · intro r'
      rcases updRank_app L.mem r (f (L.mem r)) r' with ⟨rfl, e⟩ | ⟨-, e⟩
      · simp only [e]; exact hsf.1
      · simp only [e]; exact h.kept r'
    · intro r'
      rcases updRank_app L.procs r (k ()) r' with ⟨rfl, e⟩ | ⟨hn, e⟩
      · simp only [e, updRank_same]; exact hsf.2
      · simp only [e, updRank_ne _ _ hn]; exact h.safe r'
  | @isend r d t rd k hp =>
    have hsf := h.safe r
    have hpr := h.procs r
    rw [hp] at hsf hpr
    simp only [eager] at hpr
    have hlen := h.len r d t
    refine ⟨_, updRank P r (⟨d, t, (L.sent r d t).length, rd, rd (L.mem r)⟩ :: P r),
      Or.inr ⟨r, step_isend hpr, fun r' hn => updRank_ne _ _ hn⟩, ?_, h.rcvd, ?_, ?_, ?_, ?_, ?_, ?_, ?_⟩
    · intro r'
      rw [hlen]
      rcases updRank_app L.procs r (k (L.sent r d t).length) r' with ⟨rfl, e⟩ | ⟨hn, e⟩
      · simp only [e, updRank_same]
      · simp only [e, updRank_ne _ _ hn]; exact h.procs r'
    · intro s' d' t'
      rcases updCh_app L.sent r d t (L.sent r d t ++ [⟨rd, (rd (L.mem r)).shape, fun _ => none⟩]) s' d' t'
        with ⟨rfl, rfl, rfl, e⟩ | ⟨hn, e⟩
      · simp only [e, updCh_same, List.length_append, hlen, List.length_singleton]
      · simp only [e]
        rw [show updCh N.sent r d t _ s' d' t' = N.sent s' d' t' from if_neg hn]
        exact h.len s' d' t'
    · intro s' d' t'
      have := h.rcvdLe s' d' t'
      rcases updCh_app L.sent r d t (L.sent r d t ++ [⟨rd, (rd (L.mem r)).shape, fun _ => none⟩]) s' d' t'
        with ⟨rfl, rfl, rfl, e⟩ | ⟨hn, e⟩
      · simp only [e, List.length_append, List.length_singleton]; omega
      · simp only [e]; exact this
    · intro s' d' t' i e he
      rcases updCh_app L.sent r d t (L.sent r d t ++ [⟨rd, (rd (L.mem r)).shape, fun _ => none⟩]) s' d' t'
        with ⟨rfl, rfl, rfl, e'⟩ | ⟨hn, e'⟩
      · simp only [e'] at he
        simp only [updCh_same]
        by_cases hi : i < (L.sent s' d' t').length
        · rw [List.getElem?_append_left hi] at he
          rw [List.getElem?_append_left (by rw [hlen]; exact hi)]
          exact h.msgs _ _ _ _ _ he
        · rw [List.getElem?_append_right (by omega)] at he
          rw [List.getElem?_append_right (by omega), hlen]
          have h0 : i - (L.sent s' d' t').length = 0 := by
            by_contra hne
            rw [List.getElem?_eq_none (by simp; omega)] at he
            simp at he
          rw [h0] at he ⊢
          simp only [List.getElem?_cons_zero, Option.some.injEq] at he
          subst he
          exact ⟨_, rfl, rfl, fun idx _ v hv => by simp at hv⟩
      · simp only [e'] at he
        dsimp only
        rw [show updCh N.sent r d t _ s' d' t' = N.sent s' d' t' from if_neg hn]
        exact h.msgs _ _ _ _ _ he
    · intro s' d' t' i e he hc
      rcases updCh_app L.sent r d t (L.sent r d t ++ [⟨rd, (rd (L.mem r)).shape, fun _ => none⟩]) s' d' t'
        with ⟨rfl, rfl, rfl, e'⟩ | ⟨hn, e'⟩
      · simp only [e'] at he
        simp only [updCh_same, updRank_same]
        by_cases hi : i < (L.sent s' d' t').length
        · rw [List.getElem?_append_left hi] at he
          rw [List.getElem?_append_left (by rw [hlen]; exact hi)]
          obtain ⟨p, hp, hh⟩ := h.pend _ _ _ _ _ he hc
          exact ⟨p, List.mem_cons_of_mem _ hp, hh⟩
        · rw [List.getElem?_append_right (by omega)] at he
          rw [List.getElem?_append_right (by omega), hlen]
          have h0 : i - (L.sent s' d' t').length = 0 := by
            by_contra hne
            rw [List.getElem?_eq_none (by simp; omega)] at he
            simp at he
          rw [h0] at he ⊢
          simp only [List.getElem?_cons_zero, Option.some.injEq] at he
          subst he
          exact ⟨_, List.mem_cons_self, rfl, rfl, by simp only; omega, rfl, rfl⟩
      · simp only [e'] at he
        dsimp only
        rw [show updCh N.sent r d t _ s' d' t' = N.sent s' d' t' from if_neg hn]
        obtain ⟨p, hpm, hh⟩ := h.pend _ _ _ _ _ he hc
        refine ⟨p, ?_, hh⟩
        rcases updRank_app P r (⟨d, t, (L.sent r d t).length, rd, rd (L.mem r)⟩ :: P r) s' with ⟨rfl, e2⟩ | ⟨-, e2⟩
        · rw [e2]; exact List.mem_cons_of_mem _ hpm
        · rw [e2]; exact hpm
    · intro s' d' t' i e hi he
      rcases updCh_app L.sent r d t (L.sent r d t ++ [⟨rd, (rd (L.mem r)).shape, fun _ => none⟩]) s' d' t'
        with ⟨rfl, rfl, rfl, e'⟩ | ⟨hn, e'⟩
      · simp only [e'] at he
        by_cases hi' : i < (L.sent s' d' t').length
        · rw [List.getElem?_append_left hi'] at he
          exact h.done _ _ _ _ _ hi he
        · exfalso
          have := h.rcvdLe s' d' t'
          simp only at hi
          omega
      · simp only [e'] at he
        exact h.done _ _ _ _ _ hi he
    · intro r'
      rcases updRank_app P r (⟨d, t, (L.sent r d t).length, rd, rd (L.mem r)⟩ :: P r) r' with ⟨rfl, e2⟩ | ⟨-, e2⟩
      · rw [e2]
        intro p hp
        rcases List.mem_cons.1 hp with rfl | hp
        · exact NDArray.Eqv.refl _
        · exact h.kept _ p hp
      · rw [e2]; exact h.kept r'
    · intro r'
      rcases updRank_app P r (⟨d, t, (L.sent r d t).length, rd, rd (L.mem r)⟩ :: P r) r' with ⟨rfl, e2⟩ | ⟨hn, e2⟩
      · rw [e2]; simp only [updRank_same]; exact hsf _
      · rw [e2]; simp only [updRank_ne _ _ hn]; exact h.safe r'
  | @read s d t i e idx he hi hn =>
    have hnc : ¬ e.Complete := fun hc => by
      have := hc idx hi
      rw [hn] at this
      simp at this
    obtain ⟨p, hp, p1, p2, p3, p4, p5⟩ := h.pend _ _ _ _ _ he hnc
    obtain ⟨a, a1, a2, a3⟩ := h.msgs _ _ _ _ _ he
    have hpa : p.a = a := by
      rw [p5] at a1
      simpa using a1
    have hk := h.kept s p hp
    rw [p4, hpa] at hk
    set e' : Entry σ α := { e with got := fun j => if j = idx then some ((e.read (L.mem s)).get idx) else e.got j }
      with he'
    have hil : i < (L.sent s d t).length := (List.getElem?_eq_some_iff.1 he).1
    have hset : ∀ j e2, ((L.sent s d t).set i e')[j]? = some e2 →
        (j = i ∧ e2 = e') ∨ (j ≠ i ∧ (L.sent s d t)[j]? = some e2) := by
      intro j e2 h2
      by_cases hj : j = i
      · subst hj
        rw [List.getElem?_set_self hil] at h2
        exact Or.inl ⟨rfl, by simpa using h2.symm⟩
      · rw [List.getElem?_set_ne (Ne.symm hj)] at h2
        exact Or.inr ⟨hj, h2⟩
    have hcomp : e.Complete → e'.Complete := fun hc j hj => by
      have := hc j hj
      simp only [he']
      split <;> simp_all
    refine ⟨N, P, Or.inl ⟨rfl, Or.inr ⟨rfl, rfl, s, d, t, i, e, idx, _, he, hi, hn, rfl⟩⟩, h.procs, h.rcvd, ?_, ?_, ?_, ?_, ?_, h.kept, h.safe⟩
    · intro s' d' t'
      rcases updCh_app L.sent s d t ((L.sent s d t).set i e') s' d' t' with ⟨rfl, rfl, rfl, e2⟩ | ⟨-, e2⟩
      · simp only [e2, List.length_set]; exact h.len _ _ _
      · simp only [e2]; exact h.len _ _ _
    · intro s' d' t'
      rcases updCh_app L.sent s d t ((L.sent s d t).set i e') s' d' t' with ⟨rfl, rfl, rfl, e2⟩ | ⟨-, e2⟩
      · simp only [e2, List.length_set]; exact h.rcvdLe _ _ _
      · simp only [e2]; exact h.rcvdLe _ _ _
    · intro s' d' t' j e2 h2
      rcases updCh_app L.sent s d t ((L.sent s d t).set i e') s' d' t' with ⟨rfl, rfl, rfl, e3⟩ | ⟨-, e3⟩
      · simp only [e3] at h2
        rcases hset j e2 h2 with ⟨rfl, rfl⟩ | ⟨-, h2⟩
        · refine ⟨a, a1, a2, fun idx' hi' v hv => ?_⟩
          simp only [he'] at hv
          split at hv
          next hid =>
            subst hid
            simp only [Option.some.injEq] at hv
            rw [← hv]
            exact hk.2 _ (by rw [hk.1]; exact hi')
          · exact a3 idx' hi' v hv
        · exact h.msgs _ _ _ _ _ h2
      · simp only [e3] at h2
        exact h.msgs _ _ _ _ _ h2
    · intro s' d' t' j e2 h2 hc
      rcases updCh_app L.sent s d t ((L.sent s d t).set i e') s' d' t' with ⟨rfl, rfl, rfl, e3⟩ | ⟨-, e3⟩
      · simp only [e3] at h2
        rcases hset j e2 h2 with ⟨rfl, rfl⟩ | ⟨-, h2⟩
        · exact ⟨p, hp, p1, p2, p3, p4, p5⟩
        · exact h.pend _ _ _ _ _ h2 hc
      · simp only [e3] at h2
        exact h.pend _ _ _ _ _ h2 hc
    · intro s' d' t' j e2 hj h2
      rcases updCh_app L.sent s d t ((L.sent s d t).set i e') s' d' t' with ⟨rfl, rfl, rfl, e3⟩ | ⟨-, e3⟩
      · simp only [e3] at h2
        rcases hset j e2 h2 with ⟨rfl, rfl⟩ | ⟨-, h2⟩
        · exact hcomp (h.done _ _ _ _ _ hj he)
        · exact h.done _ _ _ _ _ hj h2
      · simp only [e3] at h2
        exact h.done _ _ _ _ _ hj h2
  | @recv r s t q ix k e a hp he hsh ha =>
    have hsf := h.safe r
    have hpr := h.procs r
    rw [hp] at hsf hpr
    simp only [eager] at hpr
    obtain ⟨a0, b1, b2, b3⟩ := h.msgs _ _ _ _ _ he
    have hec : e.Complete := fun idx hi => by rw [ha idx hi]; rfl
    have hEqv : a.Eqv a0 := by
      refine ⟨by rw [hsh, b2], fun idx hi => ?_⟩
      have hi' : InB e.shape idx := by rw [← hsh]; exact hi
      exact b3 idx (by rw [← b2]; exact hi') _ (ha idx hi')
    have hst := SoundMemory.store_eqv (m := L.mem r) (q := q) (ix := ix) hEqv
    have hlt : L.rcvd s r t < (L.sent s r t).length := (List.getElem?_eq_some_iff.1 he).1
    have b1' : (N.sent s r t)[N.rcvd s r t]? = some (.data a0) := by rw [h.rcvd]; exact b1
    have hrle : ∀ s' d' t', updCh L.rcvd s r t (L.rcvd s r t + 1) s' d' t' ≤ (L.sent s' d' t').length := by
      intro s' d' t'
      rcases updCh_app L.rcvd s r t (L.rcvd s r t + 1) s' d' t' with ⟨rfl, rfl, rfl, e2⟩ | ⟨-, e2⟩
      · rw [e2]; omega
      · rw [e2]; exact h.rcvdLe _ _ _
    have hdone : ∀ (s' d' : Int) (t' : Tag) (j : Nat) (e2 : Entry σ α),
        j < updCh L.rcvd s r t (L.rcvd s r t + 1) s' d' t' → (L.sent s' d' t')[j]? = some e2 → e2.Complete := by
      intro s' d' t' j e2 hj h2
      rcases updCh_app L.rcvd s r t (L.rcvd s r t + 1) s' d' t' with ⟨rfl, rfl, rfl, e3⟩ | ⟨-, e3⟩
      · rw [e3] at hj
        by_cases hj' : j < L.rcvd s' d' t'
        · exact h.done _ _ _ _ _ hj' h2
        · have : j = L.rcvd s' d' t' := by omega
          subst this
          rw [he] at h2
          simp only [Option.some.injEq] at h2
          subst h2
          exact hec
      · rw [e3] at hj
        exact h.done _ _ _ _ _ hj h2
    cases hstr : Memory.store (L.mem r) q ix a with
    | ok m =>
      obtain ⟨k1, k2⟩ := (hsf a).1 m hstr
      rw [hstr] at hst
      refine ⟨_, P, Or.inr ⟨r, step_recv hpr b1', fun r' hn => updRank_ne _ _ hn⟩,
        ?_, ?_, h.len, hrle, h.msgs, h.pend, hdone, ?_, ?_⟩
      · intro r'
        rcases updRank_app L.procs r (k (.ok ())) r' with ⟨rfl, e2⟩ | ⟨hn, e2⟩
        · simp only [e2, updRank_same, ← hst]
        · simp only [e2, updRank_ne _ _ hn]; exact h.procs r'
      · simp only [h.rcvd]
      · intro r'
        rcases updRank_app L.mem r m r' with ⟨rfl, e2⟩ | ⟨-, e2⟩
        · simp only [e2]; exact k1
        · simp only [e2]; exact h.kept r'
      · intro r'
        rcases updRank_app L.procs r (k (.ok ())) r' with ⟨rfl, e2⟩ | ⟨hn, e2⟩
        · simp only [e2, updRank_same]; exact k2
        · simp only [e2, updRank_ne _ _ hn]; exact h.safe r'
    | error x =>
      have k2 := (hsf a).2 x hstr
      rw [hstr] at hst
      refine ⟨_, P, Or.inr ⟨r, step_recv hpr b1', fun r' hn => updRank_ne _ _ hn⟩,
        ?_, ?_, h.len, hrle, h.msgs, h.pend, hdone, h.kept, ?_⟩
      · intro r'
        rcases updRank_app L.procs r (k (.error x)) r' with ⟨rfl, e2⟩ | ⟨hn, e2⟩
        · simp only [e2, updRank_same, ← hst]
        · simp only [e2, updRank_ne _ _ hn]; exact h.procs r'
      · simp only [h.rcvd]
      · intro r'
        rcases updRank_app L.procs r (k (.error x)) r' with ⟨rfl, e2⟩ | ⟨hn, e2⟩
        · simp only [e2]; exact k2
        · simp only [e2]; exact h.safe r'
  | @await r d t i k hp hd =>
    have hsf := h.safe r
    have hpr := h.procs r
    rw [hp] at hsf hpr
    simp only [eager] at hpr
    have hcond : buf r d t i = true ∨ i < N.rcvd r d t := by
      rw [h.rcvd]; rcases hd with hd | hd
      · exact Or.inr hd
      · exact Or.inl hd.1
    have hcomp : ∀ e, (L.sent r d t)[i]? = some e → e.Complete := fun e he => by
      rcases hd with hd | hd
      · exact h.done _ _ _ _ _ hd he
      · exact hd.2 e he
    refine ⟨_, updRank P r (dropPend (P r) d t i), Or.inr ⟨r, step_await hpr hcond, fun r' hn => updRank_ne _ _ hn⟩,
      ?_, h.rcvd, h.len, h.rcvdLe, h.msgs, ?_, h.done, ?_, ?_⟩
    · intro r'
      rcases updRank_app L.procs r (k ()) r' with ⟨rfl, e⟩ | ⟨hn, e⟩
      · simp only [e, updRank_same]
      · simp only [e, updRank_ne _ _ hn]; exact h.procs r'
    · intro s' d' t' j e he hc
      obtain ⟨p, hp', p1, p2, p3, p4⟩ := h.pend _ _ _ _ _ he hc
      refine ⟨p, ?_, p1, p2, p3, p4⟩
      rcases updRank_app P r (dropPend (P r) d t i) s' with ⟨rfl, e2⟩ | ⟨-, e2⟩
      · rw [e2]
        refine List.mem_filter.2 ⟨hp', ?_⟩
        simp only [decide_eq_true_eq]
        rintro ⟨q1, q2, q3⟩
        rw [← p1, ← p2, ← p3, q1, q2, q3] at he
        exact hc (hcomp e he)
      · rw [e2]; exact hp'
    · intro r'
      rcases updRank_app P r (dropPend (P r) d t i) r' with ⟨rfl, e2⟩ | ⟨-, e2⟩
      · rw [e2]; exact fun p hp => h.kept _ p (List.mem_filter.1 hp).1
      · rw [e2]; exact h.kept r'
    · intro r'
      rcases updRank_app P r (dropPend (P r) d t i) r' with ⟨rfl, e2⟩ | ⟨hn, e2⟩
      · rw [e2]; simp only [updRank_same]; exact hsf
      · rw [e2]; simp only [updRank_ne _ _ hn]; exact h.safe r'

/-- If the late network cannot go on, neither can the early one. -/
theorem Sim.stuck [SoundMemory σ α] {fin : R → σ → S} {buf : Buffering} {L : LNet σ α R} {N : Net (Msg α) S}
    {P : Int → List (Pend σ α)} (h : Sim fin L N P) (hs : ¬ ∃ L', Step buf L L') (r : Int) :
    N.step buf r = none ∧ ((∃ x, N.procs r = .ret x) → ∃ x, L.procs r = .ret x) := by
  have hfull : ∀ (s d : Int) (t : Tag) (i : Nat) (e : Entry σ α), (L.sent s d t)[i]? = some e → e.Complete := by
    intro s d t i e he idx hi
    cases hg : e.got idx with
    | some v => rfl
    | none => exact absurd ⟨_, Step.read he hi hg⟩ hs
  have hpr := h.procs r
  cases hp : L.procs r with
  | ret x =>
    rw [hp] at hpr
    refine ⟨by unfold Net.step; rw [hpr]; rfl, fun _ => ⟨x, rfl⟩⟩
  | get k => exact absurd ⟨_, Step.get hp⟩ hs
  | put f k => exact absurd ⟨_, Step.put hp⟩ hs
  | isend d t rd k => exact absurd ⟨_, Step.isend hp⟩ hs
  | recv s t q ix k =>
    rw [hp] at hpr
    simp only [eager] at hpr
    refine ⟨?_, fun ⟨x, hx⟩ => by rw [hpr] at hx; simp at hx⟩
    unfold Net.step
    rw [hpr]
    cases hm : (N.sent s r t)[N.rcvd s r t]? with
    | none => simp only [hm]
    | some m =>
      exfalso
      have hlt := (List.getElem?_eq_some_iff.1 hm).1
      rw [h.len, h.rcvd] at hlt
      have he := List.getElem?_eq_getElem hlt
      set e := (L.sent s r t)[L.rcvd s r t] with hedef
      have hc := hfull _ _ _ _ _ he
      obtain ⟨a, a1, a2, a3⟩ := h.msgs _ _ _ _ _ he
      refine hs ⟨_, Step.recv (a := a) hp he a2.symm fun idx hi => ?_⟩
      have := hc idx hi
      cases hg : e.got idx with
      | none => rw [hg] at this; simp at this
      | some v => rw [a3 idx (by rw [← a2]; exact hi) v hg]
  | await d t i k =>
    rw [hp] at hpr
    simp only [eager] at hpr
    refine ⟨?_, fun ⟨x, hx⟩ => by rw [hpr] at hx; simp at hx⟩
    unfold Net.step
    rw [hpr]
    by_cases hc : buf r d t i = true ∨ i < N.rcvd r d t
    · exfalso
      refine hs ⟨_, Step.await hp ?_⟩
      rw [h.rcvd] at hc
      rcases hc with hc | hc
      · exact Or.inr ⟨hc, fun e he => hfull _ _ _ _ _ he⟩
      · exact Or.inl hc
    · simp only [if_neg hc]

/-! ### Executions end -/

/-- `N` completes with `n` more steps. -/
def CompletesIn {M : Type} (buf : Buffering) (N : Net M S) (res : Int → S) (n : Nat) : Prop :=
  ∃ T : Net M S, (∀ r, T.procs r = .ret (res r)) ∧ ∀ sched A, N.run buf sched = some A →
    ∃ sched', A.run buf sched' = some T ∧ sched.length + sched'.length = n

theorem CompletesIn.step {M : Type} {buf : Buffering} {N N' : Net M S} {res : Int → S} {n : Nat} {r : Int}
    (h : CompletesIn buf N res n) (hs : N.step buf r = some N') :
    ∃ n', n' < n ∧ CompletesIn buf N' res n' := by
  obtain ⟨T, h1, h2⟩ := h
  have hr : ∀ sched A, N'.run buf sched = some A → N.run buf (r :: sched) = some A := fun sched A h => by
    simp only [Net.run, hs, Option.bind_some]; exact h
  obtain ⟨s', -, e⟩ := h2 [r] N' (hr [] N' rfl)
  refine ⟨n - 1, by simp at e; omega, T, h1, fun sched A hA => ?_⟩
  obtain ⟨s2, e1, e2⟩ := h2 _ A (hr sched A hA)
  exact ⟨s2, e1, by simp at e2; omega⟩

theorem CompletesIn.stuck {M : Type} {buf : Buffering} {N : Net M S} {res : Int → S} {n : Nat}
    (h : CompletesIn buf N res n) (hs : ∀ r, N.step buf r = none) (r : Int) : N.procs r = .ret (res r) := by
  obtain ⟨T, h1, h2⟩ := h
  obtain ⟨s', e1, -⟩ := h2 [] N rfl
  cases s' with
  | nil =>
    simp only [Net.run, Option.some.injEq] at e1
    rw [e1]; exact h1 r
  | cons a s' => simp [Net.run, hs] at e1

/-- All indices of an array. -/
def cells : List Nat → List (List Nat)
  | [] => [[]]
  | n :: s => (List.range n).flatMap fun i => (cells s).map (i :: ·)

theorem mem_cells {s idx : List Nat} (h : InB s idx) : idx ∈ cells s := by
  induction s generalizing idx with
  | nil => cases idx with
    | nil => simp [cells]
    | cons _ _ => simp [InB] at h
  | cons n s ih => cases idx with
    | nil => simp [InB] at h
    | cons i idx =>
      simp only [cells, List.mem_flatMap, List.mem_range, List.mem_map]
      exact ⟨i, h.1, idx, ih h.2, rfl⟩

/-- Number of elements not yet read. -/
def Entry.todo (e : Entry σ α) : Nat := ((cells e.shape).map fun idx => if (e.got idx).isNone then 1 else 0).sum

theorem todo_lt {e : Entry σ α} {idx : List Nat} {v : α} (hi : InB e.shape idx) (hn : e.got idx = none) :
    Entry.todo { e with got := fun j => if j = idx then some v else e.got j } < e.todo := by
  unfold Entry.todo
  refine sum_lt _ _ _ (fun x => ?_) (mem_cells hi) ?_
  · by_cases hx : x = idx
    · simp [hx]
    · simp [hx]
  · simp [hn]

/-- Number of elements not yet read on some channels. -/
def LNet.todo (chans : List (Int × Int × Tag)) (L : LNet σ α R) : Nat :=
  (chans.map fun c => ((L.sent c.1 c.2.1 c.2.2).map Entry.todo).sum).sum

/-- Number of steps the ranks can make without communicating. -/
def LNet.silent (ranks : List Int) (L : LNet σ α R) : Nat :=
  (ranks.map fun r => Late.silent (L.procs r) (L.mem r)).sum

theorem sum_set_lt {es : List (Entry σ α)} {i : Nat} {e e' : Entry σ α} (h : es[i]? = some e)
    (hl : e'.todo < e.todo) : ((es.set i e').map Entry.todo).sum < (es.map Entry.todo).sum := by
  induction es generalizing i with
  | nil => simp at h
  | cons a es ih => cases i with
    | zero =>
      simp only [List.getElem?_cons_zero, Option.some.injEq] at h
      subst h
      simp only [List.set_cons_zero, List.map_cons, List.sum_cons]; omega
    | succ i =>
      simp only [List.getElem?_cons_succ] at h
      have := ih h
      simp only [List.set_cons_succ, List.map_cons, List.sum_cons]; omega

theorem Reads.lt {L L' : LNet σ α R} {chans : List (Int × Int × Tag)} (h : Reads L L')
    (hc : ∀ s d t, (s, d, t) ∉ chans → L.sent s d t = []) :
    L'.todo chans < L.todo chans ∧ (∀ s d t, (s, d, t) ∉ chans → L'.sent s d t = []) := by
  obtain ⟨-, -, s, d, t, i, e, idx, v, h1, h2, h3, h4⟩ := h
  have hmem : (s, d, t) ∈ chans := by
    by_contra hn
    rw [hc s d t hn] at h1
    simp at h1
  have hlt := sum_set_lt h1 (todo_lt (v := v) h2 h3)
  constructor
  · unfold LNet.todo
    refine sum_lt _ _ _ (fun c => ?_) hmem ?_
    · rw [h4]
      rcases updCh_app L.sent s d t ((L.sent s d t).set i
        { e with got := fun j => if j = idx then some v else e.got j }) c.1 c.2.1 c.2.2 with ⟨e1, e2, e3, e4⟩ | ⟨-, e4⟩
      · rw [e4, e1, e2, e3]; exact hlt.le
      · rw [e4]
    · rw [h4]
      simp only [updCh_same]
      exact hlt
  · intro s' d' t' hn
    rw [h4, show updCh L.sent s d t _ s' d' t' = L.sent s' d' t' from
      if_neg (fun ⟨a, b, c⟩ => hn (by rw [a, b, c]; exact hmem))]
    exact hc _ _ _ hn

theorem Quiet.lt {L L' : LNet σ α R} {ranks : List Int} (h : Quiet L L')
    (hr : ∀ r, r ∉ ranks → ∃ x, L.procs r = .ret x) :
    L'.silent ranks < L.silent ranks ∧ (∀ r, r ∉ ranks → ∃ x, L'.procs r = .ret x) := by
  obtain ⟨r, h1, h2, -⟩ := h
  have hmem : r ∈ ranks := by
    by_contra hn
    obtain ⟨x, hx⟩ := hr r hn
    rw [hx] at h1
    simp [Late.silent] at h1
  constructor
  · unfold LNet.silent
    refine sum_lt _ _ _ (fun r' => ?_) hmem (by omega)
    by_cases hne : r' = r
    · subst hne; omega
    · rw [(h2 r' hne).1, (h2 r' hne).2]
  · intro r' hn
    rw [(h2 r' (fun e => hn (e ▸ hmem))).1]
    exact hr r' hn

theorem Step.chans {buf : Buffering} {L L' : LNet σ α R} {chans : List (Int × Int × Tag)} (h : Step buf L L')
    (hc : ∀ s d t, (s, d, t) ∉ chans → L.sent s d t = []) :
    ∃ chans' : List (Int × Int × Tag), ∀ s d t, (s, d, t) ∉ chans' → L'.sent s d t = [] := by
  cases h with
  | get h => exact ⟨chans, hc⟩
  | put h => exact ⟨chans, hc⟩
  | @isend r d t rd k h =>
    refine ⟨(r, d, t) :: chans, fun s' d' t' hn => ?_⟩
    simp only [List.mem_cons, not_or, Prod.mk.injEq] at hn
    show updCh L.sent r d t _ s' d' t' = []
    unfold updCh
    rw [if_neg hn.1]
    exact hc _ _ _ hn.2
  | @read s d t i e idx h hi hn =>
    refine ⟨(s, d, t) :: chans, fun s' d' t' hn => ?_⟩
    simp only [List.mem_cons, not_or, Prod.mk.injEq] at hn
    show updCh L.sent s d t _ s' d' t' = []
    unfold updCh
    rw [if_neg hn.1]
    exact hc _ _ _ hn.2
  | recv h he hs ha => refine ⟨chans, ?_⟩; split <;> exact hc
  | await h hd => exact ⟨chans, hc⟩

theorem Sim.no_infinite [SoundMemory σ α] {fin : R → σ → S} {buf : Buffering} {res : Int → S} {ranks : List Int} (n : Nat) :
    ∀ (a b : Nat) (L : LNet σ α R) (N : Net (Msg α) S) (P : Int → List (Pend σ α)) (chans : List (Int × Int × Tag)),
      Sim fin L N P → CompletesIn buf N res n → L.silent ranks = a → L.todo chans = b →
      (∀ r, r ∉ ranks → ∃ x, L.procs r = .ret x) → (∀ s d t, (s, d, t) ∉ chans → L.sent s d t = []) →
      ∀ f : Nat → LNet σ α R, f 0 = L → ¬ ∀ i, Step buf (f i) (f (i + 1)) := by
  induction n using Nat.strong_induction_on with
  | _ n ihn =>
    intro a
    induction a using Nat.strong_induction_on with
    | _ a iha =>
      intro b
      induction b using Nat.strong_induction_on with
      | _ b ihb =>
        intro L N P chans hsim hcp ha hb hr hc f f0 hf
        have hst := hf 0
        rw [f0] at hst
        obtain ⟨N', P', hN, hsim'⟩ := hsim.step hst
        have hf' : ∀ i, Step buf (f (i + 1)) (f (i + 1 + 1)) := fun i => hf (i + 1)
        rcases hN with ⟨rfl, hq | hq⟩ | ⟨r, hN, hoth⟩
        · obtain ⟨c1, c2⟩ := hq.lt hr
          obtain ⟨-, -, -, hsent⟩ := hq
          exact iha _ (ha ▸ c1) _ _ _ P' chans hsim' hcp rfl rfl c2 (by rw [hsent]; exact hc)
            (fun i => f (i + 1)) rfl hf'
        · obtain ⟨c1, c2⟩ := hq.lt hc
          obtain ⟨e1, e2, -⟩ := hq
          exact ihb _ (hb ▸ c1) _ _ P' chans hsim' hcp (by unfold LNet.silent; rw [e1, e2]; exact ha) rfl
            (by rw [e1]; exact hr) c2 (fun i => f (i + 1)) rfl hf'
        · obtain ⟨n', hn', hcp'⟩ := hcp.step hN
          obtain ⟨chans', hc'⟩ := hst.chans hc
          refine ihn n' hn' _ _ _ _ P' chans' hsim' hcp' rfl rfl ?_ hc' (fun i => f (i + 1)) rfl hf'
          intro r' hr'
          have hne : r' ≠ r := by
            rintro rfl
            obtain ⟨x, hx⟩ := hr r' hr'
            have := hsim.procs r'
            rw [hx] at this
            simp only [eager] at this
            unfold Net.step at hN
            rw [this] at hN
            simp at hN
          rw [hoth r' hne]
          exact hr r' hr'

theorem Sim.reach [SoundMemory σ α] {fin : R → σ → S} {buf : Buffering} {res : Int → S} {n : Nat} {L L' : LNet σ α R}
    {N : Net (Msg α) S} {P : Int → List (Pend σ α)} (h : Sim fin L N P) (hc : CompletesIn buf N res n)
    (hr : Relation.ReflTransGen (Step buf) L L') :
    ∃ N' P' n', Sim fin L' N' P' ∧ CompletesIn buf N' res n' := by
  induction hr with
  | refl => exact ⟨N, P, n, h, hc⟩
  | tail _ hs ih =>
    obtain ⟨N1, P1, n1, h1, h2⟩ := ih
    obtain ⟨N2, P2, hN, h3⟩ := h1.step hs
    rcases hN with ⟨rfl, -⟩ | ⟨r, hN, -⟩
    · exact ⟨_, P2, n1, h3, h2⟩
    · obtain ⟨n2, -, h4⟩ := h2.step hN
      exact ⟨N2, P2, n2, h3, h4⟩

/-- Reading messages late makes no difference for programs that do not change what they send. -/
theorem late_ends [SoundMemory σ α] {fin : R → σ → S} {buf : Buffering} {procs : Int → LProc σ α R} {mem mem' : Int → σ}
    {res : Int → R} {ranks : List Int} (hinj : ∀ x m x' m', fin x m = fin x' m' → x = x' ∧ m = m')
    (hranks : ∀ r, r ∉ ranks → ∃ x, procs r = .ret x)
    (hsafe : ∀ r, SafeP (procs r) (mem r) [] fun _ _ _ => True)
    (hc : (Net.start fun r => eager fin (procs r) (mem r)).Completes buf fun r => fin (res r) (mem' r)) :
    (LNet.start procs mem).Ends buf res mem' := by
  have hsim : Sim fin (LNet.start procs mem) (Net.start fun r => eager fin (procs r) (mem r)) fun _ => [] :=
    ⟨fun _ => rfl, rfl, fun _ _ _ => rfl, fun _ _ _ => Nat.le_refl _, fun _ _ _ _ _ h => by simp [LNet.start] at h,
      fun _ _ _ _ _ h => by simp [LNet.start] at h, fun _ _ _ _ _ _ h => by simp [LNet.start] at h,
      fun _ _ h => by simp at h, hsafe⟩
  obtain ⟨T, n, t1, t2⟩ := hc
  have hci : CompletesIn buf (Net.start fun r => eager fin (procs r) (mem r)) (fun r => fin (res r) (mem' r)) n :=
    ⟨T, t1, t2⟩
  refine ⟨fun L hL => ?_, ?_⟩
  · obtain ⟨N, P, n', h1, h2⟩ := hsim.reach hci hL
    by_cases hs : ∃ L', Step buf L L'
    · exact Or.inl hs
    · right
      intro r
      have hst := h1.stuck hs
      have hfin := h2.stuck (fun r => (hst r).1) r
      obtain ⟨x, hx⟩ := (hst r).2 ⟨_, hfin⟩
      have hp := h1.procs r
      rw [hx, hfin] at hp
      simp only [eager, Proc.ret.injEq] at hp
      obtain ⟨rfl, e⟩ := hinj _ _ _ _ hp
      exact ⟨hx, e.symm⟩
  · exact hsim.no_infinite (ranks := ranks) n _ _ _ _ _ [] hci rfl rfl hranks (fun _ _ _ _ => rfl)

end FV3.Late
