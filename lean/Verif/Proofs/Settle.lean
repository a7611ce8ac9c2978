import Verif.Spec.Net
import Verif.Props.Net
import Mathlib.Data.List.Nodup
import Mathlib.Data.Nat.Find

/-!
# A criterion for completion

If the actions of all ranks can be given time stamps such that every rank acts in the order
of its time stamps, every receive comes after the matching send and every wait after the
matching receive (or the send is buffered), then all ranks finish, and receive the messages
of the matching sends.
-/

namespace FV3
variable {M R S : Type}

/-- Actions of a rank; a receive names the message it will get. -/
inductive Act (M : Type) where
  | send (dst : Int) (tag : Tag) (m : M)
  | recv (src : Int) (tag : Tag) (m : M)
  | await (dst : Int) (tag : Tag)

/-- The program performs these actions, when every channel is used for at most one
message, and ends with a result. -/
inductive Real : Proc M R → List (Act M) → R → Prop where
  | ret (r : R) : Real (.ret r) [] r
  | send {d t m k as r} : Real (k 0) as r → Real (.isend d t m k) (.send d t m :: as) r
  | recv {s t m k as r} : Real (k m) as r → Real (.recv s t k) (.recv s t m :: as) r
  | await {d t k as r} : Real (k ()) as r → Real (.await d t 0 k) (.await d t :: as) r

theorem Real.bind {p : Proc M R} {as bs : List (Act M)} {x : R} {f : R → Proc M S} {y : S}
    (h : Real p as x) (h' : Real (f x) bs y) : Real (p.bind f) (as ++ bs) y := by
  induction h with
  | ret r => exact h'
  | send _ ih => exact .send (ih h')
  | recv _ ih => exact .recv (ih h')
  | await _ ih => exact .await (ih h')

/-- Key of a send: receiver and tag. -/
def sendKey : Nat × Act M → Option (Int × Tag)
  | (_, .send d t _) => some (d, t)
  | _ => none

/-- Key of a receive: sender and tag. -/
def recvKey : Nat × Act M → Option (Int × Tag)
  | (_, .recv s t _) => some (s, t)
  | _ => none

/-- A consistent plan of all ranks. -/
structure Plan (buf : Buffering) (ranks : List Int) (plan : Int → List (Nat × Act M)) : Prop where
  idle : ∀ r, r ∉ ranks → plan r = []
  ordered : ∀ r, (plan r).Pairwise (fun a b => a.1 ≤ b.1)
  sendOnce : ∀ r, ((plan r).filterMap sendKey).Nodup
  recvOnce : ∀ r, ((plan r).filterMap recvKey).Nodup
  recvSent : ∀ r n s t m, (n, Act.recv s t m) ∈ plan r → ∃ n' < n, (n', Act.send r t m) ∈ plan s
  awaitRecv : ∀ r n d t, (n, Act.await d t) ∈ plan r →
    buf r d t 0 = true ∨ ∃ n' < n, ∃ m, (n', Act.recv r t m) ∈ plan d

/-- State in which `dn` has been done and `td` is to be done. -/
structure Mid (N : Net M R) (res : Int → R) (plan dn td : Int → List (Nat × Act M)) : Prop where
  split : ∀ r, plan r = dn r ++ td r
  real : ∀ r, Real (N.procs r) ((td r).map (·.2)) (res r)
  sentDn : ∀ s n d t m, (n, Act.send d t m) ∈ dn s → N.sent s d t = [m]
  sentTd : ∀ s n d t m, (n, Act.send d t m) ∈ td s → N.sent s d t = []
  rcvdDn : ∀ d n s t m, (n, Act.recv s t m) ∈ dn d → N.rcvd s d t = 1
  rcvdTd : ∀ d n s t m, (n, Act.recv s t m) ∈ td d → N.rcvd s d t = 0

theorem sum_lt {A : Type} (l : List A) (f g : A → Nat) (hle : ∀ x, f x ≤ g x) {a : A} (ha : a ∈ l)
    (hlt : f a < g a) : (l.map f).sum < (l.map g).sum := by
  have mono : ∀ l : List A, (l.map f).sum ≤ (l.map g).sum := by
    intro l
    induction l with
    | nil => simp
    | cons x l ih => simp only [List.map_cons, List.sum_cons]; have := hle x; omega
  induction l with
  | nil => simp at ha
  | cons x l ih =>
    simp only [List.map_cons, List.sum_cons]
    rcases List.mem_cons.1 ha with rfl | ha
    · have := mono l; omega
    · have := ih ha; have := hle x; omega

/-- Keys of the head of the remaining list do not occur elsewhere. -/
theorem key_ne {A K : Type} {f : A → Option K} {dn rest : List A} {a b : A} {k : K}
    (h : ((dn ++ a :: rest).filterMap f).Nodup) (ha : f a = some k)
    (hb : b ∈ dn ∨ b ∈ rest) : f b ≠ some k := by
  intro hk
  rw [List.filterMap_append, List.nodup_append] at h
  obtain ⟨-, h2, h3⟩ := h
  rw [List.filterMap_cons_some ha, List.nodup_cons] at h2
  rcases hb with hb | hb
  · exact h3 k (List.mem_filterMap.2 ⟨b, hb, hk⟩) k
      (by rw [List.filterMap_cons_some ha]; exact List.mem_cons_self) rfl
  · exact h2.1 (List.mem_filterMap.2 ⟨b, hb, hk⟩)

theorem Plan.progress {buf : Buffering} {ranks : List Int} {plan : Int → List (Nat × Act M)}
    (hp : Plan buf ranks plan) {N : Net M R} {res : Int → R} {dn td : Int → List (Nat × Act M)}
    (hm : Mid N res plan dn td) (hne : ∃ r, td r ≠ []) :
    ∃ r a rest N', td r = a :: rest ∧ N.step buf r = some N' ∧
      Mid N' res plan (updRank dn r (dn r ++ [a])) (updRank td r rest) := by
  classical
  have hex : ∃ n0, ∃ r a rest, td r = (n0, a) :: rest := by
    obtain ⟨r, hr⟩ := hne
    cases h : td r with
    | nil => exact absurd h hr
    | cons a rest => exact ⟨a.1, r, a.2, rest, h⟩
  obtain ⟨r, a, rest, hr⟩ := Nat.find_spec hex
  have hmin := fun m => Nat.find_min (H := hex) (m := m)
  generalize Nat.find hex = n0 at *
  -- all remaining actions have time at least `n0`
  have hge : ∀ s n b, (n, b) ∈ td s → n0 ≤ n := by
    intro s n b hb
    cases hs : td s with
    | nil => rw [hs] at hb; simp at hb
    | cons c cs =>
      have h1 : n0 ≤ c.1 := by
        by_contra hlt
        exact hmin c.1 (by omega) ⟨s, c.2, cs, hs⟩
      have ho := hp.ordered s
      rw [hm.split s, hs, List.pairwise_append] at ho
      have h2 := (List.pairwise_cons.1 ho.2.1).1
      rw [hs] at hb
      rcases List.mem_cons.1 hb with h | h
      · rw [← h] at h1; exact h1
      · have := h2 _ h; omega
  have hold : ∀ s n b, n < n0 → (n, b) ∈ plan s → (n, b) ∈ dn s := by
    intro s n b hlt hb
    rw [hm.split s] at hb
    rcases List.mem_append.1 hb with h | h
    · exact h
    · have := hge s n b h; omega
  have hmem : ∀ b, b ∈ plan r ↔ b ∈ dn r ∨ b = (n0, a) ∨ b ∈ rest := by
    intro b; rw [hm.split r, hr]; simp
  have hsplit : ∀ s, plan s = updRank dn r (dn r ++ [(n0, a)]) s ++ updRank td r rest s := by
    intro s
    by_cases h : s = r
    · subst h; rw [updRank_same, updRank_same, hm.split s, hr]; simp
    · rw [updRank_ne _ _ h, updRank_ne _ _ h, hm.split s]
  have hdn : ∀ s b, b ∈ updRank dn r (dn r ++ [(n0, a)]) s → b ∈ dn s ∨ (s = r ∧ b = (n0, a)) := by
    intro s b hb
    by_cases h : s = r
    · subst h; rw [updRank_same] at hb
      rcases List.mem_append.1 hb with h | h
      · exact Or.inl h
      · exact Or.inr ⟨rfl, by simpa using h⟩
    · rw [updRank_ne _ _ h] at hb; exact Or.inl hb
  have htd : ∀ s b, b ∈ updRank td r rest s → b ∈ td s ∧ (s = r → b ∈ rest) := by
    intro s b hb
    by_cases h : s = r
    · subst h; rw [updRank_same] at hb
      exact ⟨by rw [hr]; exact List.mem_cons_of_mem _ hb, fun _ => hb⟩
    · rw [updRank_ne _ _ h] at hb; exact ⟨hb, fun h' => absurd h' h⟩
  have hreal := hm.real r
  rw [hr] at hreal
  simp only [List.map_cons] at hreal
  have hps : plan r = dn r ++ (n0, a) :: rest := by rw [hm.split r, hr]
  have hS := hp.sendOnce r
  have hR := hp.recvOnce r
  rw [hps] at hS hR
  generalize hproc : N.procs r = p at hreal
  cases hreal with
  | @send d t m k _ _ hk =>
    have hs0 : N.sent r d t = [] := hm.sentTd r n0 d t m (by rw [hr]; exact List.mem_cons_self)
    refine ⟨r, _, rest, _, hr, by simp only [Net.step, hproc]; rfl, ?_⟩
    refine ⟨hsplit, ?_, ?_, ?_, ?_, ?_⟩
    · intro s
      by_cases h : s = r
      · subst h; simp only [updRank_same, hs0]; exact hk
      · simp only [updRank_ne _ _ h]; exact hm.real s
    · intro s n d' t' m' hb
      rcases hdn s _ hb with h | ⟨rfl, h⟩
      · show updCh N.sent r d t (N.sent r d t ++ [m]) s d' t' = [m']
        rw [updCh_ne, hm.sentDn s n d' t' m' h]
        rintro ⟨rfl, rfl, rfl⟩
        exact key_ne hS (a := (n0, Act.send d' t' m)) rfl (Or.inl h) rfl
      · simp only [Prod.mk.injEq, Act.send.injEq] at h
        obtain ⟨-, rfl, rfl, rfl⟩ := h
        show updCh N.sent s d' t' (N.sent s d' t' ++ [m']) s d' t' = [m']
        rw [updCh_same, hs0]; rfl
    · intro s n d' t' m' hb
      obtain ⟨h1, h2⟩ := htd s _ hb
      show updCh N.sent r d t (N.sent r d t ++ [m]) s d' t' = []
      rw [updCh_ne, hm.sentTd s n d' t' m' h1]
      rintro ⟨rfl, rfl, rfl⟩
      exact key_ne hS (a := (n0, Act.send d' t' m)) rfl (Or.inr (h2 rfl)) rfl
    · intro s n d' t' m' hb
      rcases hdn s _ hb with h | ⟨rfl, h⟩
      · exact hm.rcvdDn s n d' t' m' h
      · simp at h
    · intro s n d' t' m' hb
      exact hm.rcvdTd s n d' t' m' (htd s _ hb).1
  | @recv s0 t m k _ _ hk =>
    have hin : (n0, Act.recv s0 t m) ∈ td r := by rw [hr]; exact List.mem_cons_self
    have hr0 : N.rcvd s0 r t = 0 := hm.rcvdTd r n0 s0 t m hin
    obtain ⟨n', hlt, hsnd⟩ := hp.recvSent r n0 s0 t m (by rw [hm.split r]; exact List.mem_append_right _ hin)
    have hs1 : N.sent s0 r t = [m] := hm.sentDn s0 n' r t m (hold s0 n' _ hlt hsnd)
    refine ⟨r, _, rest, _, hr, by simp only [Net.step, hproc, hs1, hr0]; rfl, ?_⟩
    refine ⟨hsplit, ?_, ?_, ?_, ?_, ?_⟩
    · intro s
      by_cases h : s = r
      · subst h; simp only [updRank_same]; exact hk
      · simp only [updRank_ne _ _ h]; exact hm.real s
    · intro s n d' t' m' hb
      rcases hdn s _ hb with h | ⟨rfl, h⟩
      · exact hm.sentDn s n d' t' m' h
      · simp at h
    · intro s n d' t' m' hb
      exact hm.sentTd s n d' t' m' (htd s _ hb).1
    · intro d n s t' m' hb
      rcases hdn d _ hb with h | ⟨rfl, h⟩
      · show updCh N.rcvd s0 r t (0 + 1) s d t' = 1
        rw [updCh_ne, hm.rcvdDn d n s t' m' h]
        rintro ⟨rfl, rfl, rfl⟩
        exact key_ne hR (a := (n0, Act.recv s t' m)) rfl (Or.inl h) rfl
      · simp only [Prod.mk.injEq, Act.recv.injEq] at h
        obtain ⟨-, rfl, rfl, rfl⟩ := h
        show updCh N.rcvd s d t' (0 + 1) s d t' = 1
        rw [updCh_same]
    · intro d n s t' m' hb
      obtain ⟨h1, h2⟩ := htd d _ hb
      show updCh N.rcvd s0 r t (0 + 1) s d t' = 0
      rw [updCh_ne, hm.rcvdTd d n s t' m' h1]
      rintro ⟨rfl, rfl, rfl⟩
      exact key_ne hR (a := (n0, Act.recv s t' m)) rfl (Or.inr (h2 rfl)) rfl
  | @await d t k _ _ hk =>
    have hin : (n0, (Act.await d t : Act M)) ∈ td r := by rw [hr]; exact List.mem_cons_self
    have hen : buf r d t 0 = true ∨ 0 < N.rcvd r d t := by
      rcases hp.awaitRecv r n0 d t (by rw [hm.split r]; exact List.mem_append_right _ hin) with
        h | ⟨n', hlt, m, h⟩
      · exact Or.inl h
      · right; rw [hm.rcvdDn d n' r t m (hold d n' _ hlt h)]; omega
    refine ⟨r, _, rest, _, hr, by simp only [Net.step, hproc, hen, if_true]; rfl, ?_⟩
    refine ⟨hsplit, ?_, ?_, ?_, ?_, ?_⟩
    · intro s
      by_cases h : s = r
      · subst h; simp only [updRank_same]; exact hk
      · simp only [updRank_ne _ _ h]; exact hm.real s
    · intro s n d' t' m' hb
      rcases hdn s _ hb with h | ⟨rfl, h⟩
      · exact hm.sentDn s n d' t' m' h
      · simp at h
    · intro s n d' t' m' hb
      exact hm.sentTd s n d' t' m' (htd s _ hb).1
    · intro s n d' t' m' hb
      rcases hdn s _ hb with h | ⟨rfl, h⟩
      · exact hm.rcvdDn s n d' t' m' h
      · simp at h
    · intro s n d' t' m' hb
      exact hm.rcvdTd s n d' t' m' (htd s _ hb).1

theorem Plan.settles {buf : Buffering} {ranks : List Int} {plan : Int → List (Nat × Act M)}
    (hp : Plan buf ranks plan) {N : Net M R} {res : Int → R} {dn td : Int → List (Nat × Act M)}
    (hm : Mid N res plan dn td) :
    ∃ sched T, N.run buf sched = some T ∧ ∀ r, T.procs r = .ret (res r) := by
  generalize hk : (ranks.map fun r => (td r).length).sum = k
  induction k using Nat.strongRecOn generalizing N dn td with
  | ind k ih =>
    by_cases hne : ∃ r, td r ≠ []
    · obtain ⟨r, a, rest, N', h1, h2, h3⟩ := hp.progress hm hne
      have hmem : r ∈ ranks := by
        by_contra h
        have := hp.idle r h
        rw [hm.split r, h1] at this
        simp at this
      obtain ⟨sched, T, h4, h5⟩ := ih _ (by
        rw [← hk]
        refine sum_lt ranks _ _ ?_ hmem ?_
        · intro x
          by_cases hx : x = r
          · subst hx; rw [updRank_same, h1]; simp
          · rw [updRank_ne _ _ hx]
        · rw [updRank_same, h1]; simp) h3 rfl
      exact ⟨r :: sched, T, by simp only [Net.run, h2, Option.bind_some, h4], h5⟩
    · refine ⟨[], N, rfl, fun r => ?_⟩
      have h0 : td r = [] := by
        by_contra h; exact hne ⟨r, h⟩
      have := hm.real r
      rw [h0] at this
      generalize N.procs r = p at *
      cases this; rfl

theorem Net.completes_of_run {buf : Buffering} {N T : Net M R} {res : Int → R} {sched : List Int}
    (h : N.run buf sched = some T) (hr : ∀ r, T.procs r = .ret (res r)) : N.Completes buf res :=
  ⟨T, sched.length, hr, fun s A hA =>
    C21_schedule_independent buf N T sched h (fun r => by simp [Net.step, hr r]) s A hA⟩

/-- The criterion. -/
theorem Plan.completes {buf : Buffering} {ranks : List Int} {plan : Int → List (Nat × Act M)}
    (hp : Plan buf ranks plan) {N : Net M R} {res : Int → R}
    (hreal : ∀ r, Real (N.procs r) ((plan r).map (·.2)) (res r))
    (hs : ∀ s n d t m, (n, Act.send d t m) ∈ plan s → N.sent s d t = [])
    (hr : ∀ d n s t m, (n, Act.recv s t m) ∈ plan d → N.rcvd s d t = 0) :
    N.Completes buf res := by
  obtain ⟨sched, T, h1, h2⟩ := hp.settles (N := N) (res := res) (dn := fun _ => []) (td := plan)
    ⟨fun r => rfl, hreal, fun s n d t m h => by simp at h, hs, fun s n d t m h => by simp at h, hr⟩
  exact Net.completes_of_run h1 h2

end FV3
