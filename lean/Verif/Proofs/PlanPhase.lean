import Verif.Proofs.Coll
import Verif.Proofs.Phases

/-!
# A planned phase on a network on which other messages were exchanged before

Like `Net.phase`, for programs whose tags depend on what they receive.
-/

namespace FV3
variable {M R : Type}

/-- A step of a rank leaves the other tags as they are. -/
theorem Net.step_other {buf : Buffering} {N N' : Net M R} {r : Int} {a : Act M} {as : List (Act M)} {x : R}
    (h : N.step buf r = some N') (hr : Real (N.procs r) (a :: as) x) {t : Tag} (ht : t ≠ a.tag) (s d : Int) :
    N'.sent s d t = N.sent s d t ∧ N'.rcvd s d t = N.rcvd s d t := by
  unfold Net.step at h
  generalize hp : N.procs r = p at hr
  rw [hp] at h
  cases hr with
  | send hk =>
    simp only [Option.some.injEq] at h
    subst h
    refine ⟨?_, rfl⟩
    dsimp only
    rw [updCh_ne]
    rintro ⟨-, -, e⟩
    exact ht e
  | @recv s' t' m k _ _ hk =>
    dsimp only at h
    cases hm : (N.sent s' r t')[N.rcvd s' r t']? with
    | none => rw [hm] at h; cases h
    | some m =>
      rw [hm] at h
      simp only [Option.some.injEq] at h
      subst h
      refine ⟨rfl, ?_⟩
      dsimp only
      rw [updCh_ne]
      rintro ⟨-, -, e⟩
      exact ht e
  | await hk =>
    dsimp only at h
    split at h
    · simp only [Option.some.injEq] at h
      subst h
      exact ⟨rfl, rfl⟩
    · cases h

theorem Plan.settles_other {buf : Buffering} {ranks : List Int} {plan : Int → List (Nat × Act M)}
    (hp : Plan buf ranks plan) {A : Tag → Prop} (hA : ∀ r n a, (n, a) ∈ plan r → A a.tag) {N : Net M R} {res : Int → R}
    {dn td : Int → List (Nat × Act M)} (hm : Mid N res plan dn td) :
    ∃ sched T, N.run buf sched = some T ∧ (∀ r, T.procs r = .ret (res r)) ∧
      ∀ t, ¬ A t → ∀ s d, T.sent s d t = N.sent s d t ∧ T.rcvd s d t = N.rcvd s d t := by
  generalize hk : (ranks.map fun r => (td r).length).sum = k
  induction k using Nat.strongRecOn generalizing N dn td with
  | ind k ih =>
    by_cases hne : ∃ r, td r ≠ []
    · obtain ⟨r, a, rest, N', h1, h2, h3⟩ := hp.progress hm hne
      have hmem : r ∈ ranks := by
        by_contra h
        have := hp.idle r h
        rw [hm.split r, h1] at this
        simp at this
      obtain ⟨sched, T, h4, h5, h6⟩ := ih _ (by
        rw [← hk]
        refine sum_lt ranks _ _ ?_ hmem ?_
        · intro x
          by_cases hx : x = r
          · subst hx; rw [updRank_same, h1]; simp
          · rw [updRank_ne _ _ hx]
        · rw [updRank_same, h1]; simp) h3 rfl
      refine ⟨r :: sched, T, by simp only [Net.run, h2, Option.bind_some, h4], h5, fun t ht s d => ?_⟩
      have hreal := hm.real r
      rw [h1, List.map_cons] at hreal
      have hat : A a.2.tag := hA r a.1 a.2 (by rw [hm.split r, h1]; simp)
      have := Net.step_other h2 hreal (t := t) (fun e => ht (e ▸ hat)) s d
      exact ⟨(h6 t ht s d).1.trans this.1, (h6 t ht s d).2.trans this.2⟩
    · refine ⟨[], N, rfl, fun r => ?_, fun _ _ _ _ => ⟨rfl, rfl⟩⟩
      have h0 : td r = [] := by
        by_contra h; exact hne ⟨r, h⟩
      have := hm.real r
      rw [h0] at this
      generalize N.procs r = p at *
      cases this; rfl

/-- Collectives `c ≤ n < c'` performed on a network that is empty for them. -/
theorem Seg.phase {buf : Buffering} {ranks : List Int} {c c' : Nat} {plan : Int → List (Nat × Act M)}
    (hs : Seg buf ranks c c' plan) {procs : Int → Proc M R} {res : Int → R}
    (hreal : ∀ r, Real (procs r) ((plan r).map (·.2)) (res r))
    {sent : Int → Int → Tag → List M} {rcvd : Int → Int → Tag → Nat}
    (hc : Net.CleanOn (fun t => ∃ k, t = .coll k ∧ c ≤ k ∧ k < c') sent rcvd) :
    ∃ sched T, (⟨procs, sent, rcvd⟩ : Net M R).run buf sched = some T ∧ (∀ r, T.procs r = .ret (res r)) ∧
      ∀ B : Tag → Prop, (∀ t, B t → ¬ ∃ k, t = .coll k ∧ c ≤ k ∧ k < c') → Net.CleanOn B sent rcvd →
        Net.CleanOn B T.sent T.rcvd := by
  obtain ⟨sched, T, h1, h2, h3⟩ := hs.ok.settles_other (A := fun t => ∃ k, t = .coll k ∧ c ≤ k ∧ k < c') hs.tag
    (N := ⟨procs, sent, rcvd⟩) (res := res) (dn := fun _ => []) (td := plan)
    ⟨fun r => rfl, hreal, fun s n d t m h => by simp at h,
      fun s n d t m h => hc.sent s d t (hs.tag s n _ h), fun s n d t m h => by simp at h,
      fun d n s t m h => hc.rcvd s d t (hs.tag d n _ h)⟩
  refine ⟨sched, T, h1, h2, fun B hB hcb => ⟨fun s d t ht => ?_, fun s d t ht => ?_⟩⟩
  · rw [(h3 t (hB t ht) s d).1]; exact hcb.sent s d t ht
  · rw [(h3 t (hB t ht) s d).2]; exact hcb.rcvd s d t ht

end FV3
