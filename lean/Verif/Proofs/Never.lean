import Verif.Props.Deadlock

/-!
# Ranks that never return
-/

namespace FV3
variable {M R : Type}

/-- The program sends nothing on the channels `C`. -/
inductive Proc.Quiet (C : Int → Tag → Prop) : Proc M R → Prop
  | ret (x : R) : Quiet C (.ret x)
  | isend {d t m k} (h : ¬ C d t) (hk : ∀ i, Quiet C (k i)) : Quiet C (.isend d t m k)
  | recv {s t k} (hk : ∀ m, Quiet C (k m)) : Quiet C (.recv s t k)
  | await {d t i k} (hk : ∀ u, Quiet C (k u)) : Quiet C (.await d t i k)

/-- The program receives from `src` with tag `tag` before it returns and before it sends anything on the channels `C`. -/
inductive Proc.Blocked (C : Int → Tag → Prop) (src : Int) (tag : Tag) : Proc M R → Prop
  | here (k : M → Proc M R) : Blocked C src tag (.recv src tag k)
  | isend {d t m k} (h : ¬ C d t) (hk : ∀ i, Blocked C src tag (k i)) : Blocked C src tag (.isend d t m k)
  | recv {s t k} (hk : ∀ m, Blocked C src tag (k m)) : Blocked C src tag (.recv s t k)
  | await {d t i k} (hk : ∀ u, Blocked C src tag (k u)) : Blocked C src tag (.await d t i k)

/-- Nothing was sent on the channels `C`; the ranks of `W` wait for messages on such channels, and the others send
nothing on them. -/
structure Net.Waits (C : Int → Int → Tag → Prop) (W : Int → Prop) (N : Net M R) : Prop where
  sent : ∀ s d t, C s d t → N.sent s d t = []
  wait : ∀ r, W r → ∃ s t, C s r t ∧ (N.procs r).Blocked (C r) s t
  quiet : ∀ r, ¬ W r → (N.procs r).Quiet (C r)

theorem Net.Waits.step {C : Int → Int → Tag → Prop} {W : Int → Prop} {buf : Buffering} {N A : Net M R} {r : Int}
    (h : N.Waits C W) (hs : N.step buf r = some A) : A.Waits C W := by
  have hp := h.wait r
  have hq := h.quiet r
  unfold Net.step at hs
  cases hr : N.procs r with
  | ret x => rw [hr] at hs; cases hs
  | isend d t m k =>
    rw [hr] at hs hp hq
    simp only [Option.some.injEq] at hs
    subst hs
    have hno : ¬ C r d t := by
      by_cases hw : W r
      · obtain ⟨s, t', -, hb⟩ := hp hw
        cases hb; assumption
      · cases hq hw; assumption
    refine ⟨fun s d' t' hc => ?_, fun r' hw => ?_, fun r' hw => ?_⟩
    · dsimp only
      rw [updCh_ne _ _ (by rintro ⟨rfl, rfl, rfl⟩; exact hno hc)]
      exact h.sent s d' t' hc
    · by_cases e : r' = r
      · subst e
        obtain ⟨s, t', hc, hb⟩ := hp hw
        refine ⟨s, t', hc, ?_⟩
        dsimp only
        rw [updRank_same]
        cases hb with | isend _ hk => exact hk _
      · dsimp only
        rw [updRank_ne _ _ e]
        exact h.wait r' hw
    · by_cases e : r' = r
      · subst e
        dsimp only
        rw [updRank_same]
        cases hq hw with | isend _ hk => exact hk _
      · dsimp only
        rw [updRank_ne _ _ e]
        exact h.quiet r' hw
  | recv s t k =>
    rw [hr] at hs hp hq
    simp only at hs
    split at hs
    · cases hs
    · rename_i m hm
      simp only [Option.some.injEq] at hs
      subst hs
      refine ⟨h.sent, fun r' hw => ?_, fun r' hw => ?_⟩
      · by_cases e : r' = r
        · subst e
          obtain ⟨s', t', hc, hb⟩ := hp hw
          refine ⟨s', t', hc, ?_⟩
          dsimp only
          rw [updRank_same]
          cases hb with
          | here =>
            rw [h.sent _ _ _ hc] at hm
            cases hm
          | recv hk => exact hk _
        · dsimp only
          rw [updRank_ne _ _ e]
          exact h.wait r' hw
      · by_cases e : r' = r
        · subst e
          dsimp only
          rw [updRank_same]
          cases hq hw with | recv hk => exact hk _
        · dsimp only
          rw [updRank_ne _ _ e]
          exact h.quiet r' hw
  | await d t i k =>
    rw [hr] at hs hp hq
    simp only at hs
    split at hs
    · simp only [Option.some.injEq] at hs
      subst hs
      refine ⟨h.sent, fun r' hw => ?_, fun r' hw => ?_⟩
      · by_cases e : r' = r
        · subst e
          obtain ⟨s', t', hc, hb⟩ := hp hw
          refine ⟨s', t', hc, ?_⟩
          dsimp only
          rw [updRank_same]
          cases hb with | await hk => exact hk _
        · dsimp only
          rw [updRank_ne _ _ e]
          exact h.wait r' hw
      · by_cases e : r' = r
        · subst e
          dsimp only
          rw [updRank_same]
          cases hq hw with | await hk => exact hk _
        · dsimp only
          rw [updRank_ne _ _ e]
          exact h.quiet r' hw
    · cases hs

theorem Net.Waits.run {C : Int → Int → Tag → Prop} {W : Int → Prop} {buf : Buffering} {sched : List Int} {N A : Net M R}
    (h : N.Waits C W) (hs : N.run buf sched = some A) : A.Waits C W := by
  induction sched generalizing N with
  | nil => cases hs; exact h
  | cons r rs ih =>
    unfold Net.run at hs
    cases e : N.step buf r with
    | none => rw [e] at hs; cases hs
    | some B =>
      rw [e] at hs
      exact ih (h.step e) hs

theorem Net.Waits.not_ret {C : Int → Int → Tag → Prop} {W : Int → Prop} {N : Net M R} (h : N.Waits C W) {r : Int}
    (hr : W r) (x : R) : N.procs r ≠ .ret x := by
  intro e
  obtain ⟨s, t, -, hb⟩ := h.wait r hr
  rw [e] at hb
  cases hb

/-- Two continuations of a schedule can be joined. -/
theorem Net.join_step {buf : Buffering} {N A B : Net M R} {r : Int} {sched : List Int} (h1 : N.step buf r = some A)
    (h2 : N.run buf sched = some B) : ∃ s1 s2 C, A.run buf s1 = some C ∧ B.run buf s2 = some C := by
  induction sched generalizing N A with
  | nil =>
    cases h2
    exact ⟨[], [r], A, rfl, by simp only [Net.run, h1, Option.bind_some]⟩
  | cons s rs ih =>
    unfold Net.run at h2
    cases e : N.step buf s with
    | none => rw [e] at h2; cases h2
    | some D =>
      rw [e] at h2
      by_cases hrs : r = s
      · subst hrs
        rw [h1] at e
        cases e
        exact ⟨rs, [], B, h2, rfl⟩
      · obtain ⟨E, e1, e2⟩ := Net.diamond buf hrs h1 e
        obtain ⟨s1, s2, C, c1, c2⟩ := ih e2 h2
        exact ⟨s :: s1, s2, C, by simp only [Net.run, e1, Option.bind_some, c1], c2⟩

theorem Net.join {buf : Buffering} {N A B : Net M R} {sa sb : List Int} (h1 : N.run buf sa = some A)
    (h2 : N.run buf sb = some B) : ∃ s1 s2 C, A.run buf s1 = some C ∧ B.run buf s2 = some C := by
  induction sa generalizing N B sb with
  | nil =>
    cases h1
    exact ⟨sb, [], B, h2, rfl⟩
  | cons r rs ih =>
    unfold Net.run at h1
    cases e : N.step buf r with
    | none => rw [e] at h1; cases h1
    | some D =>
      rw [e] at h1
      obtain ⟨s1, s2, C, c1, c2⟩ := Net.join_step e h2
      obtain ⟨t1, t2, E, d1, d2⟩ := ih h1 c1
      exact ⟨t1, s2 ++ t2, E, d1, by rw [Net.run_append, c2]; exact d2⟩

/-- If a schedule leads to a state in which ranks wait like this, they do not return in any schedule. -/
theorem Net.Waits.never {C : Int → Int → Tag → Prop} {W : Int → Prop} {buf : Buffering} {s0 : List Int} {N T : Net M R}
    (h0 : N.run buf s0 = some T) (h : T.Waits C W) (sched : List Int) (A : Net M R) (hA : N.run buf sched = some A)
    (r : Int) (hr : W r) (x : R) : A.procs r ≠ .ret x := by
  intro e
  obtain ⟨s1, s2, D, d1, d2⟩ := Net.join hA h0
  have := Net.run_finished d1 e
  exact (h.run d2).not_ret hr x this

end FV3
