import Verif.Spec.Net
import Verif.Model.TileSession

/-!
# Programs that agree unless one of them fails

If all ranks of a network finish without failure, the network of programs which agree with them as long as they do not
fail does the same.
-/

namespace FV3
variable {M R S : Type}

/-- `q` does what `p` does, as long as `p` does not end with a bad result. -/
def Proc.Agree (bad : R → Prop) : Proc M R → Proc M R → Prop
  | .ret x, q => bad x ∨ q = .ret x
  | .isend d t m k, q => ∃ k', q = .isend d t m k' ∧ ∀ i, (k i).Agree bad (k' i)
  | .recv s t k, q => ∃ k', q = .recv s t k' ∧ ∀ m, (k m).Agree bad (k' m)
  | .await d t i k, q => ∃ k', q = .await d t i k' ∧ ∀ u, (k u).Agree bad (k' u)

namespace Proc

theorem Agree.refl (bad : R → Prop) (p : Proc M R) : p.Agree bad p := by
  induction p with
  | ret x => exact .inr rfl
  | isend d t m k ih => exact ⟨k, rfl, ih⟩
  | recv s t k ih => exact ⟨k, rfl, ih⟩
  | await d t i k ih => exact ⟨k, rfl, ih⟩

theorem Agree.bind {bad : R → Prop} {bad' : S → Prop} {p q : Proc M R} {f g : R → Proc M S} (h : p.Agree bad q)
    (hb : ∀ x, bad x → ∃ y, f x = .ret y ∧ bad' y) (hf : ∀ x, ¬ bad x → (f x).Agree bad' (g x)) :
    (p.bind f).Agree bad' (q.bind g) := by
  induction p generalizing q with
  | ret x =>
    by_cases hx : bad x
    · obtain ⟨y, hy, hy'⟩ := hb x hx
      show (f x).Agree bad' _
      rw [hy]
      exact .inl hy'
    · rcases h with h | rfl
      · exact absurd h hx
      · exact hf x hx
  | isend d t m k ih => obtain ⟨k', rfl, h⟩ := h; exact ⟨_, rfl, fun i => ih i (h i)⟩
  | recv s t k ih => obtain ⟨k', rfl, h⟩ := h; exact ⟨_, rfl, fun i => ih i (h i)⟩
  | await d t i k ih => obtain ⟨k', rfl, h⟩ := h; exact ⟨_, rfl, fun i => ih i (h i)⟩

theorem Agree.retag {bad : R → Prop} {p q : Proc M R} (h : p.Agree bad q) (f : Tag → Tag) :
    (p.retag f).Agree bad (q.retag f) := by
  induction p generalizing q with
  | ret x =>
    rcases h with h | rfl
    · exact .inl h
    · exact .inr rfl
  | isend d t m k ih => obtain ⟨k', rfl, h⟩ := h; exact ⟨_, rfl, fun i => ih i (h i)⟩
  | recv s t k ih => obtain ⟨k', rfl, h⟩ := h; exact ⟨_, rfl, fun i => ih i (h i)⟩
  | await d t i k ih => obtain ⟨k', rfl, h⟩ := h; exact ⟨_, rfl, fun i => ih i (h i)⟩

theorem Agree.renumber {bad : R → Prop} {p q : Proc M R} (h : p.Agree bad q) (f : Int → Int) :
    (p.renumber f).Agree bad (q.renumber f) := by
  induction p generalizing q with
  | ret x =>
    rcases h with h | rfl
    · exact .inl h
    · exact .inr rfl
  | isend d t m k ih => obtain ⟨k', rfl, h⟩ := h; exact ⟨_, rfl, fun i => ih i (h i)⟩
  | recv s t k ih => obtain ⟨k', rfl, h⟩ := h; exact ⟨_, rfl, fun i => ih i (h i)⟩
  | await d t i k ih => obtain ⟨k', rfl, h⟩ := h; exact ⟨_, rfl, fun i => ih i (h i)⟩

end Proc

/-- The networks are the same but for programs that agree. -/
structure Net.Agree (bad : R → Prop) (N N' : Net M R) : Prop where
  procs : ∀ r, (N.procs r).Agree bad (N'.procs r)
  sent : N'.sent = N.sent
  rcvd : N'.rcvd = N.rcvd

/-- No rank of `N` has failed. -/
def Net.Sound (bad : R → Prop) (N : Net M R) : Prop := ∀ r x, N.procs r = .ret x → ¬ bad x

theorem Net.Agree.step {bad : R → Prop} {buf : Buffering} {N N' A : Net M R} {r : Int} (h : Net.Agree bad N N')
    (hs : N.step buf r = some A) : ∃ A', N'.step buf r = some A' ∧ Net.Agree bad A A' := by
  have hp := h.procs r
  have key : ∀ {p p' : Proc M R}, p.Agree bad p' → ∀ r', (updRank N.procs r p r').Agree bad (updRank N'.procs r p' r') := by
    intro p p' hpp r'
    unfold updRank
    split
    · exact hpp
    · exact h.procs r'
  unfold Net.step at hs ⊢
  cases hc : N.procs r with
  | ret x => rw [hc] at hs; cases hs
  | isend d t m k =>
    rw [hc] at hs hp
    obtain ⟨k', e, hk⟩ := hp
    rw [e]
    simp only [Option.some.injEq] at hs
    subst hs
    refine ⟨_, rfl, ?_, ?_, h.rcvd⟩
    · rw [h.sent]; exact key (hk _)
    · dsimp only; rw [h.sent]
  | recv s t k =>
    rw [hc] at hs hp
    obtain ⟨k', e, hk⟩ := hp
    rw [e]
    simp only at hs ⊢
    rw [h.sent, h.rcvd]
    cases hm : (N.sent s r t)[N.rcvd s r t]? with
    | none => rw [hm] at hs; cases hs
    | some m =>
      rw [hm] at hs
      simp only [Option.some.injEq] at hs
      subst hs
      exact ⟨_, rfl, key (hk _), rfl, rfl⟩
  | await d t i k =>
    rw [hc] at hs hp
    obtain ⟨k', e, hk⟩ := hp
    rw [e]
    simp only at hs ⊢
    rw [h.rcvd]
    split at hs
    · rename_i hb
      simp only [Option.some.injEq] at hs
      subst hs
      rw [if_pos hb]
      exact ⟨_, rfl, key (hk _), h.sent, rfl⟩
    · cases hs

theorem Net.Agree.step_back {bad : R → Prop} {buf : Buffering} {N N' A' : Net M R} {r : Int} (h : Net.Agree bad N N')
    (hN : N.Sound bad) (hs : N'.step buf r = some A') : ∃ A, N.step buf r = some A ∧ Net.Agree bad A A' := by
  have hr : ∃ A, N.step buf r = some A := by
    have hp := h.procs r
    unfold Net.step at hs ⊢
    cases hc : N.procs r with
    | ret x =>
      rw [hc] at hp
      rcases hp with hp | hp
      · exact absurd hp (hN r x hc)
      · rw [hp] at hs; cases hs
    | isend d t m k => exact ⟨_, rfl⟩
    | recv s t k =>
      rw [hc] at hp
      obtain ⟨k', e, -⟩ := hp
      rw [e] at hs
      simp only [h.sent, h.rcvd] at hs ⊢
      cases hm : (N.sent s r t)[N.rcvd s r t]? with
      | none => rw [hm] at hs; cases hs
      | some m => exact ⟨_, rfl⟩
    | await d t i k =>
      rw [hc] at hp
      obtain ⟨k', e, -⟩ := hp
      rw [e] at hs
      simp only [h.rcvd] at hs ⊢
      split at hs
      · rename_i hb; rw [if_pos hb]; exact ⟨_, rfl⟩
      · cases hs
  obtain ⟨A, hA⟩ := hr
  obtain ⟨B, hB, hAB⟩ := h.step hA
  rw [hs] at hB
  cases hB
  exact ⟨A, hA, hAB⟩

theorem Net.Agree.run {bad : R → Prop} {buf : Buffering} {N N' A : Net M R} {sched : List Int} (h : Net.Agree bad N N')
    (hs : N.run buf sched = some A) : ∃ A', N'.run buf sched = some A' ∧ Net.Agree bad A A' := by
  induction sched generalizing N N' with
  | nil => cases hs; exact ⟨N', rfl, h⟩
  | cons r rs ih =>
    simp only [Net.run] at hs ⊢
    cases hb : N.step buf r with
    | none => rw [hb] at hs; cases hs
    | some B =>
      rw [hb] at hs
      obtain ⟨B', h1, h2⟩ := h.step hb
      rw [h1]
      exact ih h2 hs

theorem Net.run_ret {buf : Buffering} {N A : Net M R} {sched : List Int} {r : Int} {x : R} (hr : N.procs r = .ret x)
    (h : N.run buf sched = some A) : A.procs r = .ret x := by
  induction sched generalizing N with
  | nil => cases h; exact hr
  | cons r' rs ih =>
    simp only [Net.run] at h
    cases hb : N.step buf r' with
    | none => rw [hb] at h; cases h
    | some B =>
      rw [hb] at h
      refine ih ?_ h
      unfold Net.step at hb
      have hne : r ≠ r' := by
        rintro rfl
        rw [hr] at hb
        cases hb
      have key : ∀ p, updRank N.procs r' p r = .ret x := fun p => by
        unfold updRank
        rw [if_neg hne]
        exact hr
      cases hc : N.procs r' with
      | ret y => rw [hc] at hb; cases hb
      | isend d t m k => rw [hc] at hb; cases hb; exact key _
      | recv s t k =>
        rw [hc] at hb
        simp only at hb
        split at hb
        · cases hb
        · cases hb; exact key _
      | await d t i k =>
        rw [hc] at hb
        simp only at hb
        split at hb
        · cases hb; exact key _
        · cases hb

/-- If all ranks finish without failure, the programs that agree with theirs finish with the same results. -/
theorem Net.Completes.agree {bad : R → Prop} {buf : Buffering} {N N' : Net M R} {res : Int → R}
    (hc : N.Completes buf res) (hgood : ∀ r, ¬ bad (res r)) (h : Net.Agree bad N N') : N'.Completes buf res := by
  obtain ⟨T, n, hT, hall⟩ := hc
  have sound : ∀ sched A, N.run buf sched = some A → A.Sound bad := by
    intro sched A hA r x hx
    obtain ⟨sched', h1, -⟩ := hall sched A hA
    have := Net.run_ret hx h1
    rw [hT r] at this
    cases this
    exact hgood r
  have back : ∀ sched pre (A A' B' : Net M R), N.run buf pre = some A → Net.Agree bad A A' → A'.run buf sched = some B' →
      ∃ B, A.run buf sched = some B ∧ Net.Agree bad B B' := by
    intro sched
    induction sched with
    | nil => intro pre A A' B' _ ha hb; cases hb; exact ⟨A, rfl, ha⟩
    | cons r rs ih =>
      intro pre A A' B' hpre ha hb
      simp only [Net.run] at hb ⊢
      cases hs : A'.step buf r with
      | none => rw [hs] at hb; cases hb
      | some C' =>
        rw [hs] at hb
        obtain ⟨C, h1, h2⟩ := ha.step_back (sound pre A hpre) hs
        rw [h1]
        refine ih (pre ++ [r]) C C' B' ?_ h2 hb
        clear ih hb h2 hs ha
        revert hpre
        generalize N = X
        intro hpre
        induction pre generalizing X with
        | nil => cases hpre; simp only [List.nil_append, Net.run, h1]; rfl
        | cons r' pre ih =>
          simp only [Net.run, List.cons_append] at hpre ⊢
          cases hb : X.step buf r' with
          | none => rw [hb] at hpre; cases hpre
          | some Y => rw [hb] at hpre; exact ih Y hpre
  refine ⟨T, n, hT, fun sched B' hB' => ?_⟩
  obtain ⟨B, h1, h2⟩ := back sched [] N N' B' rfl h hB'
  obtain ⟨sched', h3, h4⟩ := hall sched B h1
  obtain ⟨T', h5, h6⟩ := h2.run h3
  refine ⟨sched', ?_, h4⟩
  rw [h5]
  congr 1
  have e : T'.procs = T.procs := by
    funext r
    have := h6.procs r
    rw [hT r] at this
    rcases this with h | h
    · exact absurd h (hgood r)
    · rw [h, hT r]
  cases T
  cases T'
  cases e
  cases h6.sent
  cases h6.rcvd
  rfl

end FV3
