import Verif.Model.Net

/-!
# C21: the outcome of message passing does not depend on the schedule
-/

namespace FV3
variable {M R : Type}

theorem updRank_same {A : Type} (f : Int → A) (r : Int) (v : A) : updRank f r v r = v := by
  simp [updRank]

theorem updRank_ne {A : Type} (f : Int → A) {r s : Int} (v : A) (h : s ≠ r) :
    updRank f r v s = f s := by
  simp [updRank, h]

theorem updRank_comm {A : Type} (f : Int → A) {r s : Int} (v w : A) (h : r ≠ s) :
    updRank (updRank f r v) s w = updRank (updRank f s w) r v := by
  funext x
  unfold updRank
  by_cases h1 : x = r
  · subst h1; simp [h]
  · simp [h1]

theorem updCh_same {A : Type} (f : Int → Int → Tag → A) (s d : Int) (t : Tag) (v : A) :
    updCh f s d t v s d t = v := by
  simp [updCh]

theorem updCh_ne {A : Type} (f : Int → Int → Tag → A) {s d s' d' : Int} {t t' : Tag} (v : A)
    (h : ¬ (s' = s ∧ d' = d ∧ t' = t)) : updCh f s d t v s' d' t' = f s' d' t' := by
  simp only [updCh, h, if_false]

theorem updCh_comm {A : Type} (f : Int → Int → Tag → A) {s d s' d' : Int} {t t' : Tag} (v w : A)
    (h : ¬ (s' = s ∧ d' = d ∧ t' = t)) :
    updCh (updCh f s d t v) s' d' t' w = updCh (updCh f s' d' t' w) s d t v := by
  funext x y z
  unfold updCh
  by_cases h1 : x = s ∧ y = d ∧ z = t
  · by_cases h2 : x = s' ∧ y = d' ∧ z = t'
    · exfalso; apply h
      exact ⟨h2.1.symm.trans h1.1, h2.2.1.symm.trans h1.2.1, h2.2.2.symm.trans h1.2.2⟩
    · simp only [h1, h2, if_true, if_false]
      by_cases h3 : s = s' ∧ d = d' ∧ t = t'
      · exact absurd ⟨h3.1.symm, h3.2.1.symm, h3.2.2.symm⟩ h
      · simp only [h3, if_false]
  · simp only [h1, if_false]

theorem getElem?_append_some {A : Type} {l : List A} {i : Nat} {m : A} (h : l[i]? = some m)
    (e : List A) : (l ++ e)[i]? = some m := by
  have hl : i < l.length := by
    rcases Nat.lt_or_ge i l.length with h' | h'
    · exact h'
    · rw [List.getElem?_eq_none h'] at h; exact absurd h (by simp)
  rw [List.getElem?_append_left hl]; exact h

theorem joinR {A : Type} {x y : Option A} {c : A} (hy : y = some c) (hx : x = some c) :
    ∃ C, x = some C ∧ y = some C := ⟨c, hx, hy⟩

theorem joinL {A : Type} {x y : Option A} {c : A} (hx : x = some c) (hy : y = some c) :
    ∃ C, x = some C ∧ y = some C := ⟨c, hx, hy⟩

/-- Steps of different ranks commute. -/
theorem Net.diamond (buf : Buffering) {N A B : Net M R} {r s : Int} (hrs : r ≠ s)
    (hA : N.step buf r = some A) (hB : N.step buf s = some B) :
    ∃ C, A.step buf s = some C ∧ B.step buf r = some C := by
  have hsr : s ≠ r := Ne.symm hrs
  unfold Net.step at hA hB
  cases hr : N.procs r with
  | ret x => rw [hr] at hA; exact absurd hA (by simp)
  | isend d t m k =>
    rw [hr] at hA
    simp only [Option.some.injEq] at hA
    subst hA
    cases hs : N.procs s with
    | ret x => rw [hs] at hB; exact absurd hB (by simp)
    | isend d' t' m' k' =>
      rw [hs] at hB
      simp only [Option.some.injEq] at hB
      subst hB
      apply joinR
      · simp only [Net.step, updRank_ne _ _ hrs, hr]; rfl
      · simp only [Net.step, updRank_ne _ _ hsr, hs]
        rw [updCh_ne _ _ (fun h => hsr h.1), updCh_ne _ _ (fun h => hrs h.1),
          updRank_comm _ _ _ hrs, updCh_comm _ _ _ (fun h => hsr h.1)]
    | recv s' t' k' =>
      rw [hs] at hB
      simp only at hB
      split at hB
      · exact absurd hB (by simp)
      · rename_i m' hm
        simp only [Option.some.injEq] at hB
        subst hB
        apply joinR
        · simp only [Net.step, updRank_ne _ _ hrs, hr]; rfl
        · simp only [Net.step, updRank_ne _ _ hsr, hs]
          have : (updCh N.sent r d t (N.sent r d t ++ [m]) s' s t')[N.rcvd s' s t']? = some m' := by
            by_cases hc : s' = r ∧ s = d ∧ t' = t
            · obtain ⟨rfl, rfl, rfl⟩ := hc
              rw [updCh_same]; exact getElem?_append_some hm _
            · rw [updCh_ne _ _ hc]; exact hm
          rw [this]
          simp only [updRank_comm _ _ _ hrs]
    | await d' t' i' k' =>
      rw [hs] at hB
      simp only at hB
      split at hB
      · rename_i hc
        simp only [Option.some.injEq] at hB
        subst hB
        apply joinR
        · simp only [Net.step, updRank_ne _ _ hrs, hr]; rfl
        · simp only [Net.step, updRank_ne _ _ hsr, hs, hc, if_true]
          rw [updRank_comm _ _ _ hrs]
      · exact absurd hB (by simp)
  | recv s0 t k =>
    rw [hr] at hA
    simp only at hA
    split at hA
    · exact absurd hA (by simp)
    · rename_i m hm
      simp only [Option.some.injEq] at hA
      subst hA
      cases hs : N.procs s with
      | ret x => rw [hs] at hB; exact absurd hB (by simp)
      | isend d' t' m' k' =>
        rw [hs] at hB
        simp only [Option.some.injEq] at hB
        subst hB
        apply joinL
        · simp only [Net.step, updRank_ne _ _ hsr, hs]; rfl
        · simp only [Net.step, updRank_ne _ _ hrs, hr]
          have : (updCh N.sent s d' t' (N.sent s d' t' ++ [m']) s0 r t)[N.rcvd s0 r t]? = some m := by
            by_cases hc : s0 = s ∧ r = d' ∧ t = t'
            · obtain ⟨rfl, rfl, rfl⟩ := hc
              rw [updCh_same]; exact getElem?_append_some hm _
            · rw [updCh_ne _ _ hc]; exact hm
          rw [this]
          simp only [updRank_comm _ _ _ hrs]
      | recv s' t' k' =>
        rw [hs] at hB
        simp only at hB
        split at hB
        · exact absurd hB (by simp)
        · rename_i m' hm'
          simp only [Option.some.injEq] at hB
          subst hB
          apply joinR
          · simp only [Net.step, updRank_ne _ _ hrs, hr]
            rw [updCh_ne _ _ (fun h => hrs h.2.1), hm]
          · simp only [Net.step, updRank_ne _ _ hsr, hs]
            rw [updCh_ne _ _ (fun h => hsr h.2.1), hm']
            simp only [updRank_comm _ _ _ hrs, updCh_comm _ _ _ (fun h => hsr h.2.1)]
      | await d' t' i' k' =>
        rw [hs] at hB
        simp only at hB
        split at hB
        · rename_i hc
          simp only [Option.some.injEq] at hB
          subst hB
          apply joinR
          · simp only [Net.step, updRank_ne _ _ hrs, hr, hm]; rfl
          · simp only [Net.step, updRank_ne _ _ hsr, hs]
            have : buf s d' t' i' = true ∨ i' < updCh N.rcvd s0 r t (N.rcvd s0 r t + 1) s d' t' := by
              rcases hc with hc | hc
              · exact Or.inl hc
              · right
                by_cases he : s = s0 ∧ d' = r ∧ t' = t
                · obtain ⟨rfl, rfl, rfl⟩ := he
                  rw [updCh_same]; omega
                · rw [updCh_ne _ _ he]; exact hc
            rw [if_pos this]
            simp only [updRank_comm _ _ _ hrs]
        · exact absurd hB (by simp)
  | await d t i k =>
    rw [hr] at hA
    simp only at hA
    split at hA
    · rename_i hc
      simp only [Option.some.injEq] at hA
      subst hA
      cases hs : N.procs s with
      | ret x => rw [hs] at hB; exact absurd hB (by simp)
      | isend d' t' m' k' =>
        rw [hs] at hB
        simp only [Option.some.injEq] at hB
        subst hB
        apply joinL
        · simp only [Net.step, updRank_ne _ _ hsr, hs]; rfl
        · simp only [Net.step, updRank_ne _ _ hrs, hr, hc, if_true]
          rw [updRank_comm _ _ _ hrs]
      | recv s' t' k' =>
        rw [hs] at hB
        simp only at hB
        split at hB
        · exact absurd hB (by simp)
        · rename_i m' hm'
          simp only [Option.some.injEq] at hB
          subst hB
          apply joinL
          · simp only [Net.step, updRank_ne _ _ hsr, hs, hm']; rfl
          · simp only [Net.step, updRank_ne _ _ hrs, hr]
            have : buf r d t i = true ∨ i < updCh N.rcvd s' s t' (N.rcvd s' s t' + 1) r d t := by
              rcases hc with hc | hc
              · exact Or.inl hc
              · right
                by_cases he : r = s' ∧ d = s ∧ t = t'
                · obtain ⟨rfl, rfl, rfl⟩ := he
                  rw [updCh_same]; omega
                · rw [updCh_ne _ _ he]; exact hc
            rw [if_pos this]
            simp only [updRank_comm _ _ _ hrs]
      | await d' t' i' k' =>
        rw [hs] at hB
        simp only at hB
        split at hB
        · rename_i hc'
          simp only [Option.some.injEq] at hB
          subst hB
          apply joinR
          · simp only [Net.step, updRank_ne _ _ hrs, hr, hc, if_true]; rfl
          · simp only [Net.step, updRank_ne _ _ hsr, hs, hc', if_true]
            rw [updRank_comm _ _ _ hrs]
        · exact absurd hB (by simp)
    · exact absurd hA (by simp)

theorem Net.run_append (buf : Buffering) (s s' : List Int) (N : Net M R) :
    N.run buf (s ++ s') = (N.run buf s).bind (Net.run buf s') := by
  induction s generalizing N with
  | nil => rfl
  | cons r s ih =>
    simp only [List.cons_append, Net.run]
    cases N.step buf r with
    | none => rfl
    | some A => simp only [Option.bind_some, ih]

/-- A step possible now can be moved to the front of a schedule that ends stuck. -/
theorem Net.run_pull (buf : Buffering) {N A T : Net M R} {r : Int} {s : List Int}
    (hA : N.step buf r = some A) (hs : N.run buf s = some T) (hT : T.Stuck buf) :
    ∃ s', A.run buf s' = some T ∧ s'.length + 1 = s.length := by
  induction s generalizing N A with
  | nil =>
    simp only [Net.run, Option.some.injEq] at hs
    subst hs
    rw [hT r] at hA; exact absurd hA (by simp)
  | cons q s ih =>
    simp only [Net.run] at hs
    cases hq : N.step buf q with
    | none => rw [hq] at hs; exact absurd hs (by simp)
    | some B =>
      rw [hq] at hs
      simp only [Option.bind_some] at hs
      by_cases hrq : r = q
      · subst hrq
        rw [hq] at hA
        simp only [Option.some.injEq] at hA
        subst hA
        exact ⟨s, hs, by simp⟩
      · obtain ⟨C, h1, h2⟩ := Net.diamond buf hrq hA hq
        obtain ⟨s', h3, h4⟩ := ih h2 hs
        exact ⟨q :: s', by simp [Net.run, h1, h3], by simp only [List.length_cons]; omega⟩

/-- **C21**: suppose some schedule brings the ranks to a state in which no rank can make
another step (all finished, or some blocked for ever).  Then every schedule whatsoever can
be continued to that same state, in the same total number of steps.  In particular no
schedule runs for ever, all complete schedules end in the same state (results of all ranks
and contents of all channels), and if one schedule finishes all ranks none can deadlock.
This holds for all programs and every choice of which sends are buffered. -/
theorem C21_schedule_independent (buf : Buffering) (N T : Net M R) (s : List Int)
    (hs : N.run buf s = some T) (hT : T.Stuck buf) (s1 : List Int) (A : Net M R)
    (hA : N.run buf s1 = some A) :
    ∃ s2, A.run buf s2 = some T ∧ s1.length + s2.length = s.length := by
  induction s1 generalizing N s with
  | nil =>
    simp only [Net.run, Option.some.injEq] at hA
    subst hA
    exact ⟨s, hs, by simp⟩
  | cons r s1 ih =>
    simp only [Net.run] at hA
    cases hr : N.step buf r with
    | none => rw [hr] at hA; exact absurd hA (by simp)
    | some B =>
      rw [hr] at hA
      simp only [Option.bind_some] at hA
      obtain ⟨s', h1, h2⟩ := Net.run_pull buf hr hs hT
      obtain ⟨s2, h3, h4⟩ := ih B s' h1 hA
      exact ⟨s2, h3, by simp only [List.length_cons]; omega⟩

/-- **C21**, corollary: two schedules that cannot be continued end in the same state. -/
theorem C21_unique_outcome (buf : Buffering) (N T T' : Net M R) (s s' : List Int)
    (hs : N.run buf s = some T) (hT : T.Stuck buf) (hs' : N.run buf s' = some T')
    (hT' : T'.Stuck buf) : T' = T ∧ s'.length = s.length := by
  obtain ⟨s2, h1, h2⟩ := C21_schedule_independent buf N T s hs hT s' T' hs'
  cases s2 with
  | nil => simp only [Net.run, Option.some.injEq] at h1; exact ⟨h1, by simpa using h2⟩
  | cons r s2 => simp only [Net.run, hT' r, Option.bind_none] at h1; exact absurd h1 (by simp)

/-- **C21**: a schedule that finishes every rank excludes deadlock: whenever no rank can
move, every rank is finished, with the same result. -/
theorem C21_no_deadlock (buf : Buffering) (N T : Net M R) (res : Int → R) (s : List Int)
    (hs : N.run buf s = some T) (hres : ∀ r, T.procs r = .ret (res r)) (s' : List Int)
    (T' : Net M R) (hs' : N.run buf s' = some T') (hT' : T'.Stuck buf) :
    ∀ r, T'.procs r = .ret (res r) := by
  have hT : T.Stuck buf := fun r => by simp [Net.step, hres r]
  obtain ⟨rfl, -⟩ := C21_unique_outcome buf N T T' s s' hs hT hs' hT'
  exact hres

/-! Two ranks exchange a number and finish with what they received; rank 1 does not wait
for its send. -/

def exProcs : Int → Proc Nat Nat := fun r =>
  if r = 0 then .isend 1 (.halo 1) 10 fun h => .recv 1 (.halo 1) fun m => .await 1 (.halo 1) h
    fun _ => .ret m
  else if r = 1 then .isend 0 (.halo 1) 20 fun _ => .recv 0 (.halo 1) fun m => .ret m
  else .ret 0

def exNet : Net Nat Nat := ⟨exProcs, fun _ _ _ => [], fun _ _ _ => 0⟩

/-- The hypotheses of the theorems are met, with rendezvous sends. -/
example : ∃ T, exNet.run (fun _ _ _ _ => false) [0, 1, 0, 1, 0] = some T ∧
    T.Stuck (fun _ _ _ _ => false) ∧ T.procs 0 = .ret 20 ∧ T.procs 1 = .ret 10 := by
  refine ⟨_, rfl, ?_, rfl, rfl⟩
  intro r
  by_cases h0 : r = 0
  · subst h0; rfl
  · by_cases h1 : r = 1
    · subst h1; rfl
    · simp [Net.step, exNet, exProcs, updRank, h0, h1]

/-- In rendezvous mode a rank cannot complete a send nobody receives. -/
example : (exNet.run (fun _ _ _ _ => false) [0, 1, 0, 0]).isNone = true ∧
    (exNet.run (fun _ _ _ _ => true) [0, 1, 0, 0]).isSome = true := by decide

end FV3
