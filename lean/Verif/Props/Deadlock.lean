import Verif.Props.Protocol
import Verif.Props.Net

/-!
# C23, limits: what the guarantees for outstanding updates do not extend to

C23 assumes that sends are buffered when the ranks wait in different orders, and that every request is
waited for once.  Neither can be left out.
-/

namespace FV3
variable {M R : Type}

/-- Every schedule ends, always after the same number of steps and in the same state, in which none of
the ranks `rs` is finished and none will ever make another step. -/
def Net.Deadlocks (buf : Buffering) (N : Net M R) (rs : List Int) : Prop :=
  ∃ (T : Net M R) (n : Nat), T.Stuck buf ∧ (∀ r ∈ rs, ∀ x, T.procs r ≠ .ret x) ∧
    ∀ sched A, N.run buf sched = some A →
      ∃ sched', A.run buf sched' = some T ∧ sched.length + sched'.length = n

/-- A schedule in which the first rank of `rs` that can make a step makes it. -/
def greedy (buf : Buffering) (rs : List Int) : Nat → Net M R → List Int
  | 0, _ => []
  | n + 1, N =>
    match rs.findSome? fun r => (N.step buf r).map fun N' => (r, N') with
    | none => []
    | some (r, N') => r :: greedy buf rs n N'

/-- No rank of `rs` can make a step after `sched`, and the ranks `bs` are not finished. -/
def blocksAfter (buf : Buffering) (rs bs : List Int) (sched : List Int) (N : Net M R) : Bool :=
  match N.run buf sched with
  | none => false
  | some A => (rs.all fun r => (A.step buf r).isNone) &&
      bs.all fun r => match A.procs r with
        | .ret _ => false
        | _ => true

/-- Other ranks than `r` do not change the program of `r`. -/
theorem Net.step_procs {buf : Buffering} {N A : Net M R} {r s : Int} (h : N.step buf s = some A) (hr : r ≠ s) :
    A.procs r = N.procs r := by
  unfold Net.step at h
  cases hp : N.procs s with
  | ret x => rw [hp] at h; cases h
  | isend d t m k =>
    rw [hp] at h
    cases h
    exact updRank_ne _ _ hr
  | recv src t k =>
    rw [hp] at h
    dsimp only at h
    split at h
    · cases h
    · cases h
      exact updRank_ne _ _ hr
  | await d t i k =>
    rw [hp] at h
    dsimp only at h
    split at h
    · cases h
      exact updRank_ne _ _ hr
    · cases h

theorem Net.run_finished {buf : Buffering} {N A : Net M R} {sched : List Int} (h : N.run buf sched = some A)
    {r : Int} {x : R} (hr : N.procs r = .ret x) : A.procs r = .ret x := by
  induction sched generalizing N with
  | nil => cases h; exact hr
  | cons s sched ih =>
    simp only [Net.run] at h
    cases hs : N.step buf s with
    | none => rw [hs] at h; cases h
    | some B =>
      rw [hs] at h
      refine ih h ?_
      rw [Net.step_procs hs ?_]
      · exact hr
      · rintro rfl
        unfold Net.step at hs
        rw [hr] at hs
        cases hs

theorem deadlocks_of {buf : Buffering} {N : Net M R} {rs bs sched : List Int}
    (h : blocksAfter buf rs bs sched N = true) (hout : ∀ r ∉ rs, ∃ x, N.procs r = .ret x) : N.Deadlocks buf bs := by
  unfold blocksAfter at h
  cases hr : N.run buf sched with
  | none => rw [hr] at h; cases h
  | some T =>
    rw [hr] at h
    simp only [Bool.and_eq_true, List.all_eq_true] at h
    have hstuck : T.Stuck buf := by
      intro r
      by_cases hm : r ∈ rs
      · have := h.1 r hm
        rwa [Option.isNone_iff_eq_none] at this
      · obtain ⟨x, hx⟩ := hout r hm
        unfold Net.step
        rw [Net.run_finished hr hx]
    refine ⟨T, sched.length, hstuck, ?_, fun s1 A hA => C21_schedule_independent buf N T sched hr hstuck s1 A hA⟩
    intro r hb x hx
    have := h.2 r hb
    rw [hx] at this
    cases this

theorem Net.Deadlocks.not_completes {buf : Buffering} {N : Net M R} {rs : List Int} (h : N.Deadlocks buf rs)
    (hne : rs ≠ []) (res : Int → R) : ¬ N.Completes buf res := by
  rintro ⟨T', n', h1, h2⟩
  obtain ⟨T, n, -, h4, h5⟩ := h
  obtain ⟨s', e, -⟩ := h5 [] N rfl
  obtain ⟨s'', e', -⟩ := h2 s' T e
  obtain ⟨r, rs, rfl⟩ := List.exists_cons_of_ne_nil hne
  obtain ⟨s3, e3, -⟩ := h2 [] N rfl
  obtain ⟨s4, e4, -⟩ := h5 s3 T' e3
  exact h4 r List.mem_cons_self _ (Net.run_finished e4 (h1 r))

theorem cubeNet_out {α : Type} [Neg α] {l : Layout} {prog : Int → List (Op α)} {mem : Int → Mem α} {r : Int}
    (hr : r ∉ allRanks l) : ∃ x, (cubeNet l prog mem).procs r = .ret x := by
  unfold cubeNet Net.start
  dsimp only
  rw [if_neg hr]
  exact ⟨_, rfl⟩

/-- Example scalars on six ranks, one for each tile. -/
def exOppMem : Int → Mem Int := exMixMem ⟨1, 1⟩ (fun _ _ => 0) (fun _ _ _ => 0)

/-- All ranks start two updates; rank 0 waits for the second one first, the others for the first one. -/
def exOpposite (r : Int) : List (Op Int) :=
  if r = 0 then [.halo 2 2, .halo 3 2, .wait 1, .wait 0] else [.halo 2 2, .halo 3 2, .wait 0, .wait 1]

theorem exOpp_ready (q : Nat) (hq : 2 ≤ q) : UpdateReady ⟨1, 1⟩ exOppMem (.halo q 2) :=
  ⟨0, 1, 3, by decide, by decide, exMix_scalar _ _ _ q hq⟩

/-- **C23** (limit): two halo updates of different quantities, started by all ranks in the same order and
waited for once by each rank.  If sends complete only when they are received, and rank 0 waits in another
order than the others, all six ranks block for ever, whatever the schedule.  (With buffered sends the same
programs finish: `C23_limit_only_buffering`.) -/
theorem C23_limit_rendezvous :
    (cubeNet ⟨1, 1⟩ exOpposite exOppMem).Deadlocks (fun _ _ _ _ => false) (allRanks ⟨1, 1⟩) :=
  deadlocks_of (rs := allRanks ⟨1, 1⟩)
    (sched := greedy (fun _ _ _ _ => false) (allRanks ⟨1, 1⟩) 200 (cubeNet ⟨1, 1⟩ exOpposite exOppMem))
    (by decide +kernel) (fun _ hr => cubeNet_out hr)

/-- The programs of `C23_limit_rendezvous` meet all hypotheses of C23 but the buffering. -/
theorem C23_limit_only_buffering :
    ∃ fin, Consistent ⟨1, 1⟩ exOpposite exOppMem fin ∧
      (cubeNet ⟨1, 1⟩ exOpposite exOppMem).Completes (fun _ _ _ _ => true) fun r => (.ok (), (fin r).toRank) := by
  refine C23_outstanding (starts := [.halo 2 2, .halo 3 2]) (by decide) rfl ?_ ?_ ?_ ?_ ?_ _ (fun _ _ _ _ _ _ => rfl)
  · intro op ho
    simp only [List.mem_cons, List.not_mem_nil, or_false] at ho
    rcases ho with rfl | rfl
    · exact exOpp_ready 2 (by decide)
    · exact exOpp_ready 3 (by decide)
  · intro r _; unfold exOpposite; split <;> rfl
  · intro r _ d i hd
    unfold exOpposite at hd ⊢
    split at hd <;> rename_i hr <;> simp only [if_pos hr, hr, if_false, if_true]
    all_goals
      match d with
      | 0 => simp at hd
      | 1 => simp at hd
      | 2 => simp at hd; subst hd; decide
      | 3 => simp at hd; subst hd; decide
      | d + 4 => simp at hd
  · intro r _; unfold exOpposite WaitsOnce; split <;> decide
  · intro r _ g hg; unfold exOpposite at hg; split at hg <;> simp at hg

/-- **C23** (limit): waiting twice for the same request blocks all ranks for ever, even if all sends are
buffered: the second wait receives again. -/
theorem C23_limit_wait_twice :
    (cubeNet ⟨1, 1⟩ (fun _ => [.halo 2 2, .wait 0, .wait 0]) exOppMem).Deadlocks (fun _ _ _ _ => true)
      (allRanks ⟨1, 1⟩) :=
  deadlocks_of (rs := allRanks ⟨1, 1⟩)
    (sched := greedy (fun _ _ _ _ => true) (allRanks ⟨1, 1⟩) 200
      (cubeNet ⟨1, 1⟩ (fun _ => [.halo 2 2, .wait 0, .wait 0]) exOppMem))
    (by decide +kernel) (fun _ hr => cubeNet_out hr)

/-! ### Different start orders -/

/-- All of `rs` are finished after `sched`, and `p` holds of their results. -/
def finishesAfter (buf : Buffering) (rs : List Int) (sched : List Int) (N : Net M R) (p : Int → R → Bool) : Bool :=
  match N.run buf sched with
  | none => false
  | some A => rs.all fun r => match A.procs r with
      | .ret x => p r x
      | _ => false

theorem completes_of {buf : Buffering} {N : Net M R} {rs sched : List Int} {p : Int → R → Bool}
    (h : finishesAfter buf rs sched N p = true) (hout : ∀ r ∉ rs, ∃ x, N.procs r = .ret x) :
    ∃ res, N.Completes buf res ∧ ∀ r ∈ rs, p r (res r) = true := by
  unfold finishesAfter at h
  cases hr : N.run buf sched with
  | none => rw [hr] at h; cases h
  | some T =>
    rw [hr] at h
    simp only [List.all_eq_true] at h
    have hall : ∀ r, ∃ x, T.procs r = .ret x ∧ (r ∈ rs → p r x = true) := by
      intro r
      by_cases hm : r ∈ rs
      · have := h r hm
        cases hp : T.procs r with
        | ret x => rw [hp] at this; exact ⟨x, rfl, fun _ => this⟩
        | isend d t m k => rw [hp] at this; cases this
        | recv s t k => rw [hp] at this; cases this
        | await d t i k => rw [hp] at this; cases this
      · obtain ⟨x, hx⟩ := hout r hm
        exact ⟨x, Net.run_finished hr hx, fun h => absurd h hm⟩
    choose res h1 h2 using hall
    refine ⟨res, ⟨T, sched.length, h1, fun s1 A hA => C21_schedule_independent buf N T sched hr ?_ s1 A hA⟩,
      fun r hm => h2 r hm⟩
    intro r
    unfold Net.step
    rw [h1 r]

/-- Scalars on six ranks: quantity `q` is `q` everywhere. -/
def exConst : Int → Mem Int := fun r q =>
  { exFieldQ ⟨1, 1⟩ (fun _ _ => 0) r with data := ⟨(exFieldQ ⟨1, 1⟩ (fun _ _ => (0 : Int)) r).data.shape, fun _ => q⟩ }

/-- Rank 0 updates quantity 3 and then 2, the others 2 and then 3. -/
def exStarts (r : Int) : List (Op Int) :=
  if r = 0 then [.halo 3 2, .wait 0, .halo 2 2, .wait 1] else [.halo 2 2, .wait 0, .halo 3 2, .wait 1]

/-- **C23** (limit): the ranks must start their updates in the same order.  Otherwise the messages of
different quantities are mixed up, without an error: quantity 2 is 2 everywhere on all ranks, and after the
halo updates it has a halo point with value 3 on rank 1. -/
theorem C23_limit_start_order :
    (∀ r q idx, (exConst r q).data.get idx = q) ∧
    ∃ res, (cubeNet ⟨1, 1⟩ exStarts exConst).Completes (fun _ _ _ _ => true) res ∧
      (∀ r ∈ allRanks ⟨1, 1⟩, (res r).1 = .ok ()) ∧
      ((res 1).2.mem 2).data.shape = (exConst 1 2).data.shape ∧
      ∃ idx, InB (exConst 1 2).data.shape idx ∧ ((res 1).2.mem 2).data.get idx = 3 := by
  refine ⟨fun _ _ _ => rfl, ?_⟩
  obtain ⟨res, h1, h2⟩ := completes_of (rs := allRanks ⟨1, 1⟩)
    (sched := greedy (fun _ _ _ _ => true) (allRanks ⟨1, 1⟩) 400 (cubeNet ⟨1, 1⟩ exStarts exConst))
    (N := cubeNet ⟨1, 1⟩ exStarts exConst) (buf := fun _ _ _ _ => true)
    (p := fun r x => (match x.1 with | .ok _ => true | .error _ => false) &&
      (r != 1 || ((x.2.mem 2).data.shape == (exConst 1 2).data.shape &&
        (x.2.mem 2).data.get [2, 1, 0] == 3)))
    (by decide +kernel) (fun _ hr => cubeNet_out hr)
  have h1' := h2 1 (by decide)
  simp only [bne_self_eq_false, Bool.false_or, Bool.and_eq_true, beq_iff_eq] at h1'
  refine ⟨res, h1, ?_, ?_, [2, 1, 0], ?_, ?_⟩
  · intro r hr
    have := h2 r hr
    simp only [Bool.and_eq_true] at this
    have := this.1
    cases h : (res r).1 with
    | ok u => rfl
    | error e => rw [h] at this; cases this
  · exact h1'.2.1
  · decide
  · exact h1'.2.2

/-- In particular none of these can be claimed to complete. -/
example (res : Int → Py Unit × RankState Int) :
    ¬ (cubeNet ⟨1, 1⟩ exOpposite exOppMem).Completes (fun _ _ _ _ => false) res :=
  C23_limit_rendezvous.not_completes (by decide) res

end FV3
