import Verif.Proofs.Guarded
import Verif.Props.StateSession
import Verif.Props.Errors
import Verif.Props.Deadlock

/-!
# C66: rejected halo updates harm nothing
-/

namespace FV3
variable {α : Type} [Neg α]

/-- **C66**: a model code, the same on all ranks, that makes halo updates (and vector halo updates and synchronisations)
in `try` statements, among any other calls of the communicator.  The attempts are valid, or are rejected for their
arguments.  Then the program ends on all ranks, whatever the schedule and the buffering of MPI; each attempt has the same
outcome on all ranks: the exception due, or none; and the effect is that of the program without the rejected attempts:
the messages which these may have sent are never taken for those of later calls. -/
theorem C66_guarded {l : Layout} (hl : FloatSafe l) (hsq : l.y = l.x) (buf : Buffering) (junk : Nat → List Nat → α)
    (mem : Int → Mem α) (glob : Int → Nat → Option (Quantity α)) (time gtime : Int → Nat → Option Int)
    (parts : Nat → Parts) (filled : List Nat)
    (hglob : ∀ g v, glob 0 g = some v → v.GlobalShaped (.cube l) (parts g).dims (parts g).cells)
    (hfilled : ∀ g ∈ filled, ∃ v, glob 0 g = some v)
    (ops : List (GOp α)) (outs : List (Option PyErr)) (hops : GuardedValid l mem parts filled ops outs) :
    ∃ fin : Int → SessState α,
      (guardedNet l junk ops mem glob time gtime).Completes buf (fun r =>
        if r ∈ allRanks l then some (.ok (outs, fin r)) else none) ∧
      StatesRun l parts (accepted ops outs) ⟨mem, glob 0, time, gtime 0⟩
        ⟨fun r => (fin r).s.mem, (fin 0).s.glob, fun r => (fin r).time, (fin 0).gtime⟩ ∧
      ∀ r ∈ allRanks l, MetaIs mem r (fin r).s.mem :=
  guarded_from (k := 0) (n := 0) (s := fun r => ⟨⟨mem r, glob r, 0, 0⟩, time r, gtime r⟩) hl hsq buf junk
    ⟨fun _ _ _ => SameMeta.refl _, fun _ _ => rfl, fun _ _ => rfl, hglob, hfilled⟩ hops
    ⟨fun _ _ _ _ => rfl, fun _ _ _ _ => rfl⟩

theorem callStep_unique {l : Layout} {c : Call α} {m m1 m2 : Int → Mem α} (h1 : CallStep l c m m1)
    (h2 : CallStep l c m m2) : ∀ r ∈ allRanks l, m1 r = m2 r := by
  have key : ∀ op : Op α, UpdateStep l op m m1 → UpdateStep l op m m2 → ∀ r ∈ allRanks l, m1 r = m2 r := by
    intro op h1 h2 r hr
    obtain ⟨-, i, a1, a2⟩ := h1 r hr
    obtain ⟨-, j, b1, b2⟩ := h2 r hr
    rw [a1] at b1
    cases b1
    rw [a2] at b2
    exact Except.ok.inj b2
  cases c with
  | haloUpdate q n => exact key _ h1 h2
  | vectorHaloUpdate x y n => exact key _ h1 h2
  | synchronize x y => exact key _ h1 h2
  | compute f =>
    intro r hr
    rw [h1 r hr, h2 r hr]

/-- The calls of a list of attempts that were accepted. -/
def acceptedCalls (tries : List (Call α × Option PyErr)) : List (Call α) :=
  (tries.filter fun t => t.2.isNone).map Prod.fst

theorem statesRun_accepted {l : Layout} {parts : Nat → Parts} {tries : List (Call α × Option PyErr)} {S S' : Snap α}
    {m m' : Int → Mem α} (he : ∀ r ∈ allRanks l, m r = S.mem r)
    (h : StatesRun l parts (accepted (tries.map fun t => .attempt t.1) (tries.map Prod.snd)) S S')
    (h' : CallsRun l (acceptedCalls tries) m m') : ∀ r ∈ allRanks l, S'.mem r = m' r := by
  induction tries generalizing S m with
  | nil =>
    intro r hr
    rw [(h.1 r hr).1, h' r hr, he r hr]
  | cons t tries ih =>
    obtain ⟨c, _ | e⟩ := t
    · obtain ⟨S1, ⟨⟨h1, -⟩, -⟩, h2⟩ := h
      obtain ⟨m1, h3, h4⟩ := h'
      refine ih (fun r hr => ?_) h2 h4
      exact callStep_unique h3 (callStep_congr h1 (fun r hr => (he r hr).symm) fun _ _ => rfl) r hr
    · exact ih he h h'

/-- **C66**: halo updates only, each of them attempted: the outcomes are as expected, and all quantities of all ranks are
those of the program that makes the accepted calls only. -/
theorem C66_as_if_absent {l : Layout} (hl : FloatSafe l) (hsq : l.y = l.x) (buf : Buffering)
    (junk : Nat → List Nat → α) (mem : Int → Mem α) (tries : List (Call α × Option PyErr))
    (hok : ∀ c, (c, none) ∈ tries → (TOp.op (.call c)).Valid l mem (fun _ => ⟨[], []⟩) [])
    (hrej : ∀ c e, (c, some e) ∈ tries → Rejected l mem c e) :
    ∃ (fin : Int → SessState α) (m' : Int → Mem α),
      (guardedNet l junk (tries.map fun t => .attempt t.1) mem (fun _ _ => none) (fun _ _ => none)
        fun _ _ => none).Completes buf (fun r =>
          if r ∈ allRanks l then some (.ok (tries.map Prod.snd, fin r)) else none) ∧
      (callNet l (acceptedCalls tries) mem).Completes buf (fun r =>
        (.ok (), ⟨m' r, if r ∈ allRanks l then ((acceptedCalls tries).map Call.nTags).sum else 0, []⟩)) ∧
      ∀ r ∈ allRanks l, (fin r).s.mem = m' r := by
  have hv : GuardedValid l mem (fun _ => ⟨[], []⟩) [] (tries.map fun t => .attempt t.1) (tries.map Prod.snd) := by
    clear buf junk
    induction tries with
    | nil => rfl
    | cons t tries ih =>
      have ih := ih (fun c h => hok c (List.mem_cons_of_mem _ h)) fun c e h => hrej c e (List.mem_cons_of_mem _ h)
      obtain ⟨c, _ | e⟩ := t
      · exact ⟨hok c (List.mem_cons_self ..), ih⟩
      · exact ⟨hrej c e (List.mem_cons_self ..), ih⟩
  obtain ⟨fin, h1, h2, -⟩ := C66_guarded hl hsq buf junk mem (fun _ _ => none) (fun _ _ => none) (fun _ _ => none)
    (fun _ => ⟨[], []⟩) [] (fun _ _ h => by cases h) (fun _ h => by cases h) _ _ hv
  have hmem : ∀ c ∈ acceptedCalls tries, (c, none) ∈ tries := by
    intro c hc
    obtain ⟨⟨c', o⟩, h, rfl⟩ := List.mem_map.1 hc
    obtain ⟨h, ho⟩ := List.mem_filter.1 h
    cases o with
    | none => exact h
    | some e => cases ho
  obtain ⟨m', a1, -, a3⟩ := calls_bulk (l := l) (Good := MetaIs mem) (calls := acceptedCalls tries) (mem := mem) buf
    (fun _ _ _ => SameMeta.refl _)
    (fun c hc op ho => by
      have h := hok c (hmem c hc)
      have hr : UpdateReady l mem op := by
        cases c with
        | compute f => simp [Call.start] at ho
        | _ => exact h op ho
      exact ready_sound hl.xpos hsq (Call.start_isStart ho) hr)
    (fun f hf r hr m hm => hok _ (hmem _ hf) r hr m hm)
  exact ⟨fin, m', h1, a3, statesRun_accepted (fun _ _ => rfl) h2 a1⟩

/-! ### A concrete case -/

/-- On 24 ranks with `3 × 3` cells and one halo point: no halo points, two halo points, a synchronisation of quantities that
are not on the C grid, and two halo points for vectors are rejected; the calls between them work, and all values are as
without the rejected calls. -/
example (buf : Buffering) (z : α) (F : Int → Nat → List Nat → α) :
    ∃ (fin : Int → SessState α) (m' : Int → Mem α),
      (guardedNet ⟨2, 2⟩ (fun _ _ => z)
        [.attempt (.haloUpdate 0 0), .attempt (.haloUpdate 0 2), .attempt (.haloUpdate 0 1), .attempt (.synchronize 1 2),
          .attempt (.vectorHaloUpdate 1 2 2), .attempt (.haloUpdate 2 1)]
        (exAnyMem z F) (fun _ _ => none) (fun _ _ => none) fun _ _ => none).Completes buf
        (fun r => if r ∈ allRanks ⟨2, 2⟩ then some (.ok ([some .valueError, some .outOfBounds, none, some .valueError,
          some .outOfBounds, none], fin r)) else none) ∧
      (callNet ⟨2, 2⟩ [.haloUpdate 0 1, .haloUpdate 2 1] (exAnyMem z F)).Completes buf
        (fun r => (.ok (), ⟨m' r, if r ∈ allRanks ⟨2, 2⟩ then 2 else 0, []⟩)) ∧
      ∀ r ∈ allRanks ⟨2, 2⟩, (fin r).s.mem = m' r := by
  have s2 : FloatSafe ⟨2, 2⟩ := C05_safe_up_to_48 _ (by decide) (by decide) (by decide) (by decide)
  have hready : ∀ q r, r ∈ allRanks ⟨2, 2⟩ → HaloReady (exAnyMem z F r q) 0 1 3 1 := fun q r hr => by
    have h := (exSession_run z (fun _ _ => z) q).field.1 r hr
    exact ⟨⟨⟨rfl, rfl, rfl⟩, h.wf.2⟩, h.2, h.3, h.4, h.5, h.6⟩
  have hnot : ∀ q r, ¬ HaloFits (exAnyMem z F r q) 0 1 2 := fun q r h => by
    have : (2 : Int) ≤ 1 := h.1.1
    omega
  have hhalo : ∀ q, (TOp.op (.call (.haloUpdate q 1))).Valid ⟨2, 2⟩ (exAnyMem z F) (fun _ => ⟨[], []⟩) [] := by
    intro q op ho
    cases ho
    have R := (exSession_run z (fun _ _ => z) q).field
    exact ⟨0, 1, 3, by decide, by decide, hready q, R.2, R.3, R.4⟩
  refine C66_as_if_absent s2 rfl buf (fun _ _ => z) (exAnyMem z F)
    [(.haloUpdate 0 0, some .valueError), (.haloUpdate 0 2, some .outOfBounds), (.haloUpdate 0 1, none),
      (.synchronize 1 2, some .valueError), (.vectorHaloUpdate 1 2 2, some .outOfBounds), (.haloUpdate 2 1, none)] ?_ ?_
  · intro c hc
    simp only [List.mem_cons, Prod.mk.injEq, reduceCtorEq, and_false, and_true, List.not_mem_nil, or_false, false_or] at hc
    rcases hc with rfl | rfl
    · exact hhalo 0
    · exact hhalo 2
  · intro c e hc
    simp only [List.mem_cons, Prod.mk.injEq, reduceCtorEq, and_false, Option.some.injEq, List.not_mem_nil, or_false,
      false_or] at hc
    rcases hc with ⟨rfl, rfl⟩ | ⟨rfl, rfl⟩ | ⟨rfl, rfl⟩ | ⟨rfl, rfl⟩
    · exact .inl ⟨rfl, rfl⟩
    · exact .inr ⟨by decide, rfl, fun r hr => ⟨(hready 0 r hr).wf, 0, 1, (hready 0 r hr).axes, hnot 0 r⟩⟩
    · refine ⟨rfl, fun r hr h => ?_⟩
      have : Dim.yI ∈ [Dim.y, .x] := h.2.1
      simp at this
    · exact .inr ⟨by decide, rfl, fun r hr => ⟨(hready 1 r hr).wf, (hready 2 r hr).wf, rfl, 0, 1, (hready 1 r hr).axes,
        (hready 2 r hr).axes, fun h => hnot 1 r h.1⟩⟩

/-! ### Limit: a call that only some ranks reject -/

omit [Neg α] in
theorem guardedNet_out [Neg α] {l : Layout} {junk : Nat → List Nat → α} {ops : List (GOp α)} {mem : Int → Mem α}
    {glob : Int → Nat → Option (Quantity α)} {time gtime : Int → Nat → Option Int} {r : Int} (hr : r ∉ allRanks l) :
    ∃ x, (guardedNet l junk ops mem glob time gtime).procs r = .ret x := by
  unfold guardedNet Net.start
  dsimp only
  rw [if_neg hr]
  exact ⟨_, rfl⟩

/-- A quantity on six ranks; rank 0 has no room for halo points, the others have room for one. -/
def exSomeMem : Int → Mem Int := fun r _ =>
  if r = 0 then ⟨⟨[3, 3], fun _ => 7⟩, [.y, .x], "K", [0, 0], [3, 3]⟩
  else ⟨⟨[5, 5], fun _ => r⟩, [.y, .x], "K", [1, 1], [3, 3]⟩

/-- The halo update is attempted. -/
def exSomeNet : Net (Msg Int) (Option (Py (List (Option PyErr) × SessState Int))) :=
  guardedNet ⟨1, 1⟩ (fun _ _ => 0) [.attempt (.haloUpdate 0 1)] exSomeMem (fun _ _ => none) (fun _ _ => none) fun _ _ => none

/-- **C66** (limit): if a halo update is rejected on one rank only and sends complete when they are received, the four
neighbours of that rank block for ever, whatever the schedule, although the exception was caught. -/
theorem C66_limit_some_ranks : exSomeNet.Deadlocks (fun _ _ _ _ => false) [1, 2, 4, 5] :=
  deadlocks_of (rs := allRanks ⟨1, 1⟩) (sched := greedy (fun _ _ _ _ => false) (allRanks ⟨1, 1⟩) 200 exSomeNet)
    (by decide +kernel) (fun _ hr => guardedNet_out hr)

end FV3
