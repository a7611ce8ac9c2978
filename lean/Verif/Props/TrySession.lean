import Verif.Proofs.TrySession
import Verif.Props.FullSession
import Verif.Props.Guarded
import Verif.Props.OneProcess

/-!
# C78: complete sessions with rejected starts
-/

namespace FV3
variable {α : Type}

/-- What happens with sends that complete when they are received can happen with any buffering. -/
theorem Net.run_buffered {M R : Type} (buf : Buffering) {sched : List Int} {N T : Net M R}
    (h : N.run (fun _ _ _ _ => false) sched = some T) : N.run buf sched = some T := by
  induction sched generalizing N with
  | nil => exact h
  | cons r sched ih =>
    unfold Net.run at h ⊢
    cases h1 : N.step (fun _ _ _ _ => false) r with
    | none => rw [h1] at h; cases h
    | some N1 =>
      rw [h1] at h
      have : N.step buf r = some N1 := by
        unfold Net.step at h1 ⊢
        generalize N.procs r = p at h1 ⊢
        cases p with
        | await d t i k =>
          dsimp only at h1 ⊢
          split at h1
          · next hc =>
            rw [if_pos (.inr (hc.resolve_left (by simp)))]
            exact h1
          · cases h1
        | _ => exact h1
      rw [this]
      exact ih h

theorem Net.Completes.buffered {M R : Type} {N : Net M R} {res : Int → R} (h : N.Completes (fun _ _ _ _ => false) res)
    (buf : Buffering) : N.Completes buf res := by
  obtain ⟨sched, T, h1, h2⟩ := h.run
  exact Net.completes_of_run (Net.run_buffered buf h1) h2

variable [Neg α]

theorem try_both {l : Layout} (hl : FloatSafe l) (hsq : l.y = l.x) (buf : Buffering) (junk tjunk : Nat → List Nat → α)
    (mem : Int → Mem α) (glob : Int → Nat → Option (Quantity α)) (time gtime : Int → Nat → Option Int)
    (tglob : Int → Nat → Option (Quantity α)) (tgtime : Int → Nat → Option Int)
    (parts : Nat → Parts) (tparts : Int → Nat → Parts) (filled : List Nat) (tfilled : Int → List Nat)
    (hglob : ∀ g v, glob 0 g = some v → v.GlobalShaped (.cube l) (parts g).dims (parts g).cells)
    (hfilled : ∀ g ∈ filled, ∃ v, glob 0 g = some v)
    (htglob : ∀ t, 0 ≤ t → t < 6 → ∀ g v, tglob (t * l.tileRanks) g = some v →
      v.GlobalShaped (.tile l) (tparts t g).dims (tparts t g).cells)
    (htfilled : ∀ t, 0 ≤ t → t < 6 → ∀ g ∈ tfilled t, ∃ v, tglob (t * l.tileRanks) g = some v)
    (ops : List (TryOp α)) (outs : List (Option PyErr)) (hdue : OutcomesDue l mem ops outs)
    (hops : FullValid l mem parts tparts filled tfilled (kept ops outs)) :
    ∃ (fin fin0 : Int → FState α) (d' : Nat) (started : Pending α),
      (tryNet l junk tjunk ops mem glob time gtime tglob tgtime).Completes buf (fun r =>
        if r ∈ allRanks l then some (.ok (outs, fin r)) else none) ∧
      FullRun l parts tparts (kept ops outs) (.new l mem glob time gtime tglob tgtime) (.ofStates l fin started) ∧
      (∀ r ∈ allRanks l, MetaIs mem r (fin r).comm.mem) ∧
      (fullNet l junk tjunk (kept ops outs) mem glob time gtime tglob tgtime).Completes
        (fun a b t i => buf a b (haloMap (tagMap ops outs 0 0) t) i)
        (fun r => if r ∈ allRanks l then some (.ok (fin0 r)) else none) ∧
      ∀ r, fin r = (fin0 r).retag (tagMap ops outs 0 0) d' := by
  refine try_from (hist := []) (done := []) (fin := fun r => ⟨mem r, 0, []⟩) (pend := []) (n := 0) (tn := fun _ => 0)
    (kt := none) (s := fun r => .new (mem r) (glob r) (time r) (gtime r) (tglob r) (tgtime r)) (cur := 0) (d := 0)
    hl hsq buf junk tjunk (tagMap_injective ops outs 0 0)
    ⟨⟨fun r => ⟨fun _ => rfl, fun _ => rfl⟩, fun _ _ _ => SameMeta.refl _, [], _, rfl, fun r => ?_, fun _ _ _ _ => rfl,
        fun _ _ _ _ => rfl⟩, fun r _ => ⟨rfl, fun k o m0 h => ?_⟩, fun _ _ => rfl,
      ⟨⟨fun _ _ _ => SameMeta.refl _, fun _ _ => rfl, fun _ _ => rfl, hglob, hfilled⟩,
        fun t t0 t6 => ⟨fun _ _ _ => SameMeta.refl _, fun _ _ => rfl,
          by simpa only [TileState.view, FState.lazy, FState.new, Int.add_zero] using htglob t t0 t6,
          by simpa only [TileState.view, FState.lazy, FState.new, Int.add_zero] using htfilled t t0 t6⟩⟩,
      fun _ _ => rfl, ⟨fun _ _ _ _ => rfl, fun _ _ _ _ => rfl⟩⟩
    ⟨fun _ h => absurd h (List.not_mem_nil), fun d i h => by simp at h, fun _ h => absurd h (List.not_mem_nil), rfl,
      rfl⟩ (fun _ _ => rfl) ⟨fun k hk => ?_, fun _ _ => rfl⟩ (fun _ _ _ => rfl) (fun _ _ _ => rfl) hdue hops.calls
    hops.started hops.once (.inr ⟨rfl, hops.first⟩)
  · show (if r ∈ allRanks l then _ else _) = _
    split <;> rfl
  · simp at h
  · rw [tagMap_old ops outs hk]
    exact Nat.add_le_add_right hk 0

/-- **C78**: a program, the same on all ranks, that calls one cubed-sphere communicator and its tile communicators in any
way (as in C75: updates may be outstanding during any other calls), and starts some of the updates in `try` statements.
The starts are valid, or are rejected for their arguments.  Then the program ends on all ranks, whatever the schedule and
the buffering of MPI; each attempt has the same outcome on all ranks: the exception due, or none; and the effect is that
of the program without the rejected starts, performed one call after the other on all ranks: no `wait`, of an update
started before or after a rejected start, receives a message which that one had sent. -/
theorem C78_try {l : Layout} (hl : FloatSafe l) (hsq : l.y = l.x) (buf : Buffering) (junk tjunk : Nat → List Nat → α)
    (mem : Int → Mem α) (glob : Int → Nat → Option (Quantity α)) (time gtime : Int → Nat → Option Int)
    (tglob : Int → Nat → Option (Quantity α)) (tgtime : Int → Nat → Option Int)
    (parts : Nat → Parts) (tparts : Int → Nat → Parts) (filled : List Nat) (tfilled : Int → List Nat)
    (hglob : ∀ g v, glob 0 g = some v → v.GlobalShaped (.cube l) (parts g).dims (parts g).cells)
    (hfilled : ∀ g ∈ filled, ∃ v, glob 0 g = some v)
    (htglob : ∀ t, 0 ≤ t → t < 6 → ∀ g v, tglob (t * l.tileRanks) g = some v →
      v.GlobalShaped (.tile l) (tparts t g).dims (tparts t g).cells)
    (htfilled : ∀ t, 0 ≤ t → t < 6 → ∀ g ∈ tfilled t, ∃ v, tglob (t * l.tileRanks) g = some v)
    (ops : List (TryOp α)) (outs : List (Option PyErr)) (hdue : OutcomesDue l mem ops outs)
    (hops : FullValid l mem parts tparts filled tfilled (kept ops outs)) :
    ∃ (fin : Int → FState α) (started : Pending α),
      (tryNet l junk tjunk ops mem glob time gtime tglob tgtime).Completes buf (fun r =>
        if r ∈ allRanks l then some (.ok (outs, fin r)) else none) ∧
      FullRun l parts tparts (kept ops outs) (.new l mem glob time gtime tglob tgtime) (.ofStates l fin started) ∧
      ∀ r ∈ allRanks l, MetaIs mem r (fin r).comm.mem := by
  obtain ⟨fin, -, -, started, h1, h2, h3, -⟩ := try_both hl hsq buf junk tjunk mem glob time gtime tglob tgtime parts tparts
    filled tfilled hglob hfilled htglob htfilled ops outs hdue hops
  exact ⟨fin, started, h1, h2, h3⟩

/-- **C78**: compared with the program that makes the accepted calls only, the outcome on all ranks is the same, whatever
the schedule and the buffering of MPI: all quantities, gathered quantities and times; only the tags differ, of requests
and of `_last_halo_tag`. -/
theorem C78_same {l : Layout} (hl : FloatSafe l) (hsq : l.y = l.x) (junk tjunk : Nat → List Nat → α)
    (mem : Int → Mem α) (glob : Int → Nat → Option (Quantity α)) (time gtime : Int → Nat → Option Int)
    (tglob : Int → Nat → Option (Quantity α)) (tgtime : Int → Nat → Option Int)
    (parts : Nat → Parts) (tparts : Int → Nat → Parts) (filled : List Nat) (tfilled : Int → List Nat)
    (hglob : ∀ g v, glob 0 g = some v → v.GlobalShaped (.cube l) (parts g).dims (parts g).cells)
    (hfilled : ∀ g ∈ filled, ∃ v, glob 0 g = some v)
    (htglob : ∀ t, 0 ≤ t → t < 6 → ∀ g v, tglob (t * l.tileRanks) g = some v →
      v.GlobalShaped (.tile l) (tparts t g).dims (tparts t g).cells)
    (htfilled : ∀ t, 0 ≤ t → t < 6 → ∀ g ∈ tfilled t, ∃ v, tglob (t * l.tileRanks) g = some v)
    (ops : List (TryOp α)) (outs : List (Option PyErr)) (hdue : OutcomesDue l mem ops outs)
    (hops : FullValid l mem parts tparts filled tfilled (kept ops outs)) :
    ∃ fin fin0 : Int → FState α,
      (∀ buf, (tryNet l junk tjunk ops mem glob time gtime tglob tgtime).Completes buf (fun r =>
        if r ∈ allRanks l then some (.ok (outs, fin r)) else none)) ∧
      (∀ buf, (fullNet l junk tjunk (kept ops outs) mem glob time gtime tglob tgtime).Completes buf (fun r =>
        if r ∈ allRanks l then some (.ok (fin0 r)) else none)) ∧
      ∀ r ∈ allRanks l, fin r = { fin0 r with comm := ⟨(fin0 r).comm.mem, (fin r).comm.lastTag, (fin r).comm.reqs⟩ } ∧
        (fin r).comm.reqs.length = (fin0 r).comm.reqs.length := by
  obtain ⟨fin, fin0, d, -, h1, -, -, h2, h3⟩ := try_both hl hsq (fun _ _ _ _ => false) junk tjunk mem glob time gtime tglob
    tgtime parts tparts filled tfilled hglob hfilled htglob htfilled ops outs hdue hops
  refine ⟨fin, fin0, h1.buffered, h2.buffered, fun r _ => ?_⟩
  rw [h3 r]
  exact ⟨rfl, List.length_map _⟩

/-- **C78**: a halo update of which the start is accepted, in a program where starts before it, and between it and its
wait, are rejected: after the wait the halo holds the values which the owners of the points had at the start, and
everything else is as it was just before the wait. -/
theorem C78_outstanding_halo {l : Layout} (hl : FloatSafe l) (hsq : l.y = l.x) (buf : Buffering) (junk tjunk : Nat → List Nat → α)
    (mem : Int → Mem α) (glob : Int → Nat → Option (Quantity α)) (time gtime : Int → Nat → Option Int)
    (tglob : Int → Nat → Option (Quantity α)) (tgtime : Int → Nat → Option Int)
    (parts : Nat → Parts) (tparts : Int → Nat → Parts) (filled : List Nat) (tfilled : Int → List Nat)
    (hglob : ∀ g v, glob 0 g = some v → v.GlobalShaped (.cube l) (parts g).dims (parts g).cells)
    (hfilled : ∀ g ∈ filled, ∃ v, glob 0 g = some v)
    (htglob : ∀ t, 0 ≤ t → t < 6 → ∀ g v, tglob (t * l.tileRanks) g = some v →
      v.GlobalShaped (.tile l) (tparts t g).dims (tparts t g).cells)
    (htfilled : ∀ t, 0 ≤ t → t < 6 → ∀ g ∈ tfilled t, ∃ v, tglob (t * l.tileRanks) g = some v)
    (ops : List (TryOp α)) (outs : List (Option PyErr)) (hdue : OutcomesDue l mem ops outs)
    (hops : FullValid l mem parts tparts filled tfilled (kept ops outs))
    (before between : List (FOp α)) {q ky kx : Nat} {n h : Int} (hh : 0 < h) (hn : h ≤ n) (S : ScalarField l mem q ky kx n h)
    (hk : kept ops outs = before ++ .op (.halo q h) :: between ++ [.op (.wait (fullStarts before))]) :
    ∃ (fin : Int → FState α) (atStart beforeWait : FSnap α),
      (tryNet l junk tjunk ops mem glob time gtime tglob tgtime).Completes buf (fun r =>
        if r ∈ allRanks l then some (.ok (outs, fin r)) else none) ∧
      FullRun l parts tparts before (.new l mem glob time gtime tglob tgtime) atStart ∧
      FullRun l parts tparts (.op (.halo q h) :: between) atStart beforeWait ∧
      HaloFilled l q ky kx n h atStart.data.cube.mem (fun r => (fin r).comm.mem) ∧
      OnlyHaloChanged l q ky kx n h beforeWait.data.cube.mem (fun r => (fin r).comm.mem) := by
  obtain ⟨fin, fin0, h1, h2, h3⟩ := C78_same hl hsq junk tjunk mem glob time gtime tglob tgtime parts tparts filled tfilled
    hglob hfilled htglob htfilled ops outs hdue hops
  rw [hk] at h2 hops
  obtain ⟨fin1, w0, w1, k1, k2, k3, k4, k5⟩ := C75_outstanding_halo hl hsq buf junk tjunk mem glob time gtime tglob tgtime
    parts tparts filled tfilled hglob hfilled htglob htfilled before between hh hn S hops
  have e : ∀ r ∈ allRanks l, (fin r).comm.mem = (fin1 r).comm.mem := fun r hr => by
    have := congrFun ((h2 buf).unique k1) r
    simp only [if_pos hr, Option.some.injEq, Except.ok.injEq] at this
    rw [← this, (h3 r hr).1]
  refine ⟨fin, w0, w1, h1 buf, k2, k3, ?_, ?_⟩
  · intro r idx t a b hA hI hS
    obtain ⟨r', src, o, g⟩ := k4 r idx t a b hA hI hS
    exact ⟨r', src, o, (congrArg (fun m => (m q).data.get idx) (e r hA.rank)).trans g⟩
  · intro r hr
    dsimp only
    rw [e r hr]
    exact k5 r hr

/-- A session with an outstanding halo update of quantity 0.  Starts are attempted before it, and between it and its wait:
with no halo points, with more than there are, of components that are not on the C grid. -/
def exTry : List (TryOp α) :=
  [.attempt (.halo 0 0), .attempt (.vector 1 2 2), .attempt (.halo 0 1), .attempt (.halo 0 2)] ++
    exFullBetween.map .plain ++ [.attempt (.sync 1 2), .attempt (.halo 2 2), .plain (.op (.wait 0))]

/-- The outcomes of the attempts. -/
def exTryOuts : List (Option PyErr) :=
  [some .valueError, some .outOfBounds, none, some .outOfBounds, some .valueError, some .outOfBounds]

omit [Neg α] in
theorem exTry_kept : kept (exTry : List (TryOp α)) exTryOuts =
    [] ++ .op (.halo 0 1) :: exFullBetween ++ [.op (.wait (fullStarts ([] : List (FOp α))))] := rfl

theorem exTry_due (z : α) (F : Int → Nat → List Nat → α) : OutcomesDue ⟨2, 2⟩ (exAnyMem z F) exTry exTryOuts := by
  have hready : ∀ q r, r ∈ allRanks ⟨2, 2⟩ → HaloReady (exAnyMem z F r q) 0 1 3 1 := fun q r hr => by
    have h := (exSession_run z (fun _ _ => z) q).field.1 r hr
    exact ⟨⟨⟨rfl, rfl, rfl⟩, h.wf.2⟩, h.2, h.3, h.4, h.5, h.6⟩
  have hnot : ∀ q r, ¬ HaloFits (exAnyMem z F r q) 0 1 2 := fun q r h => by
    have : (2 : Int) ≤ 1 := h.1.1
    omega
  have hhalo : ∀ q, (Op.halo q 2 : Op α).Rejected ⟨2, 2⟩ (exAnyMem z F) .outOfBounds := fun q =>
    .inr ⟨by decide, rfl, fun r hr => ⟨(hready q r hr).wf, 0, 1, (hready q r hr).axes, hnot q r⟩⟩
  refine ⟨.inl ⟨rfl, rfl⟩, .inr ⟨by decide, rfl, fun r hr => ⟨(hready 1 r hr).wf, (hready 2 r hr).wf, rfl, 0, 1,
    (hready 1 r hr).axes, (hready 2 r hr).axes, fun h => hnot 1 r h.1⟩⟩, hhalo 0, ⟨rfl, fun r hr h => ?_⟩, hhalo 2, rfl⟩
  have : Dim.yI ∈ [Dim.y, .x] := h.2.1
  simp at this

/-- The session on 24 ranks: all of them see the same exceptions, and the halo of quantity 0 gets what the owners had
before the session. -/
example (buf : Buffering) (z : α) (F : Int → Nat → List Nat → α) :
    ∃ (fin : Int → FState α) (w0 : FSnap α),
      (tryNet ⟨2, 2⟩ (fun _ _ => z) (fun _ _ => z) exTry (exAnyMem z F) (fun _ _ => none) (fun _ _ => none)
        (fun _ _ => none) (fun _ _ => none) (fun _ _ => none)).Completes buf
        (fun r => if r ∈ allRanks ⟨2, 2⟩ then some (.ok (exTryOuts, fin r)) else none) ∧
      (∀ r ∈ allRanks ⟨2, 2⟩, w0.data.cube.mem r = exAnyMem z F r) ∧
      HaloFilled ⟨2, 2⟩ 0 0 1 3 1 w0.data.cube.mem (fun r => (fin r).comm.mem) := by
  have s2 : FloatSafe ⟨2, 2⟩ := C05_safe_up_to_48 _ (by decide) (by decide) (by decide) (by decide)
  have R := (exSession_run z (fun _ _ => z) 0).field
  have S : ScalarField ⟨2, 2⟩ (exAnyMem z F) 0 0 1 3 1 := ⟨fun r hr => by
    have h := R.1 r hr
    exact ⟨⟨⟨rfl, rfl, rfl⟩, h.wf.2⟩, h.2, h.3, h.4, h.5, h.6⟩, R.2, R.3, R.4⟩
  obtain ⟨fin, w0, -, h1, h2, -, h3, -⟩ := C78_outstanding_halo s2 rfl buf (fun _ _ => z) (fun _ _ => z) (exAnyMem z F)
    (fun _ _ => none) (fun _ _ => none) (fun _ _ => none) (fun _ _ => none) (fun _ _ => none) exParts
    (fun _ => exParts) [] (fun _ => []) (fun _ _ h => by cases h) (fun _ h => by cases h) (fun _ _ _ _ _ h => by cases h)
    (fun _ _ _ _ h => by cases h) exTry exTryOuts (exTry_due z F) (exFull_valid z F) [] exFullBetween (by decide)
    (by decide) S exTry_kept
  exact ⟨fin, w0, h1, fun r hr => h2.2.1.mem r ((cube_ranks _ r).2 hr), h3⟩

/-- The same data as without the attempts. -/
example (z : α) (F : Int → Nat → List Nat → α) : ∃ fin fin0 : Int → FState α,
    (∀ buf, (tryNet ⟨2, 2⟩ (fun _ _ => z) (fun _ _ => z) exTry (exAnyMem z F) (fun _ _ => none) (fun _ _ => none)
      (fun _ _ => none) (fun _ _ => none) (fun _ _ => none)).Completes buf
      (fun r => if r ∈ allRanks ⟨2, 2⟩ then some (.ok (exTryOuts, fin r)) else none)) ∧
    (∀ buf, (fullNet ⟨2, 2⟩ (fun _ _ => z) (fun _ _ => z) (.op (.halo 0 1) :: exFullBetween ++ [.op (.wait 0)])
      (exAnyMem z F) (fun _ _ => none) (fun _ _ => none) (fun _ _ => none) (fun _ _ => none)
      (fun _ _ => none)).Completes buf (fun r => if r ∈ allRanks ⟨2, 2⟩ then some (.ok (fin0 r)) else none)) ∧
    ∀ r ∈ allRanks ⟨2, 2⟩, (fin r).comm.mem = (fin0 r).comm.mem ∧ (fin r).glob = (fin0 r).glob := by
  have s2 : FloatSafe ⟨2, 2⟩ := C05_safe_up_to_48 _ (by decide) (by decide) (by decide) (by decide)
  obtain ⟨fin, fin0, h1, h2, h3⟩ := C78_same s2 rfl (fun _ _ => z) (fun _ _ => z) (exAnyMem z F)
    (fun _ _ => none) (fun _ _ => none) (fun _ _ => none) (fun _ _ => none) (fun _ _ => none) exParts
    (fun _ => exParts) [] (fun _ => []) (fun _ _ h => by cases h) (fun _ h => by cases h) (fun _ _ _ _ _ h => by cases h)
    (fun _ _ _ _ h => by cases h) exTry exTryOuts (exTry_due z F) (exFull_valid z F)
  exact ⟨fin, fin0, h1, h2, fun r hr => by rw [(h3 r hr).1]; exact ⟨rfl, rfl⟩⟩

/-- What the program does to the data is what the accepted calls do. -/
example (buf : Buffering) (z : α) (F : Int → Nat → List Nat → α) :
    ∃ (fin : Int → FState α) (started : Pending α),
      (tryNet ⟨2, 2⟩ (fun _ _ => z) (fun _ _ => z) exTry (exAnyMem z F) (fun _ _ => none) (fun _ _ => none)
        (fun _ _ => none) (fun _ _ => none) (fun _ _ => none)).Completes buf
        (fun r => if r ∈ allRanks ⟨2, 2⟩ then some (.ok (exTryOuts, fin r)) else none) ∧
      FullRun ⟨2, 2⟩ exParts (fun _ => exParts) (.op (.halo 0 1) :: exFullBetween ++ [.op (.wait 0)])
        (.new ⟨2, 2⟩ (exAnyMem z F) (fun _ _ => none) (fun _ _ => none) (fun _ _ => none) (fun _ _ => none)
          (fun _ _ => none)) (.ofStates ⟨2, 2⟩ fin started) := by
  have s2 : FloatSafe ⟨2, 2⟩ := C05_safe_up_to_48 _ (by decide) (by decide) (by decide) (by decide)
  obtain ⟨fin, started, h1, h2, -⟩ := C78_try s2 rfl buf (fun _ _ => z) (fun _ _ => z) (exAnyMem z F)
    (fun _ _ => none) (fun _ _ => none) (fun _ _ => none) (fun _ _ => none) (fun _ _ => none) exParts
    (fun _ => exParts) [] (fun _ => []) (fun _ _ h => by cases h) (fun _ h => by cases h) (fun _ _ _ _ _ h => by cases h)
    (fun _ _ _ _ h => by cases h) exTry exTryOuts (exTry_due z F) (exFull_valid z F)
  exact ⟨fin, started, h1, h2⟩

end FV3
