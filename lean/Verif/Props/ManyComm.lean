import Verif.Proofs.ManyRun
import Verif.Props.Deadlock
import Verif.Props.Session

/-!
# C61: several communicator objects on one MPI communicator
-/

namespace FV3

section
variable {α : Type} [Neg α]

/-- **C61**: any sequence of blocking calls of several cubed-sphere communicator objects that use the same MPI
communicator (and so the same message tags), the same sequence on all ranks, ends on all ranks, whatever the schedule
and the buffering of MPI, and has the effect of the same calls of one communicator object: that of performing the calls
one after the other on all ranks. -/
theorem C61_several {l : Layout} (hl : FloatSafe l) (hsq : l.y = l.x) (buf : Buffering) (junk : Nat → List Nat → α)
    (mem : Int → Mem α) (glob : Int → Nat → Option (Quantity α)) (parts : Nat → Parts) (filled : List Nat)
    (hglob : ∀ g v, glob 0 g = some v → v.GlobalShaped (.cube l) (parts g).dims (parts g).cells)
    (hfilled : ∀ g ∈ filled, ∃ v, glob 0 g = some v)
    (ops : List (Nat × SOp α)) (hops : SessionValid l mem parts filled (ops.map (·.2))) :
    ∃ fin : Int → MState α,
      (manyNet l junk ops mem glob).Completes buf (fun r =>
        if r ∈ allRanks l then some (.ok (fin r)) else none) ∧
      SessionRun l parts (ops.map (·.2)) mem (glob 0) (fun r => (fin r).mem) (fin 0).glob ∧
      ∀ r ∈ allRanks l, MetaIs mem r (fin r).mem := by
  obtain ⟨fin, sched, T, h1, h2, h3, h4, -⟩ := many_from (hist := fun _ => []) (n := 0)
    (s := fun r => ⟨mem r, glob r, fun _ => 0, 0⟩) hl hsq buf junk
    (fun _ => ⟨fun _ _ _ => SameMeta.refl _, fun _ _ => rfl, fun _ _ => rfl, hglob, hfilled⟩)
    (fun _ _ h => by cases h) hops ⟨fun _ _ _ _ => rfl, fun _ _ _ _ => rfl, fun _ _ _ _ => rfl⟩
  exact ⟨fin, Net.completes_of_run h1 h2, h3, h4⟩

/-- **C61**: whenever all ranks have finished such a sequence of calls, every message of a halo update has been
received: nothing is left over that a later user of the MPI communicator could receive. -/
theorem C61_nothing_left {l : Layout} (hl : FloatSafe l) (hsq : l.y = l.x) (buf : Buffering) (junk : Nat → List Nat → α)
    (mem : Int → Mem α) (glob : Int → Nat → Option (Quantity α)) (parts : Nat → Parts) (filled : List Nat)
    (hglob : ∀ g v, glob 0 g = some v → v.GlobalShaped (.cube l) (parts g).dims (parts g).cells)
    (hfilled : ∀ g ∈ filled, ∃ v, glob 0 g = some v)
    (ops : List (Nat × SOp α)) (hops : SessionValid l mem parts filled (ops.map (·.2)))
    (sched : List Int) (N : Net (Msg α) (Option (Py (MState α))))
    (hrun : (manyNet l junk ops mem glob).run buf sched = some N) (hfin : ∀ r ∈ allRanks l, ∃ x, N.procs r = .ret x)
    (s d : Int) (i : Nat) : N.rcvd s d (.halo i) = (N.sent s d (.halo i)).length := by
  obtain ⟨fin, sched0, T, h1, h2, -, -, h5⟩ := many_from (hist := fun _ => []) (n := 0)
    (s := fun r => ⟨mem r, glob r, fun _ => 0, 0⟩) hl hsq buf junk
    (fun _ => ⟨fun _ _ _ => SameMeta.refl _, fun _ _ => rfl, fun _ _ => rfl, hglob, hfilled⟩)
    (fun _ _ h => by cases h) hops ⟨fun _ _ _ _ => rfl, fun _ _ _ _ => rfl, fun _ _ _ _ => rfl⟩
  have hstuck : ∀ r, T.step buf r = none := fun r => by
    unfold Net.step
    rw [h2 r]
  obtain ⟨sched', h6, -⟩ := C21_schedule_independent buf _ T sched0 h1 hstuck sched N hrun
  have hN : ∀ r, N.step buf r = none := by
    intro r
    have : ∃ x, N.procs r = .ret x := by
      by_cases hr : r ∈ allRanks l
      · exact hfin r hr
      · exact ⟨none, Net.run_finished hrun (by unfold manyNet Net.start; dsimp only; rw [if_neg hr])⟩
    obtain ⟨x, hx⟩ := this
    unfold Net.step
    rw [hx]
  cases sched' with
  | nil =>
    cases h6
    exact h5 s d _ ⟨i, rfl⟩
  | cons r rs =>
    unfold Net.run at h6
    rw [hN r] at h6
    cases h6

/-- The calls of C57's example, alternately of two communicator objects: the halo updates of both use tag 1. -/
def exMany : List (Nat × SOp α) :=
  [(0, .scatter 0 0), (0, .call (.haloUpdate 0 1)), (1, .call (.vectorHaloUpdate 1 2 1)), (0, .gather 0 1),
    (1, .call (.compute exNext)), (0, .scatter 2 1), (1, .gather 2 0)]

/-- The example meets the hypotheses. -/
example (buf : Buffering) (z : α) (F : Vec3 → (Nat → Int) → α) :
    ∃ fin : Int → MState α,
      (manyNet ⟨2, 2⟩ (fun _ _ => z) exMany (exRunMem 3 z)
        (fun r g => if r = 0 ∧ g = 0 then some (exRunG 6 F) else none)).Completes buf (fun r =>
        if r ∈ allRanks ⟨2, 2⟩ then some (.ok (fin r)) else none) ∧
      SessionRun ⟨2, 2⟩ exParts exSession (exRunMem 3 z)
        (fun g => if (0 : Int) = 0 ∧ g = 0 then some (exRunG 6 F) else none) (fun r => (fin r).mem) (fin 0).glob := by
  have s2 : FloatSafe ⟨2, 2⟩ := C05_safe_up_to_48 _ (by decide) (by decide) (by decide) (by decide)
  obtain ⟨fin, h1, h2, -⟩ := C61_several s2 rfl buf (fun _ _ => z) (exRunMem 3 z)
    (fun r g => if r = 0 ∧ g = 0 then some (exRunG 6 F) else none) exParts [0] (exSession_glob F z)
    (fun g hg => ⟨exRunG 6 F, by rw [if_pos ⟨rfl, List.mem_singleton.1 hg⟩]⟩) exMany (exSession_valid z)
  exact ⟨fin, h1, h2⟩
end

/-- **C61** (limit): updates of two communicator objects that are outstanding at the same time are mixed up without an
error, if the second is waited for first: quantity 3 is 3 everywhere on all ranks, and after the halo updates it has a
halo point with value 2 on rank 1. -/
theorem C61_limit_outstanding :
    (∀ r q idx, (exConst r q).data.get idx = q) ∧
    ∃ res, (twoNet ⟨1, 1⟩ 2 3 2 exConst).Completes (fun _ _ _ _ => true) res ∧
      (∀ r ∈ allRanks ⟨1, 1⟩, (res r).1 = .ok ()) ∧
      ((res 1).2.mem 3).data.shape = (exConst 1 3).data.shape ∧
      ∃ idx, InB (exConst 1 3).data.shape idx ∧ ((res 1).2.mem 3).data.get idx = 2 := by
  refine ⟨fun _ _ _ => rfl, ?_⟩
  obtain ⟨res, h1, h2⟩ := completes_of (rs := allRanks ⟨1, 1⟩)
    (sched := greedy (fun _ _ _ _ => true) (allRanks ⟨1, 1⟩) 400 (twoNet ⟨1, 1⟩ 2 3 2 exConst))
    (N := twoNet ⟨1, 1⟩ 2 3 2 exConst) (buf := fun _ _ _ _ => true)
    (p := fun r x => (match x.1 with | .ok _ => true | .error _ => false) &&
      (r != 1 || ((x.2.mem 3).data.shape == (exConst 1 3).data.shape &&
        (x.2.mem 3).data.get [2, 1, 0] == 2)))
    (by decide +kernel) (fun r hr => ⟨_, by unfold twoNet Net.start; dsimp only; rw [if_neg hr]⟩)
  have h1' := h2 1 (by decide)
  simp only [bne_self_eq_false, Bool.false_or, Bool.and_eq_true, beq_iff_eq] at h1'
  refine ⟨res, h1, ?_, ?_, [2, 1, 0], ?_, ?_⟩
  · intro r hr
    have := h2 r hr
    simp only [Bool.and_eq_true] at this
    have := this.1
    cases h : (res r).1 with
    | ok u => rfl
    | error e => rw [h] at this; cases this
  · exact h1'.2.1
  · decide
  · exact h1'.2.2

end FV3
