import Verif.Model.Zarr

/-!
# What it means that all ranks finish with a given store
-/

namespace FV3
namespace Zarr
variable {α R : Type}

/-- Whatever the schedule: it can be continued until all ranks are finished, rank `r` with result
`res r`, and then the store is `S`; and no schedule has more than `n` steps.  So there is no deadlock,
and the order in which ranks act does not matter. -/
def World.Completes (buf : Nat → Bool) (ranks : List Int) (W : World α R) (res : Int → R) (S : Store α) : Prop :=
  ∃ n, ∀ sched A, W.run buf ranks sched = some A →
    ∃ sched' T, A.run buf ranks sched' = some T ∧ (∀ r, T.procs r = .ret (res r)) ∧ T.store = S ∧
      sched.length + sched'.length = n

/-- Whatever the schedule: it can be continued until no rank can do a step, rank 0 is finished with result `x`, all
other ranks wait in a collective, and then the store is `S`; and no schedule has more than `n` steps.  So the
other ranks never return. -/
def World.Hangs (buf : Nat → Bool) (ranks : List Int) (W : World α R) (x : R) (S : Store α) : Prop :=
  ∃ n, ∀ sched A, W.run buf ranks sched = some A →
    ∃ sched' T, A.run buf ranks sched' = some T ∧ (∀ r, T.step buf ranks r = none) ∧ T.procs 0 = .ret x ∧
      (∀ r ∈ ranks, r ≠ 0 → ∃ c k, T.procs r = .coll c k) ∧ T.store = S ∧ sched.length + sched'.length = n

/-- No collective has been called yet. -/
def World.start (procs : Int → Prog α R) (S : Store α) : World α R := ⟨procs, S, fun _ => [], fun _ => false⟩

/-- Rank `r` is about to read or to write chunk `ci` of array `name`. -/
def World.Accesses (W : World α R) (r : Int) (name : String) (ci : List Nat) : Prop :=
  (∃ k, W.procs r = .getChunk name ci k) ∨ ∃ c k, W.procs r = .putChunk name ci c k

end Zarr
end FV3
