import Verif.Model.Net

/-!
# What it means that all ranks finish
-/

namespace FV3
variable {M R : Type}

/-- From `N`, every schedule can be continued until all ranks are finished with results
`res`, and the total number of steps is the same for all schedules.  So no schedule
deadlocks or runs for ever, and all end in the same state. -/
def Net.Completes (buf : Buffering) (N : Net M R) (res : Int → R) : Prop :=
  ∃ (T : Net M R) (n : Nat), (∀ r, T.procs r = .ret (res r)) ∧
    ∀ sched A, N.run buf sched = some A →
      ∃ sched', A.run buf sched' = some T ∧ sched.length + sched'.length = n

/-- The network before anything is sent. -/
def Net.start (procs : Int → Proc M R) : Net M R := ⟨procs, fun _ _ _ => [], fun _ _ _ => 0⟩

end FV3
