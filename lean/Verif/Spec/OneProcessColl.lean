import Verif.Model.OneProcessColl
import Verif.Spec.Collective
import Verif.Spec.CollState

/-!
# One process: between the rounds of calls
-/

namespace FV3.OneProcess
open FV3
variable {α : Type}

/-- Every rank of the communicator has received all that was broadcast or scattered, and there is one gather slot for
each rank, with whatever was left there. -/
structure Board.Settled (b : Board α) (c : Comm) : Prop where
  bcasts : ∀ r ∈ c.ranks, b.bcasts.calls r = b.bcasts.values.length
  scatters : ∀ r ∈ c.ranks, b.scatters.calls r = b.scatters.values.length
  slots : b.slots.length = c.size.toNat

/-- All ranks make the call, rank 0 before all others, those in any order. -/
def RootFirst (c : Comm) (order : List Int) : Prop := ∃ rest, order = 0 :: rest ∧ order.Perm c.ranks

/-- All ranks make the call, rank 0 after all others, those in any order. -/
def RootLast (c : Comm) (order : List Int) : Prop := ∃ rest, order = rest ++ [0] ∧ order.Perm c.ranks

end FV3.OneProcess
