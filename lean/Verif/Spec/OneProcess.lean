import Verif.Spec.Protocol

/-!
# Orders in which one process makes the calls of all ranks
-/

namespace FV3
variable {α : Type}

/-- Updates are waited for in the order in which they were started. -/
def WaitsInOrder (ops : List (Op α)) : Prop := ∃ n, ops.filterMap Op.waitIdx = List.range n

/-- An order of calls for all ranks: `order` says which rank makes its next call.  All ranks make all calls, and no rank
waits for an update before all ranks have started it. -/
structure OrderOk (l : Layout) (ops : List (Op α)) (order : List Int) : Prop where
  ranks : ∀ r ∈ order, r ∈ allRanks l
  all : ∀ r ∈ allRanks l, order.count r = ops.length
  wait : ∀ before r after i, order = before ++ r :: after → ops[before.count r]? = some (.wait i) →
    ∀ s ∈ allRanks l, i < (ops.take (before.count s)).countP Op.isStart

end FV3
