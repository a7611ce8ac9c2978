import Verif.Model.HeapLateAsync
import Verif.Spec.HeapAsync
import Verif.Spec.LateSend

/-!
# Programs on memory that leave alone what is being sent
-/

namespace FV3
namespace Heap
open Mem (World Gt4py)
variable {α : Type}

/-- The same variables and arrays; the contents of memory may be others. -/
structure SameVars (W W1 : World α) : Prop where
  next : W1.next = W.next
  arrs : W1.arrs = W.arrs
  objs : W1.objs = W.objs

variable [Inhabited α] [Neg α]

omit [Inhabited α] [Neg α] in
/-- After the operations `pre`, the update `op`, the start number `k`, has not been waited for. -/
def HOutstanding (pre : List (HOp α)) (k : Nat) (op : Op α) : Prop :=
  (pre.filterMap HOp.start)[k]? = some op ∧ HOp.wait k ∉ pre

/-- Element `idx` of the data of variable `h` is one of those which rank `r` receives when it waits for the update. -/
def RecvCells (l : Layout) (r : Int) (op : Op α) (W : World α) (h : Nat) (idx : List Nat) : Prop :=
  ∃ i, op.inn l r (quantities W) = .ok i ∧ ∃ z ∈ i, z.q = h ∧
    ∃ rs rel, resolveAll z.ix (quantities W h).data.shape = .ok rs ∧ InB (viewShape rs) rel ∧ idx = viewIdx rs rel

/-- The program does not change what it is sending.  When it waits for an update, the memory which it receives into is not
sent by another outstanding update: whatever is put there, the other update sends the same arrays.  When it runs a program on
memory, the outstanding updates send the same arrays before and after, whatever was in memory. -/
structure HLeavesSends (g : Gt4py) (l : Layout) (W : Int → World α) (ops : List (HOp α)) : Prop where
  waits : ∀ pre i post, ops = pre ++ .wait i :: post → ∀ k a b, k ≠ i → HOutstanding pre k a →
    (pre.filterMap HOp.start)[i]? = some b → ∀ V, HOpsRun g l pre ⟨W, []⟩ V → ∀ r ∈ allRanks l, ∀ W1 W2,
    SameVars (V.world r) W1 → OnlyCells (RecvCells l r b W1) W1 W2 → Late.SendsSame l r a (quantities W1) (quantities W2)
  computes : ∀ pre os post, ops = pre ++ .compute os :: post → ∀ k a, HOutstanding pre k a →
    ∀ V, HOpsRun g l pre ⟨W, []⟩ V → ∀ r ∈ allRanks l, ∀ W1, SameVars (V.world r) W1 →
    Late.SendsSame l r a (quantities W1) (quantities (W1.after g (os r)))

omit [Neg α] in
/-- No point of the compute domain of a quantity of `a` is in memory a point outside the compute domain of a quantity of `b`.
(They may be the same variable, or the same quantity with its axes in another order, or be in different memory.) -/
def DomainsFree (W : World α) (a b : Op α) : Prop :=
  ∀ q ∈ a.qs, ∀ h ∈ b.qs, ∀ idx idx' ad, Cell W q idx ad → Cell W h idx' ad →
    (quantities W q).InCompute idx → (quantities W h).InCompute idx'

/-- The same for updates of halos only, in terms of the compute domains of their quantities: two which are outstanding at the
same time do not have the compute domain of one in the halo of the other, and a program on memory leaves alone the compute
domains of the quantities of the updates which are outstanding (it may do what it likes with their halos and with everything
else). -/
structure LeavesDomains (g : Gt4py) (l : Layout) (W : Int → World α) (ops : List (HOp α)) : Prop where
  halos : ∀ op ∈ ops.filterMap HOp.start, op.isHalo = true
  waits : ∀ pre i post, ops = pre ++ .wait i :: post → ∀ k a b, k ≠ i → HOutstanding pre k a →
    (pre.filterMap HOp.start)[i]? = some b → ∀ V, HOpsRun g l pre ⟨W, []⟩ V → ∀ r ∈ allRanks l, DomainsFree (V.world r) a b
  computes : ∀ pre os post, ops = pre ++ .compute os :: post → ∀ k a, HOutstanding pre k a →
    ∀ V, HOpsRun g l pre ⟨W, []⟩ V → ∀ r ∈ allRanks l, ∀ W1, SameVars (V.world r) W1 → ∀ q ∈ a.qs, ∀ idx,
    (quantities W1 q).InCompute idx → (quantities (W1.after g (os r)) q).data.get idx = (quantities W1 q).data.get idx

end Heap
end FV3
