import Verif.Spec.Updates

/-!
# When updates can be exchanged

`StartSound` collects what the protocol needs to know about one kind of update: every rank
can pack its arrays, and the arrays packed by one rank are those expected by another.  It is
proved for the three kinds of updates of the cubed-sphere communicator in
Props/UpdatesSound.lean.
-/

namespace FV3
variable {α : Type} [Neg α]

/-- Under the invariant `Good` on the quantities of a rank, the update `op` can be started
by every rank, and packed and expected arrays match. -/
structure StartSound (l : Layout) (Good : Int → Mem α → Prop) (op : Op α) : Prop where
  isStart : op.isStart = true
  start : ∀ r ∈ allRanks l, ∀ mem, Good r mem →
    ∃ o i, op.out l r mem = .ok o ∧ op.inn l r mem = .ok i
  outKeys : ∀ r ∈ allRanks l, ∀ mem o, Good r mem → op.out l r mem = .ok o →
    (o.map fun x => (x.dst, x.off)).Nodup ∧ ∀ x ∈ o, x.off < op.nTags
  inKeys : ∀ r ∈ allRanks l, ∀ mem i, Good r mem → op.inn l r mem = .ok i →
    (i.map fun x => (x.src, x.off)).Nodup ∧ ∀ x ∈ i, x.off < op.nTags
  inMatch : ∀ r ∈ allRanks l, ∀ mem i, Good r mem → op.inn l r mem = .ok i → ∀ x ∈ i,
    x.src ∈ allRanks l ∧ ∀ mem' o, Good x.src mem' → op.out l x.src mem' = .ok o →
      ∃ y ∈ o, y.dst = r ∧ y.off = x.off ∧
        ∀ mem'', Good r mem'' → ∃ m, storeInto mem'' x.q x.ix y.a = .ok m ∧ Good r m
  outMatch : ∀ r ∈ allRanks l, ∀ mem o, Good r mem → op.out l r mem = .ok o → ∀ y ∈ o,
    y.dst ∈ allRanks l ∧ ∀ mem' i, Good y.dst mem' → op.inn l y.dst mem' = .ok i →
      ∃ x ∈ i, x.src = r ∧ x.off = y.off

/-- Every `wait` names an update started before it. -/
def WaitsStarted (ops : List (Op α)) : Prop :=
  ∀ (d i : Nat), ops[d]? = some (.wait i) → i < (ops.take d).countP Op.isStart

/-- The request a `wait` names. -/
def Op.waitIdx : Op α → Option Nat
  | .wait i => some i
  | _ => none

/-- No request is waited for twice. -/
def WaitsOnce (ops : List (Op α)) : Prop := (ops.filterMap Op.waitIdx).Nodup

/-- Computations keep the invariant. -/
def ComputesKeep (l : Layout) (Good : Int → Mem α → Prop) (ops : List (Op α)) : Prop :=
  ∀ f, Op.compute f ∈ ops → ∀ r ∈ allRanks l, ∀ mem, Good r mem → Good r (f r mem)

/-- The updates started, in order. -/
def startsOf (ops : List (Op α)) : List (Op α) := ops.filter Op.isStart

end FV3
