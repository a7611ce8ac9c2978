import Verif.Model.Program

/-!
# What blocking calls do, without message passing

All ranks perform an update as one step: every rank packs its arrays from the quantities as
they were before the update, and stores the arrays the others packed for it.
-/

namespace FV3
variable {α : Type} [Neg α]

/-- The update a call performs. -/
def Call.start : Call α → Option (Op α)
  | .haloUpdate q n => some (.halo q n)
  | .vectorHaloUpdate x y n => some (.vector x y n)
  | .synchronize x y => some (.sync x y)
  | .compute _ => none

/-- The array which rank `src` packs for rank `r` as component `off` in update `op`. -/
def packedFor (l : Layout) (op : Op α) (m : Int → Mem α) (r src : Int) (off : Nat) :
    Option (NDArray α) :=
  if src ∈ allRanks l then
    match op.out l src (m src) with
    | .ok o => arrayFor r off o
    | .error _ => none
  else none

/-- One update on all ranks, from quantities `m` to quantities `m'`. -/
def UpdateStep (l : Layout) (op : Op α) (m m' : Int → Mem α) : Prop :=
  ∀ r ∈ allRanks l, (∃ o, op.out l r (m r) = .ok o) ∧
    ∃ i, op.inn l r (m r) = .ok i ∧ deliver (packedFor l op m r) i (m r) = .ok (m' r)

/-- Waiting for update `o`, started when the quantities were `m0`: every rank stores what the others had packed then
into the quantities it has now. -/
def WaitStep (l : Layout) (o : Op α) (m0 m m' : Int → Mem α) : Prop :=
  ∀ r ∈ allRanks l, ∃ inc, o.inn l r (m0 r) = .ok inc ∧ deliver (packedFor l o m0 r) inc (m r) = .ok (m' r)

/-- What one call, made by all ranks, does to their memories. -/
def CallStep (l : Layout) (c : Call α) (m m' : Int → Mem α) : Prop :=
  match c with
  | .haloUpdate q n => UpdateStep l (.halo q n) m m'
  | .vectorHaloUpdate x y n => UpdateStep l (.vector x y n) m m'
  | .synchronize x y => UpdateStep l (.sync x y) m m'
  | .compute f => ∀ r ∈ allRanks l, m' r = f r (m r)

/-- A sequence of calls on all ranks. -/
def CallsRun (l : Layout) : List (Call α) → (Int → Mem α) → (Int → Mem α) → Prop
  | [], m, m' => ∀ r ∈ allRanks l, m' r = m r
  | c :: cs, m, m' => ∃ m1, CallStep l c m m1 ∧ CallsRun l cs m1 m'

/-- Number of message tags a call uses. -/
def Call.nTags : Call α → Nat
  | .haloUpdate _ _ => 1
  | .vectorHaloUpdate _ _ _ => 2
  | .synchronize _ _ => 1
  | .compute _ => 0

end FV3
