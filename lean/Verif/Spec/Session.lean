import Verif.Model.Session
import Verif.Spec.Collective
import Verif.Spec.Outstanding

/-!
# What a session does, without message passing
-/

namespace FV3
variable {α : Type} [Neg α]

/-- The parts of a global quantity: names of their axes, and grid cells on each axis. -/
structure Parts where
  dims : List Dim
  cells : List Int

/-- One call, performed on all ranks at once: from quantities `m` of the ranks and global quantities `G` of root to
`m'` and `G'`.  `parts g` are the parts of global quantity `g`. -/
def SOp.Step (l : Layout) (parts : Nat → Parts) : SOp α → (Int → Mem α) → (Nat → Option (Quantity α)) →
    (Int → Mem α) → (Nat → Option (Quantity α)) → Prop
  | .call c, m, G, m', G' => CallStep l c m m' ∧ G' = G
  | .scatter q g, m, G, m', G' => G' = G ∧ ∃ v, G g = some v ∧ ∀ r ∈ allRanks l,
      IsPart (.cube l) (parts g).dims (parts g).cells v (m' r q) r ∧ (m r q).Refilled (m' r q) ∧
      ∀ q', q' ≠ q → m' r q' = m r q'
  | .gather q g, m, G, m', G' => (∀ r ∈ allRanks l, m' r = m r) ∧ (∀ g', g' ≠ g → G' g' = G g') ∧
      ∃ v, G' g = some v ∧ v.GlobalShaped (.cube l) (parts g).dims (parts g).cells ∧
        GatheredFrom (.cube l) (parts g).dims (parts g).cells (fun r => m r q) v ∧
        (∀ v0, G g = some v0 → v0.Refilled v) ∧
        (G g = none → FreshGlobal (.cube l) v (parts g).dims (parts g).cells (m 0 q).units)

/-- A sequence of calls, one after the other on all ranks. -/
def SessionRun (l : Layout) (parts : Nat → Parts) : List (SOp α) → (Int → Mem α) → (Nat → Option (Quantity α)) →
    (Int → Mem α) → (Nat → Option (Quantity α)) → Prop
  | [], m, G, m', G' => (∀ r ∈ allRanks l, m' r = m r) ∧ G' = G
  | op :: ops, m, G, m', G' => ∃ m1 G1, op.Step l parts m G m1 G1 ∧ SessionRun l parts ops m1 G1 m' G'

/-- Quantity `q` of the ranks is cut like the parts `p` of a global quantity. -/
structure HasParts (l : Layout) (m : Int → Mem α) (q : Nat) (p : Parts) : Prop where
  axes : ∃ ky kx, HAxes p.dims ky kx
  small : ∀ k, k < p.dims.length → p.cells.getD k 0 * ranksAlong l (p.dims.getD k .x) < 2 ^ 51
  names : ∀ r ∈ allRanks l, (m r q).dims = p.dims
  shaped : ∀ r ∈ allRanks l, (m r q).RankShaped p.dims p.cells

/-- A call is valid: its quantities (with the metadata they have in `m`) are those that the call is for, the global
quantity to be scattered is one of `filled`, and computations do not change metadata. -/
def SOp.Valid (l : Layout) (m : Int → Mem α) (parts : Nat → Parts) (filled : List Nat) : SOp α → Prop
  | .call (.compute f) => ∀ r ∈ allRanks l, ∀ mem, MetaIs m r mem → MetaIs m r (f r mem)
  | .call c => ∀ op, c.start = some op → UpdateReady l m op
  | .scatter q g => g ∈ filled ∧ HasParts l m q (parts g)
  | .gather q g => HasParts l m q (parts g)

/-- All calls of a session are valid; a global quantity can be scattered after it was gathered. -/
def SessionValid (l : Layout) (m : Int → Mem α) (parts : Nat → Parts) : List Nat → List (SOp α) → Prop
  | _, [] => True
  | filled, op :: ops => op.Valid l m parts filled ∧
      SessionValid l m parts (match op with | .gather _ g => g :: filled | _ => filled) ops

end FV3
