import Verif.Spec.Bulk
import Verif.Spec.Halo
import Verif.Spec.Sync
import Verif.Spec.Protocol

/-!
# Several updates in flight
-/

namespace FV3
variable {α : Type}

/-- The quantities an update reads and writes. -/
def Op.qs : Op α → List Nat
  | .halo q _ => [q]
  | .vector x y _ => [x, y]
  | .sync x y => [x, y]
  | .wait _ => []
  | .compute _ => []

/-- Different updates are about different quantities. -/
def DisjointUpdates (starts : List (Op α)) : Prop :=
  ∀ (j k : Nat) a b, starts[j]? = some a → starts[k]? = some b → j ≠ k → ∀ q ∈ a.qs, q ∉ b.qs

/-- The computations between the calls leave the quantities of the updates alone. -/
def ComputesElsewhere (l : Layout) (starts ops : List (Op α)) : Prop :=
  ∀ f, Op.compute f ∈ ops → ∀ r ∈ allRanks l, ∀ mem : Mem α, ∀ op ∈ starts, ∀ q ∈ op.qs,
    f r mem q = mem q

/-- The quantities of the update are distributed over the ranks of the cube as the update
expects: see `ScalarField`, `VectorField` and `SyncField`. -/
def UpdateReady (l : Layout) (m : Int → Mem α) : Op α → Prop
  | .halo q h => ∃ ky kx n, 0 < h ∧ h ≤ n ∧ ScalarField l m q ky kx n h
  | .vector x y h => ∃ ky kx n, 0 < h ∧ h ≤ n ∧ VectorField l m x y ky kx n h
  | .sync x y => ∃ ky kx n, SyncField l m x y ky kx n
  | .wait _ => True
  | .compute _ => True

/-- Updates of halos: those that do not synchronise interfaces. -/
def Op.isHalo : Op α → Bool
  | .halo _ _ => true
  | .vector _ _ _ => true
  | _ => false

/-- The same messages: same receiver and component, arrays equal element by element. -/
def SameMessages (o o' : List (Outgoing α)) : Prop :=
  List.Forall₂ (fun x x' => x'.dst = x.dst ∧ x'.off = x.off ∧ x'.a.Eqv x.a) o o'

end FV3
