import Verif.Spec.Quantity
import Verif.Proofs.NDLemmas

/-!
# Specification of views: the compute domain as an array of its own
-/

namespace FV3

/-- Base index from an index relative to the origin. -/
def absIdx (os : List Int) (idx : List Nat) : List Nat :=
  tab os.length fun k => (os.getD k 0 + (idx.getD k 0 : Nat)).toNat

/-- Index relative to the origin. -/
def relIdx (os : List Int) (idx : List Nat) : List Nat :=
  tab os.length fun k => (((idx.getD k 0 : Nat) : Int) - os.getD k 0).toNat

/-- Index entries with non-negative end points within `0 .. e` and positive step. -/
def Ix.Plain (e : Int) : Ix → Prop
  | .int i => 0 ≤ i ∧ i < e
  | .slice s => (∀ a, s.start = some a → 0 ≤ a ∧ a ≤ e) ∧ (∀ b, s.stop = some b → 0 ≤ b ∧ b ≤ e) ∧
      (∀ st, s.step = some st → 0 < st)

/-- The compute domain as an array: element `idx` is the datum at `origin + idx`. -/
def Quantity.computeArr {α : Type} (q : Quantity α) : NDArray α :=
  ⟨q.extent.map Int.toNat, fun idx => q.data.get (absIdx q.origin idx)⟩

/-- Position of a corner on an axis: origin or origin + extent. -/
def cornerBase {α : Type} (q : Quantity α) (b : BType) (k : Nat) : Int :=
  if dirAlong b (q.d k) = 1 then q.o k + q.e k else q.o k

end FV3
