import Verif.Spec.Collective

/-!
# Specification of scatter_state and gather_state
-/

namespace FV3
variable {α : Type}

/-- Variable `v` of a scattered state: `new` holds rank `r`'s part of `g`, in the quantity `old` of the
receive state (unchanged outside its compute domain), or, without one, in a new quantity. -/
def ScatteredInto (c : Comm) (dims : List Dim) (cells : List Int) (g : Quantity α) (old new : Option (SVal α))
    (r : Int) : Prop :=
  ∃ q', new = some (.qty q') ∧ q'.RankShaped dims cells ∧ IsPart c dims cells g q' r ∧
    (∀ q, old = some (.qty q) → q.Refilled q') ∧
    (old = none → FreshPart q' dims cells g.units)

/-- Variable `v` of a gathered state: `new` holds the global field of the parts, in the quantity `old` of
the receive state (unchanged outside its compute domain), or, without one, in a new quantity. -/
def GatheredInto (c : Comm) (dims : List Dim) (cells : List Int) (parts : Int → Quantity α)
    (old new : Option (SVal α)) : Prop :=
  ∃ q', new = some (.qty q') ∧ q'.GlobalShaped c dims cells ∧ GatheredFrom c dims cells parts q' ∧
    (∀ q, old = some (.qty q) → q.Refilled q') ∧
    (old = none → FreshGlobal c q' dims cells (parts 0).units)

end FV3
