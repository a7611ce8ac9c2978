import Verif.Spec.FancyView
import Verif.Spec.Broadcast
import Verif.Model.FancyAssign

/-!
# Specification of assignments through views
-/

namespace FV3.Fancy
variable {α : Type}

/-- `rel'` comes after `rel` in the order in which numpy goes through an array: the first entry in which they differ is
larger. -/
def Later (rel rel' : List Nat) : Prop := ∃ p, rel'.take p = rel.take p ∧ rel.getD p 0 < rel'.getD p 0

/-- Reading with `get` an array of shape `shape`, whatever its elements, shows its element `idx` at place `rel` of a
result of shape `s`. -/
def Shows (get : NDArray α → Py (NDArray α)) (shape s idx rel : List Nat) : Prop :=
  InB s rel ∧ ∀ d : NDArray α, d.shape = shape → ∃ r, get d = .ok r ∧ r.shape = s ∧ r.get rel = d.get idx

/-- What an assignment of `value` does to a quantity, where `get` reads what is assigned to, of shape `s`: an element
shown gets the element of the value, broadcast, at that place, at the last one if it is shown more than once; the other
elements and the metadata stay. -/
structure Stored (q q' : Quantity α) (get : Quantity α → Py (NDArray α)) (s : List Nat) (value : NDArray α) : Prop where
  dims : q'.dims = q.dims
  units : q'.units = q.units
  origin : q'.origin = q.origin
  extent : q'.extent = q.extent
  shape : q'.data.shape = q.data.shape
  shown : ∃ b, IsBroadcast value s b ∧ ∀ idx rel,
    Shows (fun d => get { q with data := d }) q.data.shape s idx rel →
    (∀ rel', Shows (fun d => get { q with data := d }) q.data.shape s idx rel' → ¬ Later rel rel') →
    q'.data.get idx = b.get rel
  others : ∀ idx, (∀ rel, ¬ Shows (fun d => get { q with data := d }) q.data.shape s idx rel) →
    q'.data.get idx = q.data.get idx

/-- The elements `p j` of axis `k` of the compute domain, `j < n`, have been given the elements of `value`, broadcast; of
equal positions the last one counts.  Positions `p` count from the start of the array.  Everything else is as before. -/
structure IsPut (q : Quantity α) (k n : Nat) (p : Nat → Int) (value : NDArray α) (q' : Quantity α) : Prop where
  metadata : q' = { q with data := q'.data }
  shape : q'.data.shape = q.data.shape
  put : ∃ b, IsBroadcast value ((q.extent.map Int.toNat).set k n) b ∧
    ∀ out, InB ((q.extent.map Int.toNat).set k n) out → (∀ j, out.getD k 0 < j → j < n → p j ≠ p (out.getD k 0)) →
      q'.data.get ((absIdx q.origin out).set k (p (out.getD k 0)).toNat) = b.get out
  others : ∀ idx, (∀ out, InB ((q.extent.map Int.toNat).set k n) out →
      (absIdx q.origin out).set k (p (out.getD k 0)).toNat ≠ idx) → q'.data.get idx = q.data.get idx

end FV3.Fancy
