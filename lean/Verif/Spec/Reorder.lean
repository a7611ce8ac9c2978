import Verif.Spec.Quantity

/-!
# The same field with its axes in another order
-/

namespace FV3
variable {α : Type}

/-- The quantities `q` and `p` hold the same field, name by name, with their axes in different
orders: each dimension has the same origin, extent and length in both, and both have the same
datum wherever the named coordinates agree. -/
structure Reordered (q p : Quantity α) : Prop where
  lens : q.Lens
  lens' : p.Lens
  nodup : q.dims.Nodup
  perm : p.dims.Perm q.dims
  units : p.units = q.units
  origin : ∀ i j, i < q.ndim → j < p.ndim → p.d j = q.d i → p.o j = q.o i
  extent : ∀ i j, i < q.ndim → j < p.ndim → p.d j = q.d i → p.e j = q.e i
  shape : ∀ i j, i < q.ndim → j < p.ndim → p.d j = q.d i → p.n j = q.n i
  data : ∀ f : Dim → Nat, p.data.get (p.dims.map f) = q.data.get (q.dims.map f)

end FV3
