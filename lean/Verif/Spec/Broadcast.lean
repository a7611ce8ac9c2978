import Verif.Model.NDArray

/-!
# Broadcasting

The rule of the numpy documentation: shapes are compared axis by axis from the last one; two axes fit if they have
the same length or one has length 1; missing axes count as axes of length 1.
-/

namespace FV3
variable {α : Type}

/-- Length of the `k`-th axis from the end; 1 if there is none. -/
def axisFromEnd (shape : List Nat) (k : Nat) : Nat := shape.reverse.getD k 1

/-- The `k`-th entry of an index from the end. -/
def entryFromEnd (idx : List Nat) (k : Nat) : Nat := idx.reverse.getD k 0

/-- An array of shape `src` can be broadcast (and be assigned) to shape `dst`. -/
def Broadcastable (src dst : List Nat) : Prop :=
  ∀ k, axisFromEnd src k = axisFromEnd dst k ∨ axisFromEnd src k = 1

/-- `r` is `v` broadcast to shape `s`: every element is the one of `v` with the same index, counted from the last axis,
where 0 is meant on axes of length 1. -/
structure IsBroadcast (v : NDArray α) (s : List Nat) (r : NDArray α) : Prop where
  shape : r.shape = s
  get : ∀ idx, InB s idx → ∃ place, InB v.shape place ∧ r.get idx = v.get place ∧
    ∀ k, k < v.shape.length → entryFromEnd place k = if axisFromEnd v.shape k = 1 then 0 else entryFromEnd idx k

end FV3
