import Verif.Model.FancyView
import Verif.Spec.Views

/-!
# Specification of views indexed with arrays and new axes
-/

namespace FV3.Fancy

/-- An entry numpy understands, written by the user. -/
def NIx.entry : NIx → Entry
  | .int i => .int i
  | .slice s => .slice s
  | .newaxis => .newaxis
  | .ints a => .ints a

/-- Entries which name points of an axis of `e` points by numbers from 0: integers and arrays of integers in
`0 .. e-1`, slices as in `Ix.Plain`. -/
def NIx.Plain (e : Int) : NIx → Prop
  | .int i => 0 ≤ i ∧ i < e
  | .slice s => Ix.Plain e (.slice s)
  | .ints a => ∀ i ∈ a, 0 ≤ i ∧ i < e
  | .newaxis => False

/-- An integer or a slice as an entry. -/
def ofIx : Ix → Entry
  | .int i => .int i
  | .slice s => .slice s

/-- An index expression of integers and slices. -/
def ofVIdx : VIdx → FIdx
  | .tuple l => .tuple (l.map ofIx)
  | .one i => .one (ofIx i)

/-- `view[:, ..., :, a]`, `a` on axis `k`. -/
def along (k : Nat) (a : Entry) : FIdx := .tuple (List.replicate k (.slice .full) ++ [a])

/-- The elements `p j` of axis `k` of the compute domain, in the order of `j < n`; positions `p` count from the start of
the array. -/
def IsTake {α : Type} (q : Quantity α) (k n : Nat) (p : Nat → Int) (w : NDArray α) : Prop :=
  w.shape = (q.extent.map Int.toNat).set k n ∧
  ∀ idx, InB w.shape idx → w.get idx = q.data.get ((absIdx q.origin idx).set k (p (idx.getD k 0)).toNat)

end FV3.Fancy
