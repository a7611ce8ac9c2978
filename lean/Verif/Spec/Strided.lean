import Verif.Model.Strided

/-!
# Elements in order, disjoint memory
-/

namespace FV3
namespace Strided
variable {α : Type}

/-- The elements of an array in row-major order. -/
def elements (a : NDArray α) : List α := (allIdx a.shape).map a.get

/-- Two different elements are at different addresses. -/
def View.Injective (v : View) : Prop :=
  ∀ idx idx', InB v.shape idx → InB v.shape idx' → v.addr idx = v.addr idx' → idx = idx'

/-- Address `a` is that of an element of the array. -/
def View.Has (v : View) (a : Int) : Prop := ∃ idx, InB v.shape idx ∧ v.addr idx = a

/-- Views that basic indexing, flips and exchanges of axes make from an array in C order. -/
inductive ViewOf (base : Int) (shape : List Nat) : View → Prop where
  | whole : ViewOf base shape (fresh base shape)
  | slice (v : View) (ix : List Ix) (rs : List RIx) : ViewOf base shape v → resolveAll ix v.shape = .ok rs →
      ViewOf base shape (v.slice rs)
  | flip (v : View) (ax : Nat) : ViewOf base shape v → ax < v.shape.length → ViewOf base shape (v.flip ax)
  | swap (v : View) (p q : Nat) : ViewOf base shape v → p < v.shape.length → q < v.shape.length →
      ViewOf base shape (v.swapAxes p q)

end Strided
end FV3
