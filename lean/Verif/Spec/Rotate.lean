import Verif.Model.NDArray

/-!
# Quarter turns of the horizontal plane

The `y` axis (number `ky`) points north, the `x` axis (number `kx`) points east.
-/

namespace FV3

/-- `idx` with other horizontal coordinates. -/
def putYX (ky kx : Nat) (idx : List Nat) (y x : Nat) : List Nat := (idx.set ky y).set kx x

/-- Shape after `k` quarter turns. -/
def turnShape (ky kx : Nat) (k : Int) (s : List Nat) : List Nat :=
  if k % 2 = 0 then s else putYX ky kx s (s.getD kx 0) (s.getD ky 0)

/-- The point of the array of shape `s` which `k` clockwise quarter turns move to `idx`. -/
def turnSrc (ky kx : Nat) (k : Int) (s idx : List Nat) : List Nat :=
  let y := idx.getD ky 0
  let x := idx.getD kx 0
  let ny := s.getD ky 0
  let nx := s.getD kx 0
  if k % 4 = 0 then idx
  else if k % 4 = 1 then putYX ky kx idx x (nx - 1 - y)
  else if k % 4 = 2 then putYX ky kx idx (ny - 1 - y) (nx - 1 - x)
  else putYX ky kx idx (ny - 1 - x) y

/-- `r` is `a` turned `k` times clockwise. -/
def NDArray.IsTurn {α : Type} (ky kx : Nat) (k : Int) (a r : NDArray α) : Prop :=
  r.shape = turnShape ky kx k a.shape ∧
  ∀ idx, InB r.shape idx → r.get idx = a.get (turnSrc ky kx k a.shape idx)

end FV3
