import Verif.Model.Basic

/-! # Directions of boundary types -/

namespace FV3

/-- Step in x of a boundary type. -/
def BType.dx : BType → Int
  | .west | .nw | .sw => -1
  | .east | .ne | .se => 1
  | .north | .south => 0

/-- Step in y of a boundary type. -/
def BType.dy : BType → Int
  | .south | .sw | .se => -1
  | .north | .nw | .ne => 1
  | .west | .east => 0

/-- The opposite direction. -/
def BType.opposite : BType → BType
  | .west => .east | .east => .west | .north => .south | .south => .north
  | .nw => .se | .se => .nw | .ne => .sw | .sw => .ne

/-- One counterclockwise quarter turn. -/
def BType.ccw : BType → BType
  | .east => .north | .north => .west | .west => .south | .south => .east
  | .ne => .nw | .nw => .sw | .sw => .se | .se => .ne

/-- `k` counterclockwise quarter turns. -/
def BType.ccwN : Nat → BType → BType
  | 0, b => b
  | k + 1, b => (BType.ccwN k b).ccw

theorem BType.ccw_step (b : BType) : b.ccw.dx = -b.dy ∧ b.ccw.dy = b.dx := by
  cases b <;> decide

theorem BType.opposite_step (b : BType) : b.opposite.dx = -b.dx ∧ b.opposite.dy = -b.dy := by
  cases b <;> decide

/-- Boundary types are determined by their steps. -/
theorem BType.eq_of_step {b c : BType} (h1 : b.dx = c.dx) (h2 : b.dy = c.dy) : b = c := by
  cases b <;> cases c <;> first | rfl | (exfalso; revert h1 h2; decide)

/-- The four corners. -/
def BType.isCorner : BType → Bool
  | .nw | .ne | .sw | .se => true
  | _ => false

end FV3
