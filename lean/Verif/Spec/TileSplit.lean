import Verif.Model.TileSplit
import Verif.Spec.TileSession

/-!
# When the tile communicators can be made
-/

namespace FV3
variable {α : Type}

/-- When `communicator.tile` is used for the first time, the ranks of all tiles use it. -/
def FirstUseTogether : List (UOp α) → Prop
  | [] => True
  | .op _ :: ops => FirstUseTogether ops
  | .tiles o :: ops =>
    (∀ t, 0 ≤ t → t < 6 → o t ≠ none) ∨ ((∀ t, 0 ≤ t → t < 6 → o t = none) ∧ FirstUseTogether ops)

/-- The ranks of tile `t` make no collective call of the cubed-sphere communicator and do not use their tile
communicator. -/
def UOp.NoColl (t : Int) : UOp α → Prop
  | .op (.op (.call _)) => True
  | .op _ => False
  | .tiles o => o t = none

end FV3
