import Verif.Model.TileComm
import Verif.Spec.Collective

/-!
# All ranks of a cube using their tile communicators
-/

namespace FV3
variable {α A : Type}

/-- All ranks of the cube; rank `r` runs `prog r` on its tile communicator (`prog r` gets the rank in the
tile); nothing has been sent yet. -/
def tilesNet (l : Layout) (prog : Int → Int → CollM α A) : Net (Msg α) (Option (Py A)) :=
  Net.start fun r =>
    if 0 ≤ r ∧ r < l.cubeRanks then (onTile l r (prog r)).bind fun x => .ret (some x.1) else .ret none

/-- Whatever the schedule, all ranks of the cube finish; rank `r` with result (or exception) `out r`. -/
def TilesReturn (buf : Buffering) (l : Layout) (prog : Int → Int → CollM α A) (out : Int → Py A) : Prop :=
  (tilesNet l prog).Completes buf fun r => if 0 ≤ r ∧ r < l.cubeRanks then some (out r) else none

end FV3
