import Verif.Spec.Zarr
import Verif.Proofs.Place

/-!
# What a reader may rely on in a store whose writers were killed (C62)
-/

namespace FV3
namespace Zarr
variable {α : Type}

/-- How many time steps a reader of the store sees in array `name`: the length of its first axis, 0 without array. -/
def Store.steps (S : Store α) (name : String) : Nat :=
  match S.infos name with
  | some i => i.shape.getD 0 0
  | none => 0

/-- All of step `t` of variable `name` is in the store: at every point of every tile there is the value
that the responsible rank had (of the ranks that have the point, the highest one). -/
def Store.HasStep (S : Store α) (l : Layout) (v : VarSpec) (q : Nat → Int → Quantity α) (name : String) (t : Nat) : Prop :=
  ∀ T, T < 6 → ∀ p, InB (v.tile.map Int.toNat) p →
    ∃ r rel, HighestAt (.cube l) v.dims v.cells (rankShape v.dims v.cells) r rel ∧
      (Comm.cube l).place v.dims v.cells r rel = T :: p ∧ S.read name (t :: T :: p) = some ((q t r).computeArr.get rel)

end Zarr
end FV3
