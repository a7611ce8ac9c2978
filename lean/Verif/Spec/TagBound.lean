import Verif.Model.TagBound

/-!
# How many tags a program takes
-/

namespace FV3
variable {α : Type}

/-- Tags that a call takes: one for a halo update and for a synchronisation, two for a vector halo update, when they are
started; none for anything else. -/
def AOp.tagCount : AOp α → Nat
  | .op (.halo _ _) => 1
  | .op (.vector _ _ _) => 2
  | .op (.sync _ _) => 1
  | _ => 0

/-- Tags that a sequence of calls takes. -/
def tagCount (ops : List (AOp α)) : Nat := (ops.map AOp.tagCount).sum

/-- The same for blocking calls. -/
def SOp.tagCount : SOp α → Nat
  | .call (.haloUpdate _ _) => 1
  | .call (.vectorHaloUpdate _ _ _) => 2
  | .call (.synchronize _ _) => 1
  | _ => 0

/-- Tags that the calls of communicator object `c` take. -/
def tagCountOf (c : Nat) (ops : List (Nat × SOp α)) : Nat :=
  ((ops.filter fun x => x.1 = c).map fun x => x.2.tagCount).sum

end FV3
