import Verif.Model.FullSession

/-!
# How many tags a complete session takes
-/

namespace FV3
variable {α : Type}

/-- Tags that the calls of a complete session take: one for every halo update and synchronisation that is started, two for
every vector halo update. -/
def fullTags (ops : List (FOp α)) : Nat :=
  (ops.map fun
    | .op (.halo _ _) => 1
    | .op (.vector _ _ _) => 2
    | .op (.sync _ _) => 1
    | _ => 0).sum

end FV3
