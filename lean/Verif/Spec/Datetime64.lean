import Verif.Model.Datetime64

/-!
# Times in microseconds
-/

namespace FV3.Time64

/-- A datetime is the instant `us` microseconds after the beginning of 1970. -/
def Datetime.IsInstant (d : Datetime) (us : Int) : Prop :=
  d.seconds * 1000000 + d.micro = us ∧ 0 ≤ d.micro ∧ d.micro < 1000000

end FV3.Time64
