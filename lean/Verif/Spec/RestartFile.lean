import Verif.Model.Restart

/-!
# What a restart file has to contain
-/

namespace FV3.Restart
variable {α : Type}

/-- `n` is the name of a dimension of the file (a variable of that name describes the axis). -/
def IsDimension (file : Dict String (DataArray α)) (n : String) : Prop :=
  ∃ v da, Dict.get? file v = some da ∧ ∃ d ∈ da.dims, StateFile.dimName d = n

/-- Time levels: there is a dimension "Time", with at least one level, and a variable "Time". -/
structure HasTime (file : Dict String (DataArray α)) : Prop where
  axis : "Time" ∈ Dict.keys file
  used : IsDimension file "Time"
  level : ∀ v da k, Dict.get? file v = some da → da.dims[k]? = some (.other "Time") → 0 < da.data.shape.getD k 0

end FV3.Restart
