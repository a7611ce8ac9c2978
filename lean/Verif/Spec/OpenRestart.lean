import Verif.Model.OpenRestart
import Verif.Props.Restart
import Verif.Spec.TileComm
import Verif.Spec.CollState

/-!
# Specification of open_restart
-/

namespace FV3.Restart
variable {α : Type}

/-- A file which can be loaded: it exists, its variables are arrays, it has time levels, no two variables get the same name,
and the names of dimensions fit. -/
structure Loadable (fs : FileSys α) (t : Table) (f : List Char) : Prop where
  found : ∃ file, fs.nc f = some file ∧ (Dict.keys file).Nodup ∧
    (∀ v da, Dict.get? file v = some da → da.dims.length = da.data.shape.length) ∧ HasTime file ∧
    (∀ v w, v ∈ Dict.keys file → w ∈ Dict.keys file → ¬ IsDimension file v → ¬ IsDimension file w →
      nameOf (standardNames t) v = nameOf (standardNames t) w → v = w) ∧
    (∀ v da p, Dict.get? file v = some da → ¬ IsDimension file v →
      Dict.get? t (nameOf (standardNames t) v) = some p →
      (renamed (da.isel0 (.other "Time")).dims p.dims).Nodup)

/-- File `f` has a variable (not the description of an axis) which is to be loaded under the name `n`, as `x`: its first time level, with
the dimensions and units of the table if it is there. -/
def Provides (fs : FileSys α) (t : Table) (only : Option (List String)) (f : List Char) (n : String) (x : Value α) :
    Prop :=
  ∃ file v da, fs.nc f = some file ∧ ¬ IsDimension file v ∧ Dict.get? file v = some da ∧
    nameOf (standardNames t) v = n ∧ Requested only n ∧
    (n = "time" ∨ (described t n (da.isel0 (.other "Time"))).units.isSome) ∧
    x = valueOf n (described t n (da.isel0 (.other "Time")))

/-- `x` is what the last of the files which has the variable `n` has for it. -/
def LastProvides (fs : FileSys α) (t : Table) (only : Option (List String)) (files : List (List Char)) (n : String)
    (x : Value α) : Prop :=
  ∃ pre f post, files = pre ++ f :: post ∧ Provides fs t only f n x ∧ ∀ f' ∈ post, ∀ x', ¬ Provides fs t only f' n x'

end FV3.Restart
