import Verif.Model.DataArray
import Verif.Model.Dict

/-!
# State files (io.py, _xarray.py)

A state is a dictionary of quantities and possibly a time.  Files hold datasets.  How the netCDF
layer stores one variable is a parameter (`codec`): what is read for what was written, or the exception
it raises for a variable which it cannot store.  `filesystem.open` of a file to be written does not raise.
-/

namespace FV3.StateFile
variable {α T : Type}

/-- A model state: the entry "time", if any, and the other entries. (io.py:9-55, _xarray.py:15-21) -/
structure State (α T : Type) where
  vars : Dict String (Quantity α)
  time : Option T

/-- The entry "time" of a file: a scalar time, another scalar, or an array with the given dimensions.
(io.py:9-55, _xarray.py:15-21) -/
inductive TimeVar (T : Type) where
  | time (t : T)
  | otherScalar
  | array (dims : List String)

/-- An `xarray.Dataset` (io.py:9-55, _xarray.py:15-21) -/
structure Dataset (α T : Type) where
  vars : Dict String (DataArray α)
  time : Option (TimeVar T)

/-- constants.py:2-9: the strings. -/
def dimName : Dim → String
  | .x => "x"
  | .xI => "x_interface"
  | .y => "y"
  | .yI => "y_interface"
  | .z => "z"
  | .zI => "z_interface"
  | .zSoil => "z_soil"
  | .tile => "tile"
  | .other s => s

/-- The dimensions of a dataset with their sizes. (io.py:9-55, _xarray.py:15-21) -/
def sizes (vars : Dict String (DataArray α)) : List (String × Nat) :=
  vars.flatMap fun p => (p.2.dims.map dimName).zip p.2.data.shape

/-- `xarray.Dataset(data_vars)`: ValueError if a dimension has two sizes, or if a variable has the
name of a dimension without being one-dimensional along it. (io.py:9-55, _xarray.py:15-21) -/
def mkDataset (vars : Dict String (DataArray α)) (time : Option T) : Py (Dataset α T) :=
  let sz := sizes vars
  if sz.all (fun p => sz.all fun q => decide (p.1 = q.1 → p.2 = q.2)) = false then .error .valueError
  else if vars.all (fun p => decide ((∃ q ∈ sz, q.1 = p.1) → p.2.dims.map dimName = [p.1])) = false then
    .error .valueError
  else if time.isSome ∧ ∃ q ∈ sz, q.1 = "time" then .error .valueError
  else .ok ⟨vars, time.map .time⟩

/-- Loop of `to_dataset`. (io.py:9-55, _xarray.py:15-21) -/
def dataArrays : Dict String (Quantity α) → Py (Dict String (DataArray α))
  | [] => .ok []
  | (name, q) :: rest => do
    let a ← q.dataArray
    let l ← dataArrays rest
    return (name, a) :: l

/-- _xarray.py:15-21 `to_dataset` -/
def toDataset (s : State α T) : Py (Dataset α T) := do
  let l ← dataArrays s.vars
  mkDataset l s.time

/-- `ds.data_vars`: the variables that do not have the name of a dimension (those are
coordinates). (io.py:9-55, _xarray.py:15-21) -/
def dataVars (d : Dataset α T) : Dict String (DataArray α) :=
  d.vars.filter fun p => decide (∀ q ∈ sizes d.vars, q.1 ≠ p.1)

/-- What a file holds: a dataset, or what is there between the opening for writing, which empties the file, and the
end of `to_netcdf`. (io.py:18-20) -/
inductive Content (α T : Type) where
  | whole (d : Dataset α T)
  | damaged

/-- The files. (io.py:9-55, _xarray.py:15-21) -/
abbrev Files (α T : Type) := Dict String (Content α T)

/-- The variables as the netCDF layer stores them, one after the other. (io.py:20) -/
def encode (codec : DataArray α → Py (DataArray α)) : Dict String (DataArray α) → Py (Dict String (DataArray α))
  | [] => .ok []
  | (name, a) :: rest => do
    let a ← codec a
    let l ← encode codec rest
    return (name, a) :: l

/-- io.py:9-20 `write_state`: the contents of the files, one after the other, while it runs (a process that is killed
leaves one of them), and the exception, if any. -/
def writeSteps (codec : DataArray α → Py (DataArray α)) (s : State α T) (filename : String) (fs : Files α T) :
    List (Files α T) × Option PyErr :=
  if s.time.isNone then ([fs], some .valueError)
  else
    match toDataset s with
    | .error e => ([fs], some e)
    | .ok ds =>
      let opened := Dict.set fs filename .damaged
      match encode codec ds.vars with
      | .error e => ([fs, opened], some e)
      | .ok vars => ([fs, opened, Dict.set fs filename (.whole ⟨vars, ds.time⟩)], none)

/-- io.py:9-20 `write_state`: the files afterwards, and the exception, if any. -/
def writeState (codec : DataArray α → Py (DataArray α)) (s : State α T) (filename : String) (fs : Files α T) :
    Files α T × Option PyErr :=
  ((writeSteps codec s filename fs).1.getLastD fs, (writeSteps codec s filename fs).2)

/-- io.py:23-35 `_extract_time` -/
def extractTime : TimeVar T → Py T
  | .time t => .ok t
  | .otherScalar => .error .valueError
  | .array _ => .error .valueError

/-- Loop of `read_state` over the variables except "time". (io.py:9-55, _xarray.py:15-21) -/
def quantities : Dict String (DataArray α) → Py (Dict String (Quantity α))
  | [] => .ok []
  | (name, a) :: rest => do
    let q ← Quantity.fromDataArray a
    let l ← quantities rest
    return (name, q) :: l

/-- The entry "time" among `ds.data_vars`: an array along the dimension "time" is a coordinate and
is not one of them. (io.py:48-53) -/
def timeVar (d : Dataset α T) : Option (TimeVar T) :=
  match d.time with
  | some (.array dims) => if dims = ["time"] then none else some (.array dims)
  | v => v

/-- io.py:38-55 `read_state` (a missing file raises FileNotFoundError, an OSError).  What reading a damaged file gives
depends on how much of it is there; RuntimeError stands for all of that, and nothing is claimed about it. -/
def readState (filename : String) (fs : Files α T) : Py (State α T) :=
  match Dict.get? fs filename with
  | none => .error .osError
  | some .damaged => .error .runtimeError
  | some (.whole ds) => do
    let vars ← quantities (dataVars ds)
    match timeVar ds with
    | none => return ⟨vars, none⟩
    | some tv =>
      let t ← extractTime tv
      return ⟨vars, some t⟩

end FV3.StateFile
