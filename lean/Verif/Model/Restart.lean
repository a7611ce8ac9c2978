import Verif.Model.DataArray
import Verif.Model.Dict
import Verif.Model.StateFile
import Verif.Model.Text
import Verif.Model.Partitioner

/-!
# Restart files (_legacy_restart.py, _properties.py)

Names of variables are strings, names of files are lists of characters.  Reading netCDF files is
represented by the dictionary of their variables.
-/

namespace FV3.Restart
variable {α : Type}

/-! ### variables -/

/-- An entry of `RESTART_PROPERTIES` (_properties.py:12). -/
structure Props where
  dims : List Dim
  restartName : String
  units : String
  deriving DecidableEq, Repr

/-- `RestartProperties`: standard name -> properties. (_properties.py:1-12) -/
abbrev Table := Dict String Props

/-- _legacy_restart.py:40-43: `{**tracer_properties, **RESTART_PROPERTIES}` -/
def mergeTables (tracer builtin : Table) : Table :=
  builtin.foldl (fun d p => Dict.set d p.1 p.2) tracer

/-- _legacy_restart.py:160-168 `_get_restart_standard_names`: restart name -> standard name. -/
def standardNames (t : Table) : Dict String String :=
  t.foldl (fun d p => Dict.set d p.2.restartName p.1) []

/-- _legacy_restart.py:123-130 `map_keys`.  (The second loop runs over a set; its order does not
matter for the contents of the result.  Here it is the order of `old`.) -/
def mapKeys {V : Type} (old : Dict String V) (oldToNew : Dict String String) : Dict String V :=
  let d1 := oldToNew.foldl (fun (d : Dict String V) p =>
    match Dict.get? old p.1 with
    | some v => Dict.set d p.2 v
    | none => d) []
  (old.filter fun p => !Dict.has oldToNew p.1).foldl (fun d p => Dict.set d p.1 p.2) d1

/-- _legacy_restart.py:105-107 `_apply_dims`: the last dimensions get new names; xarray rejects
duplicate names.  (`da.dims[-0:]` is all dimensions, but then there is nothing to rename.) -/
def applyDims (da : DataArray α) (new : List Dim) : Py (DataArray α) :=
  let k := new.length
  let n := da.dims.length
  let dims := da.dims.take (n - k) ++ new.take (min n k)
  if dims.Nodup then .ok { da with dims := dims } else .error .valueError

/-- _legacy_restart.py:110-120, the body of the loop of `_apply_restart_metadata`. -/
def applyOne (t : Table) (name : String) (da : DataArray α) : Py (DataArray α) :=
  match Dict.get? t name with
  | none => .ok da
  | some p => do
    let d ← applyDims da p.dims
    return { d with units := some p.units }

/-- _legacy_restart.py:110-120 `_apply_restart_metadata` -/
def applyMetadata (t : Table) : Dict String (DataArray α) → Py (Dict String (DataArray α))
  | [] => .ok []
  | (name, da) :: rest => do
    let d ← applyOne t name da
    let ds ← applyMetadata t rest
    return (name, d) :: ds

/-- A value of the loaded state: a quantity, or (for the name "time") an array. (_legacy_restart.py:140-157) -/
inductive Value (α : Type) where
  | quantity (q : Quantity α)
  | array (a : DataArray α)

/-- _legacy_restart.py:146-152: the filter. -/
def wanted (onlyNames : Option (List String)) (name : String) (da : DataArray α) : Bool :=
  (name == "time" || da.units.isSome) &&
    match onlyNames with
    | none => true
    | some l => decide (name ∈ l)

/-- _legacy_restart.py:153-156: conversion to quantities. -/
def toValues : Dict String (DataArray α) → Py (Dict String (Value α))
  | [] => .ok []
  | (name, da) :: rest => do
    let v ← if name = "time" then .ok (.array da) else (Quantity.fromDataArray da).map .quantity
    let vs ← toValues rest
    return (name, v) :: vs

/-- `xr.open_dataset(file).isel(Time=0).drop_vars("Time")`, and its `data_vars`: the first time level of the variables
that do not have the name of a dimension (those are coordinates).  ValueError if the file has no dimension "Time" or no
variable "Time", IndexError if it has no time level. (_legacy_restart.py:143-144) -/
def firstLevel (file : Dict String (DataArray α)) : Py (Dict String (DataArray α)) :=
  let sz := StateFile.sizes file
  match sz.find? fun p => p.1 = "Time" with
  | none => .error .valueError
  | some p =>
    if p.2 = 0 then .error .indexError
    else if Dict.has file "Time" = false then .error .valueError
    else .ok ((file.filter fun p => decide (∀ q ∈ sz, q.1 ≠ p.1)).map fun p => (p.1, p.2.isel0 (.other "Time")))

/-- _legacy_restart.py:140-157 `load_partial_state_from_restart_file` for a file with the given
variables. -/
def loadPartialState (file : Dict String (DataArray α)) (t : Table) (onlyNames : Option (List String)) :
    Py (Dict String (Value α)) := do
  let vars ← firstLevel file
  let state ← applyMetadata t (mapKeys vars (standardNames t))
  toValues (state.filter fun p => wanted onlyNames p.1 p.2)

/-! ### file names -/

open Text

/-- `f"{i}"` (_legacy_restart.py:77, 99) -/
def decInt (i : Int) : List Char := if i < 0 then '-' :: dec (-i).toNat else dec i.toNat

/-- _legacy_restart.py:90-102 `get_rank_suffix` -/
def getRankSuffix (rank totalRanks : Int) : Py (List Char) := do
  if pymod totalRanks 6 ≠ 0 then .error .valueError
  else
    let perTile := pydiv totalRanks 6
    let tile ← getTileIndex rank totalRanks
    let count := pymod rank perTile
    if totalRanks > 6 then
      return ".tile".toList ++ decInt (tile + 1) ++ ".nc.".toList ++ dec4 count.toNat
    else return ".tile".toList ++ decInt (tile + 1) ++ ".nc".toList

/-- _legacy_restart.py:133-137 `prepend_label` -/
def prependLabel (filename : List Char) (label : Option (List Char)) : List Char :=
  match label with
  | none => filename
  | some l => if l.length > 0 then l ++ '.' :: filename else filename

/-- `os.path.join(dirname, filename)` (POSIX) (_legacy_restart.py:67, 80) -/
def pathJoin (dirname filename : List Char) : List Char :=
  if filename.head? = some '/' then filename
  else if dirname = [] ∨ dirname.getLast? = some '/' then dirname ++ filename
  else dirname ++ '/' :: filename

/-- _legacy_restart.py:14 `RESTART_NAMES` -/
def restartNames : List (List Char) := ["fv_core.res".toList, "fv_srf_wnd.res".toList, "fv_tracer.res".toList]
/-- _legacy_restart.py:15 `RESTART_OPTIONAL_NAMES` -/
def optionalNames : List (List Char) := ["sfc_data".toList, "phy_data".toList]

/-- The name of one file (_legacy_restart.py:77, 80). -/
def restartFilename (dirname : List Char) (tileIndex : Int) (label : Option (List Char)) (name : List Char) :
    List Char :=
  pathJoin dirname (prependLabel name label ++ (".tile".toList ++ decInt (tileIndex + 1) ++ ".nc".toList))

/-- _legacy_restart.py:76-87 `restart_filenames`; `isFile` and `exists_` are the answers of the
file system. -/
def restartFilenames (isFile exists_ : List Char → Bool) (dirname : List Char) (tileIndex : Int)
    (label : Option (List Char)) : List (List Char) :=
  ((restartNames ++ optionalNames).filter fun name =>
    let f := restartFilename dirname tileIndex label name
    decide (name ∈ restartNames) || isFile f || exists_ f).map (restartFilename dirname tileIndex label)

end FV3.Restart
