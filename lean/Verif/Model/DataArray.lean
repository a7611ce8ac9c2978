import Verif.Model.Quantity

/-!
# xarray.DataArray, as far as it is used
-/

namespace FV3

/-- An `xarray.DataArray`: values, dimension names and the attribute "units" (other attributes
and coordinates are not modelled). (quantity.py:329-357, 469-471) -/
structure DataArray (α : Type) where
  data : NDArray α
  dims : List Dim
  units : Option String

namespace DataArray
variable {α : Type}

/-- The index with the entry of one axis added. (used for _legacy_restart.py:143) -/
def insertAt (k v : Nat) (i : List Nat) : List Nat := i.take k ++ v :: i.drop k

/-- `isel(dim=0)`: the first element along a dimension, if the array has it. (_legacy_restart.py:143) -/
def isel0 (d : Dim) (a : DataArray α) : DataArray α :=
  if d ∈ a.dims then
    let k := a.dims.idxOf d
    ⟨⟨a.data.shape.eraseIdx k, fun i => a.data.get (insertAt k 0 i)⟩, a.dims.eraseIdx k, a.units⟩
  else a

end DataArray

/-- quantity.py:329-357 `Quantity.from_data_array` for arrays of numpy (no gt4py backend). -/
def Quantity.fromDataArray {α : Type} (a : DataArray α) (origin extent : Option (List Int) := none) : Py (Quantity α) :=
  match a.units with
  | none => .error .valueError
  | some u => Quantity.mk? a.data a.dims u origin extent

/-- quantity.py:469-471 `Quantity.data_array`. -/
def Quantity.dataArray {α : Type} (q : Quantity α) : Py (DataArray α) := do
  let v ← q.viewGet (.one (.slice .full))
  return ⟨v, q.dims, some q.units⟩

end FV3
