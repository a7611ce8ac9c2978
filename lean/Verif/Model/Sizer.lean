import Verif.Model.Quantity
import Verif.Model.Partitioner
import Verif.Model.Dict

/-!
# Array sizes and allocation (initialization/sizer.py, initialization/allocator.py)

Not modelled: gt4py storages (`StorageNumpy`, `from_backend`); the `numpy` of the factory is the
numpy module, for which the call with `default_origin` raises TypeError and the second call is made.
-/

namespace FV3

/-- sizer.py:9-21 `GridSizer`. -/
structure GridSizer where
  nx : Int
  ny : Int
  nz : Int
  nHalo : Int
  extra : Dict Dim Int

/-- constants.py:28 -/
def N_HALO_DEFAULT : Int := 3

/-- sizer.py:33-69 `SubtileGridSizer.from_tile_params`; `tp` is the layout of the optional
partitioner. -/
def GridSizer.fromTileParams (nxTile nyTile nz nHalo : Int) (extra : Dict Dim Int) (layout : Layout)
    (tp : Option Layout := none) (tileRank : Int := 0) : GridSizer :=
  let part := tp.getD layout
  match Tile.subtileSlice part tileRank [.y, .x] [nyTile, nxTile] true with
  | [ySlice, xSlice] => ⟨xSlice.2 - xSlice.1, ySlice.2 - ySlice.1, nz, nHalo, extra⟩
  | _ => ⟨0, 0, nz, nHalo, extra⟩  -- does not happen: two dimensions give two slices

/-- The entries of the `fv_core_nml` namelist which are read. (sizer.py:88-92) -/
structure FvCoreNml where
  layout : Layout
  npx : Int
  npy : Int
  npz : Int

/-- sizer.py:71-102 `SubtileGridSizer.from_namelist` (a namelist with the entries; a missing one
raises KeyError). -/
def GridSizer.fromNamelist (nml : FvCoreNml) (tp : Option Layout := none) (tileRank : Int := 0) :
    GridSizer :=
  fromTileParams (nml.npx - 1) (nml.npy - 1) nml.npz N_HALO_DEFAULT [] nml.layout tp tileRank

namespace GridSizer

/-- sizer.py:104-117 `dim_extents`. -/
def dimExtents (s : GridSizer) : Dict Dim Int :=
  (((((s.extra.set .x s.nx).set .xI (s.nx + 1)).set .y s.ny).set .yI (s.ny + 1)).set .z s.nz).set .zI (s.nz + 1)

/-- The dictionary of sizer.py:129-141. -/
def shapeDict (s : GridSizer) : Dict Dim Int :=
  (((((s.extra.set .x (s.nx + 1 + 2 * s.nHalo)).set .xI (s.nx + 1 + 2 * s.nHalo)).set .y (s.ny + 1 + 2 * s.nHalo)).set
    .yI (s.ny + 1 + 2 * s.nHalo)).set .z (s.nz + 1)).set .zI (s.nz + 1)

/-- `tuple(d[dim] for dim in dims)`: KeyError for a name which is not in the dictionary. (sizer.py:119-142) -/
def lookupAll (d : Dict Dim Int) : List Dim → Py (List Int)
  | [] => .ok []
  | k :: ks =>
    match d.get? k with
    | none => .error .keyError
    | some v => do
      let vs ← lookupAll d ks
      return v :: vs

/-- sizer.py:119-123 `get_origin`. -/
def getOrigin (s : GridSizer) (dims : List Dim) : List Int :=
  dims.map fun d => if d ∈ HORIZONTAL_DIMS then s.nHalo else 0

/-- sizer.py:125-127 `get_extent`. -/
def getExtent (s : GridSizer) (dims : List Dim) : Py (List Int) := lookupAll s.dimExtents dims

/-- sizer.py:129-142 `get_shape`. -/
def getShape (s : GridSizer) (dims : List Dim) : Py (List Int) := lookupAll s.shapeDict dims

end GridSizer

/-- `numpy.zeros(shape)`, `numpy.ones(shape)`, `numpy.empty(shape)`: ValueError for a negative
length; `fill` is the value of the elements (arbitrary for `empty`). (allocator.py:49-56, 64-67) -/
def npFull {α : Type} (shape : List Int) (fill : List Nat → α) : Py (NDArray α) :=
  if shape.all fun n => decide (0 ≤ n) then .ok ⟨shape.map Int.toNat, fill⟩ else .error .valueError

/-- allocator.py:58-68 `QuantityFactory._allocate`, and with the fill values of `numpy.empty`,
`numpy.zeros` and `numpy.ones` the methods at 49-56. -/
def GridSizer.allocate {α : Type} (s : GridSizer) (fill : List Nat → α) (dims : List Dim) (units : String) :
    Py (Quantity α) := do
  let origin := s.getOrigin dims
  let extent ← s.getExtent dims
  let shape ← s.getShape dims
  let data ← npFull shape fill
  Quantity.mk? data dims units (some origin) (some extent)

end FV3
