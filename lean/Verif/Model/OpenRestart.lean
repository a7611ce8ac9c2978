import Verif.Model.TileComm
import Verif.Model.Restart
import Verif.Model.Coupler

/-!
# open_restart (_legacy_restart.py:19-73)

Simplifications: a date is represented by a number, by means of `construct`, and so is an array called
"time" in a restart file, by means of `tok`.  Opening a file that does not exist raises
FileNotFoundError, an OSError.
-/

namespace FV3.Restart
variable {α : Type}

/-- What is read from the file system: netCDF files by their variables, and the text of coupler.res.
(filesystem.py:11-16, _legacy_restart.py:54-56, 72-73) -/
structure FileSys (α : Type) where
  nc : List Char → Option (Dict String (DataArray α))
  text : List Char → Option (List Char)
  isFile : List Char → Bool
  exists_ : List Char → Bool

/-- The arguments of `open_restart` (_legacy_restart.py:19-26) without the communicator and `to_state`,
which differ from rank to rank. -/
structure Args where
  dirname : List Char
  label : Option (List Char)
  onlyNames : Option (List String)
  tracer : Option Table

/-- _legacy_restart.py:40-43 -/
def Args.table (a : Args) (builtin : Table) : Table :=
  match a.tracer with
  | none => builtin
  | some t => mergeTables t builtin

/-- An entry of the state dictionary. (_legacy_restart.py:153-156) -/
def toSVal (tok : DataArray α → Int) : Value α → SVal α
  | .quantity q => .qty q
  | .array a => .time (tok a)

/-- `state.update(...)` (_legacy_restart.py:49) -/
def updateState (tok : DataArray α → Int) (s : CState α) (new : Dict String (Value α)) : CState α :=
  new.foldl (fun s p => Dict.set s p.1 (toSVal tok p.2)) s

/-- The loop of _legacy_restart.py:48-53; files are opened one after the other (70-73). -/
def loadFiles (fs : FileSys α) (tok : DataArray α → Int) (t : Table) (only : Option (List String)) :
    List (List Char) → CState α → Py (CState α)
  | [], s => .ok s
  | f :: rest, s =>
    match fs.nc f with
    | none => .error .osError
    | some file => do
      let new ← loadPartialState file t only
      loadFiles fs tok t only rest (updateState tok s new)

/-- _legacy_restart.py:16, 66-67 `get_coupler_res_filename` -/
def couplerFilename (dirname : List Char) (label : Option (List Char)) : List Char :=
  pathJoin dirname (prependLabel "coupler.res".toList label)

/-- `only_names is None or "time" in only_names` (_legacy_restart.py:56) -/
def timeRequested : Option (List String) → Bool
  | none => true
  | some l => decide ("time" ∈ l)

/-- _legacy_restart.py:54-58 -/
def loadTime (fs : FileSys α) (construct : Coupler.Calendar → Int → Int → Int → Int → Int → Int → Py Int)
    (a : Args) (s : CState α) : Py (CState α) :=
  let f := couplerFilename a.dirname a.label
  if fs.isFile f && timeRequested a.onlyNames then
    match fs.text f with
    | none => .error .osError
    | some txt => do
      let d ← Coupler.getCurrentDate construct txt
      return Dict.set s "time" (.time d)
  else .ok s

/-- _legacy_restart.py:46-58: what the root rank of a tile loads. -/
def loadTile (fs : FileSys α) (tok : DataArray α → Int)
    (construct : Coupler.Calendar → Int → Int → Int → Int → Int → Int → Py Int) (builtin : Table) (a : Args)
    (tile : Int) : Py (CState α) := do
  let s ← loadFiles fs tok (a.table builtin) a.onlyNames
    (restartFilenames fs.isFile fs.exists_ a.dirname tile a.label) []
  loadTime fs construct a s

/-- _legacy_restart.py:19-63 `open_restart` on rank `r`, after its tile communicator has been made:
`i` is the rank in the tile. -/
def openRestartIn (fs : FileSys α) (tok : DataArray α → Int)
    (construct : Coupler.Calendar → Int → Int → Int → Int → Int → Int → Py Int) (builtin : Table) (a : Args)
    (junk : List Nat → α) (l : Layout) (toState : Option (CState α)) (r i : Int) : CollM α (CState α) := do
  let tile ← .lift (tileIndex l r)
  let s ← (if i = ROOT_RANK then .lift (loadTile fs tok construct builtin a tile) else return [])
  scatterState (.tile l) junk i (some s) toState

/-- _legacy_restart.py:19-63 `open_restart` on rank `r` of the cube. -/
def openRestart (fs : FileSys α) (tok : DataArray α → Int)
    (construct : Coupler.Calendar → Int → Int → Int → Int → Int → Int → Py Int) (builtin : Table) (a : Args)
    (junk : List Nat → α) (l : Layout) (toState : Int → Option (CState α)) (r : Int) :
    Proc (Msg α) (Py (CState α) × Nat) :=
  onTile l r fun i => openRestartIn fs tok construct builtin a junk l (toState r) r i

end FV3.Restart
