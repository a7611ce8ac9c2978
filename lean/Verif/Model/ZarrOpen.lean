import Verif.Model.Zarr

/-!
# ZarrMonitor: opening a store, the default communicator, and a caller who goes on after exceptions
(zarr_monitor.py)
-/

namespace FV3
namespace Zarr
variable {α R : Type}

/-- Modes of `zarr.open_group` which allow writing: "r+", "a", "w", "w-". (zarr library; zarr_monitor.py:47, 58, 64) -/
inductive OpenMode where
  | rPlus
  | a
  | w
  | wMinus
  deriving DecidableEq

/-- `zarr.open_group(store, mode)`; `none`: there is no group yet.  GroupNotFoundError and ContainsGroupError are
ValueErrors. (zarr library; zarr_monitor.py:64) -/
def openGroup : OpenMode → Option (Store α) → Py (Store α)
  | .rPlus, some S => .ok S
  | .rPlus, none => .error .valueError
  | .a, some S => .ok S
  | .a, none => .ok .empty
  | .w, _ => .ok .empty
  | .wMinus, some _ => .error .valueError
  | .wMinus, none => .ok .empty

/-- A program with the default communicator: the rank is 0, `bcast` returns its argument and `barrier` nothing, at
once. (zarr_monitor.py:26-40 `DummyComm`, 48) -/
def Prog.alone : Prog α R → Store α → R × Store α
  | .ret r, S => (r, S)
  | .getInfo n k, S => (k (S.infos n)).alone S
  | .putInfo n i k, S => k.alone (S.putInfo n i)
  | .getChunk n j k, S => (k (S.chunks n j)).alone S
  | .putChunk n j c k, S => k.alone (S.putChunk n j c)
  | .coll (.bcast p) k, S => (k p).alone S
  | .coll .barrier k, S => (k none).alone S

/-- Storing one state after the other, whatever the result: a caller who catches the exceptions.
(zarr_monitor.py:103-113) -/
def storeEach (l : Layout) (enc : Int → α) (junk : List Nat → α) (rank : Int) :
    Monitor → List (State α) → Prog α (List (Py Unit))
  | _, [] => .ret []
  | m, s :: ss =>
    (store l enc junk rank m s).bind fun x => (storeEach l enc junk rank x.2 ss).bind fun rs => .ret (x.1 :: rs)

end Zarr
end FV3
