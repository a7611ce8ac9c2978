import Verif.Model.Memory
import Verif.Model.Sizer

/-!
# `QuantityFactory` with numpy or with gt4py storages (initialization/allocator.py)
-/

namespace FV3
namespace Mem
variable {α : Type}

/-- What provides `empty`, `zeros` and `ones`: the numpy module, or `StorageNumpy(backend)`. (allocator.py:20-47) -/
inductive Allocator where
  | numpy
  | storage (backend : String)

/-- The backend of the storages. (allocator.py:38-47 `QuantityFactory.from_backend`) -/
def Allocator.backend : Allocator → Option String
  | .numpy => none
  | .storage b => some b

/-- A call of `empty`, `zeros` or `ones`: the default origin which the storage gets, and the operation.  numpy's functions
have no argument `default_origin`: TypeError.  `StorageNumpy`'s give zeros for it to gt4py by position; if the
caller has given it too it is there twice: TypeError.  A negative length raises ValueError.  `fill`: the
elements. (numpy, gt4py; allocator.py:11-17 `_wrap_storage_call`, 20-30 `StorageNumpy`) -/
def Allocator.call (a : Allocator) (shape : List Int) (fill : List Nat → α) (defaultOrigin : Option (List Int)) :
    Py (Option (List Int) × Op α) :=
  if defaultOrigin.isSome then .error .typeError
  else
    match npFull shape fill with
    | .error e => .error e
    | .ok x =>
      match a with
      | .numpy => .ok (none, .array x false)
      | .storage b => .ok (some (List.replicate shape.length 0), .storage b x)

/-- allocator.py:64-67: with a default origin, and without one after a TypeError. -/
def Allocator.tryCall (a : Allocator) (shape : List Int) (fill : List Nat → α) (origin : List Int) :
    Py (Option (List Int) × Op α) :=
  match a.call shape fill (some origin) with
  | .error .typeError => a.call shape fill none
  | r => r

/-- allocator.py:58-68 `QuantityFactory._allocate`, 49-56 `empty`, `zeros`, `ones`: the array or storage becomes a variable,
then the quantity. -/
def World.allocate (g : Gt4py) (W : World α) (a : Allocator) (s : GridSizer) (fill : List Nat → α) (dims : List Dim)
    (units : String) : Py Unit × World α :=
  match s.getExtent dims with
  | .error e => (.error e, W)
  | .ok extent =>
    match s.getShape dims with
    | .error e => (.error e, W)
    | .ok shape =>
      match a.tryCall shape fill (s.getOrigin dims) with
      | .error e => (.error e, W)
      | .ok (_, op) => (W.step g op).2.step g (.quantity W.objs.length dims units (some (s.getOrigin dims)) (some extent) none)

end Mem
end FV3
