import Verif.Model.Strided
import Verif.Model.Quantity

/-!
# Quantities in memory: `data`, `view`, `storage`, `values`, `transpose` (quantity.py)

Model/Quantity.lean has quantities as values.  Here they are objects which refer to memory, which they may share
with arrays, with gt4py storages and with each other.  A program is a sequence of operations on objects; objects are
referred to by the number of objects that were made before them.

Simplifications.
* Addresses count elements; memory is one address space.  A storage on a GPU has one copy of its data (this is what
  `managed_memory=True` is for, quantity.py:400).
* gt4py is a parameter (`Gt4py`): where it puts the elements of a new storage, and of what kind a storage of a backend
  is.  `gt4py.storage.empty` does not raise.
* dtypes are not modelled; data given as lists or numbers: Model/QuantityInit.lean.
* `storage[index]` with the storage of a quantity or another storage gives an object only through reading its elements
  (`World.get`); slices of storages which are storages again are not modelled.
-/

namespace FV3
namespace Mem
open Strided
variable {α : Type}

/-- Kinds of gt4py storages: CPUStorage, GPUStorage, neither. (gt4py; quantity.py:298-309, 407-414) -/
inductive SKind where
  | cpu
  | gpu
  | other
  deriving DecidableEq

/-- gt4py: where `gt4py.storage.empty` puts the elements (an alignment, an order of the axes, some padding), how
much memory it takes, and the kind of the storage. (gt4py; quantity.py:395-401) -/
structure Gt4py where
  start : String → List Nat → Nat
  strides : String → List Nat → List Int
  room : String → List Nat → Nat
  kind : String → SKind
  /-- one stride per axis -/
  axes : ∀ b s, (strides b s).length = s.length
  /-- different elements are at different places -/
  inj : ∀ b s idx idx', InB s idx → InB s idx' → dot (strides b s) idx = dot (strides b s) idx' → idx = idx'
  /-- elements are within the memory taken -/
  within : ∀ b s idx, InB s idx → 0 ≤ (start b s : Int) + dot (strides b s) idx ∧ (start b s : Int) + dot (strides b s) idx < room b s

/-- Data of a new storage whose memory begins at `base`. (gt4py; quantity.py:395-401) -/
def Gt4py.view (g : Gt4py) (backend : String) (base : Int) (shape : List Nat) : View :=
  ⟨base + g.start backend shape, shape, g.strides backend shape⟩

/-- An array object: numpy, or cupy (`gpu`), or gt4py storage. (numpy, cupy, gt4py; quantity.py:298-316, 440-447) -/
structure Arr where
  view : View
  gpu : Bool
  writeable : Bool
  deriving DecidableEq

/-- numpy's `transpose`, which returns a view. (numpy; quantity.py:509) -/
def transposeView (perm : List Nat) (v : View) : View :=
  ⟨v.offset, perm.map fun k => v.shape.getD k 0, perm.map fun k => v.strides.getD k 0⟩

/-- quantity.py:22-37 `QuantityMetadata`, as far as it is not a property of the data. -/
structure Info where
  dims : List Dim
  units : String
  origin : List Int
  extent : List Int
  backend : Option String
  deriving DecidableEq

/-- quantity.py:247-327 `Quantity`: `_data`, `_storage`, the array that `_compute_domain_view` refers to, `_metadata`.
Arrays are objects: they are given by their number in `World.arrs`. -/
structure QObj where
  data : Nat
  storage : Option Nat
  bounded : Nat
  info : Info

/-- What a variable of the program refers to: an array, a storage of some backend and kind, a quantity.
(numpy, gt4py; quantity.py:247-327) -/
inductive Obj where
  | array (a : Nat)
  | storage (a : Nat) (backend : String) (kind : SKind)
  | quantity (q : QObj)

/-- Memory, the first address which has not been used, the array objects, and the variables of the program.
(quantity.py:247-327) -/
structure World (α : Type) where
  mem : Int → α
  next : Int
  arrs : List Arr
  objs : List Obj

/-- How an object is indexed: itself, or for quantities `.data`, `.view`, `.view.northwest` etc., `.storage`.
(quantity.py:138-152, 379-391, 449-457) -/
inductive Via where
  | self
  | data
  | view
  | corner (c : Corner)
  | storage
  deriving DecidableEq

/-- The array that is indexed.  `storage` raises TypeError if there is none. (quantity.py:379-391, 449-457) -/
def Obj.target : Obj → Via → Py Nat
  | .array a, .self => .ok a
  | .storage a _ _, .self => .ok a
  | .quantity q, .data => .ok q.data
  | .quantity q, .view => .ok q.bounded
  | .quantity q, .corner _ => .ok q.bounded
  | .quantity q, .storage =>
    match q.storage with
    | some s => .ok s
    | none => .error .typeError
  | _, _ => .error .attributeError

/-- The metadata of a quantity. (quantity.py:417-419) -/
def Obj.info : Obj → Option Info
  | .quantity q => some q.info
  | _ => none

/-- quantity.py:65-93, 164-198: index expressions of views are converted to those of the array; of other objects they
are left as they are. -/
def viaIndex (info : Option Info) (shape : List Nat) (via : Via) (ix : List Ix) : Py (List Ix) :=
  match info with
  | none => .ok ix
  | some i =>
    let q : Quantity Unit := ⟨⟨shape, fun _ => ()⟩, i.dims, i.units, i.origin, i.extent⟩
    match via with
    | .view => q.computeIndex (.tuple ix)
    | .corner c => q.cornerIndex c (.tuple ix)
    | _ => .ok ix

/-- quantity.py:65-72, 164-171: `__getitem__` of a view of a quantity without axes; it returns the array itself. -/
def zeroDim (info : Option Info) (via : Via) : Bool :=
  match info, via with
  | some i, .view => i.origin.length == 0
  | some i, .corner _ => i.origin.length == 0
  | _, _ => false

/-- The operations of a program. (quantity.py:247-515) -/
inductive Op (α : Type) where
  /-- `numpy.array(x)` or `cupy.array(x)` -/
  | array (x : NDArray α) (gpu : Bool)
  /-- a new gt4py storage with contents `x` -/
  | storage (backend : String) (x : NDArray α)
  /-- `quantity.data` -/
  | dataOf (h : Nat)
  /-- `quantity.storage` -/
  | storageOf (h : Nat)
  /-- `object[index]` -/
  | getItem (h : Nat) (via : Via) (ix : List Ix)
  /-- `object[index] = x` -/
  | setItem (h : Nat) (via : Via) (ix : List Ix) (x : NDArray α)
  /-- `quantity.values` -/
  | values (h : Nat)
  /-- `Quantity(object, dims, units, origin, extent, gt4py_backend)` -/
  | quantity (h : Nat) (dims : List Dim) (units : String) (origin extent : Option (List Int)) (backend : Option String)
  /-- `quantity.transpose(target_dims)` -/
  | transpose (h : Nat) (target : List Quantity.TDim)

/-- A new variable. (quantity.py:247-515) -/
def World.add (W : World α) (o : Obj) : World α := { W with objs := W.objs ++ [o] }

/-- A new array object, on memory that exists. (numpy; quantity.py:305, 308, 403-405, 509) -/
def World.newArr (W : World α) (a : Arr) : World α := { W with arrs := W.arrs ++ [a] }

/-- New memory, with contents. (numpy, gt4py; quantity.py:394-402) -/
def World.alloc (W : World α) (v : View) (room : Nat) (x : NDArray α) : World α :=
  { W with mem := v.assign W.mem x, next := W.next + room }

/-- quantity.py:393-415 `_initialize_storage`: new memory, a copy of the data; storage and data are two array
objects for this memory.  Returns their numbers. -/
def World.initStorage (g : Gt4py) (W : World α) (backend : String) (data : Arr) : Py (Nat × Nat) × World α :=
  let v := g.view backend W.next data.view.shape
  let W1 := W.alloc v (g.room backend data.view.shape) (data.view.read W.mem)
  match g.kind backend with
  | .cpu => (.ok (W.arrs.length, W.arrs.length + 1), (W1.newArr ⟨v, false, true⟩).newArr ⟨v, false, true⟩)
  | .gpu => (.ok (W.arrs.length, W.arrs.length + 1), (W1.newArr ⟨v, true, true⟩).newArr ⟨v, true, true⟩)
  | .other => (.error .notImplemented, W1)

/-- quantity.py:318-327: the checks and the rest of `__init__`. -/
def World.finishInit (W : World α) (shape : List Nat) (data : Nat) (storage : Option Nat) (dims : List Dim) (units : String)
    (origin extent : Option (List Int)) (backend : Option String) : Py Unit × World α :=
  match Quantity.mk? (⟨shape, fun _ => ()⟩ : NDArray Unit) dims units origin extent with
  | .error e => (.error e, W)
  | .ok q => (.ok (), W.add (.quantity ⟨data, storage, data, ⟨dims, units, q.origin, q.extent, backend⟩⟩))

/-- quantity.py:312-317 with an array: it is the data if there is no backend. -/
def World.quantityOfArray (g : Gt4py) (W : World α) (i : Nat) (dims : List Dim) (units : String)
    (origin extent : Option (List Int)) (backend : Option String) : Py Unit × World α :=
  match W.arrs[i]? with
  | none => (.error .keyError, W)
  | some a =>
    match backend with
    | none => W.finishInit a.view.shape i none dims units origin extent none
    | some b =>
      match W.initStorage g b a with
      | (.error e, W') => (.error e, W')
      | (.ok (s, d), W') => W'.finishInit a.view.shape d (some s) dims units origin extent (some b)

/-- quantity.py:252-327 `Quantity.__init__` for arrays and storages.  Of a storage, the data is another array object
for the same memory. -/
def World.quantity (g : Gt4py) (W : World α) (o : Obj) (dims : List Dim) (units : String)
    (origin extent : Option (List Int)) (backend : Option String) : Py Unit × World α :=
  match o with
  | .quantity _ => (.error .attributeError, W)
  | .storage s b kind =>
    match backend, kind, W.arrs[s]? with
    | some _, _, _ => (.error .typeError, W)
    | none, .other, _ => (.error .typeError, W)
    | none, _, none => (.error .keyError, W)
    | none, _, some a => (W.newArr a).finishInit a.view.shape W.arrs.length (some s) dims units origin extent (some b)
  | .array i => W.quantityOfArray g i dims units origin extent backend

/-- quantity.py:477-515 `transpose`: the transposed array is a new array object for the same memory. -/
def World.transpose (g : Gt4py) (W : World α) (q : QObj) (target : List Quantity.TDim) : Py Unit × World α :=
  match Quantity.collapseDims q.info.dims target, W.arrs[q.data]? with
  | .error e, _ => (.error e, W)
  | _, none => (.error .keyError, W)
  | .ok t, some a =>
    let order := t.map fun d => q.info.dims.idxOf d
    if order.length = a.view.shape.length ∧ order.Nodup ∧ ∀ k ∈ order, k < a.view.shape.length then
      (W.newArr { a with view := transposeView order a.view }).quantityOfArray g W.arrs.length
        (Quantity.transposeSeq .x q.info.dims order) q.info.units (some (Quantity.transposeSeq 0 q.info.origin order))
        (some (Quantity.transposeSeq 0 q.info.extent order)) q.info.backend
    else (.error .valueError, W)

/-- `array[index]`: a new array object for the same memory; but numpy gives a scalar if no axis is left.
(numpy; quantity.py:73, 172-173) -/
def World.index (W : World α) (i : Nat) (ix : List Ix) : Py Unit × World α :=
  match W.arrs[i]? with
  | none => (.error .keyError, W)
  | some a =>
    match resolveAll ix a.view.shape with
    | .error e => (.error e, W)
    | .ok rs =>
      if a.gpu = false ∧ viewShape rs = [] then (.ok (), W)
      else (.ok (), (W.newArr { a with view := a.view.slice rs }).add (.array W.arrs.length))

/-- `array[index] = x`: a read-only array raises ValueError, then the index is looked at; `x` is broadcast,
ValueError if this is not possible. (numpy; quantity.py:76-77, 175-176) -/
def World.assign (W : World α) (i : Nat) (ix : List Ix) (x : NDArray α) : Py Unit × World α :=
  match W.arrs[i]? with
  | none => (.error .keyError, W)
  | some a =>
    if a.writeable = false then (.error .valueError, W)
    else
      match resolveAll ix a.view.shape with
      | .error e => (.error e, W)
      | .ok rs =>
        if fits x.shape (viewShape rs) then
          (.ok (), { W with mem := (a.view.slice rs).assign W.mem (x.stretch (viewShape rs)) })
        else (.error .valueError, W)

/-- quantity.py:440-447 `values`: `np.asarray` of a cupy array raises TypeError.  The array which is made
read-only is the one which `view[:]` returns: a new one, or the data itself if the quantity has no axes. -/
def World.values (W : World α) (q : QObj) : Py Unit × World α :=
  match W.arrs[q.bounded]? with
  | none => (.error .keyError, W)
  | some a =>
    if q.info.origin.length = 0 then
      if a.gpu = true then (.error .typeError, W)
      else (.ok (), ({ W with arrs := W.arrs.set q.bounded { a with writeable := false } } : World α).add (.array q.bounded))
    else
      match viaIndex (some q.info) a.view.shape .view [.slice .full] with
      | .error e => (.error e, W)
      | .ok ix =>
        match resolveAll ix a.view.shape with
        | .error e => (.error e, W)
        | .ok rs =>
          if a.gpu = true then (.error .typeError, W)
          else (.ok (), (W.newArr { a with view := a.view.slice rs, writeable := false }).add (.array W.arrs.length))

/-- quantity.py:65-77, 164-176: which array is indexed, and how.  (An array object which does not exist cannot occur:
KeyError.) -/
def World.access (W : World α) (o : Obj) (via : Via) (ix : List Ix) : Py (Nat × List Ix) :=
  match o.target via with
  | .error e => .error e
  | .ok i =>
    match W.arrs[i]? with
    | none => .error .keyError
    | some a =>
      match viaIndex o.info a.view.shape via ix with
      | .error e => .error e
      | .ok ix => .ok (i, ix)

/-- quantity.py:65-74, 164-173: `object[index]`. -/
def World.getItem (W : World α) (o : Obj) (via : Via) (ix : List Ix) : Py Unit × World α :=
  if zeroDim o.info via = true then
    if ix = [] then
      match o.target via with
      | .error e => (.error e, W)
      | .ok i => (.ok (), W.add (.array i))
    else (.error .indexError, W)
  else
    match W.access o via ix with
    | .error e => (.error e, W)
    | .ok (i, ix) => W.index i ix

/-- One operation: its result, and the world afterwards.  (A variable which does not exist: KeyError.)
(quantity.py:247-515) -/
def World.step (g : Gt4py) (W : World α) : Op α → Py Unit × World α
  | .array x gpu =>
    (.ok (), ((W.alloc (fresh W.next x.shape) (size x.shape) x).newArr ⟨fresh W.next x.shape, gpu, true⟩).add
      (.array W.arrs.length))
  | .storage b x =>
    (.ok (), ((W.alloc (g.view b W.next x.shape) (g.room b x.shape) x).newArr
      ⟨g.view b W.next x.shape, decide (g.kind b = .gpu), true⟩).add (.storage W.arrs.length b (g.kind b)))
  | .dataOf h =>
    match W.objs[h]? with
    | none => (.error .keyError, W)
    | some (.quantity q) => (.ok (), W.add (.array q.data))
    | some _ => (.error .attributeError, W)
  | .storageOf h =>
    match W.objs[h]? with
    | none => (.error .keyError, W)
    | some (.quantity q) =>
      match q.storage, q.info.backend with
      | some s, some b => (.ok (), W.add (.storage s b (g.kind b)))
      | _, _ => (.error .typeError, W)
    | some _ => (.error .attributeError, W)
  | .getItem h via ix =>
    match W.objs[h]? with
    | none => (.error .keyError, W)
    | some (.storage ..) => (.error .notImplemented, W)
    | some o => if via = .storage then (.error .notImplemented, W) else W.getItem o via ix
  | .setItem h via ix x =>
    match W.objs[h]? with
    | none => (.error .keyError, W)
    | some o =>
      match W.access o via ix with
      | .error e => (.error e, W)
      | .ok (i, ix) => W.assign i ix x
  | .values h =>
    match W.objs[h]? with
    | none => (.error .keyError, W)
    | some (.quantity q) => W.values q
    | some _ => (.error .attributeError, W)
  | .quantity h dims units origin extent backend =>
    match W.objs[h]? with
    | none => (.error .keyError, W)
    | some o => W.quantity g o dims units origin extent backend
  | .transpose h target =>
    match W.objs[h]? with
    | none => (.error .keyError, W)
    | some (.quantity q) => W.transpose g q target
    | some _ => (.error .attributeError, W)

/-- A program which catches all exceptions: results and the world at the end. (quantity.py:247-515) -/
def World.run (g : Gt4py) : World α → List (Op α) → List (Py Unit) × World α
  | W, [] => ([], W)
  | W, op :: ops => ((W.step g op).1 :: (World.run g (W.step g op).2 ops).1, (World.run g (W.step g op).2 ops).2)

/-- The elements which reading `object[index]` gives. (quantity.py:65-74, 164-173) -/
def World.get (W : World α) (h : Nat) (via : Via) (ix : List Ix) : Py (NDArray α) :=
  match W.objs[h]? with
  | none => .error .keyError
  | some o =>
    match o.target via with
    | .error e => .error e
    | .ok i =>
      match W.arrs[i]? with
      | none => .error .keyError
      | some a =>
        if zeroDim o.info via = true then
          if ix = [] then .ok (a.view.read W.mem) else .error .indexError
        else
          match viaIndex o.info a.view.shape via ix with
          | .error e => .error e
          | .ok ix =>
            match resolveAll ix a.view.shape with
            | .error e => .error e
            | .ok rs => .ok ((a.view.slice rs).read W.mem)

/-- Before a program. (quantity.py:247-515) -/
def World.init (mem : Int → α) : World α := ⟨mem, 0, [], []⟩

end Mem
end FV3
