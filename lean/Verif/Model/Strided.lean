import Verif.Model.NDArray

/-!
# Arrays in memory: strides, contiguous arrays, and what MPI reads and writes

The other modules represent an array by its shape and its elements, and a message by such an array.  Here arrays are
numpy's views of memory (address of the first element, shape, strides), and a message is what MPI reads: consecutive
cells of memory.

Addresses and strides count elements, not bytes.  Not modelled: gt4py storages, cupy arrays.
-/

namespace FV3
namespace Strided
variable {α : Type}

/-- A numpy array: a view of memory. (numpy; utils.py:39-57) -/
structure View where
  offset : Int
  shape : List Nat
  strides : List Int
  deriving DecidableEq, Repr

/-- `∑ strides[k] * idx[k]` (numpy; utils.py:39-57) -/
def dot : List Int → List Nat → Int
  | s :: ss, i :: is => s * i + dot ss is
  | _, _ => 0

/-- Address of an element. (numpy; utils.py:39-57) -/
def View.addr (v : View) (idx : List Nat) : Int := v.offset + dot v.strides idx

/-- The elements of an array. (numpy; utils.py:60-72) -/
def View.read (m : Int → α) (v : View) : NDArray α := ⟨v.shape, fun idx => m (v.addr idx)⟩

/-- One cell of memory is written. (numpy; utils.py:60-72) -/
def poke (m : Int → α) (a : Int) (x : α) : Int → α := fun b => if b = a then x else m b

/-- utils.py:60-72 (numpy arrays): `to_array[:] = from_array` for arrays of the same shape, element by element; the
elements of `from_array` are those before the assignment. -/
def View.assign (m : Int → α) (v : View) (x : NDArray α) : Int → α :=
  (allIdx v.shape).foldl (fun m idx => poke m (v.addr idx) (x.get idx)) m

/-- `-a`, `a[::-1]` on one axis, as numpy's `flip`: the first element is the last one of `a`. (numpy; rotate.py:22, 25, 31) -/
def View.flip (ax : Nat) (v : View) : View :=
  { offset := v.offset + v.strides.getD ax 0 * ((v.shape.getD ax 0 : Int) - 1)
    shape := v.shape
    strides := v.strides.set ax (-(v.strides.getD ax 0)) }

/-- numpy's `transpose` exchanging two axes. (numpy; part of rot90, rotate.py:17, 19) -/
def View.swapAxes (p q : Nat) (v : View) : View :=
  { offset := v.offset
    shape := (v.shape.set p (v.shape.getD q 0)).set q (v.shape.getD p 0)
    strides := (v.strides.set p (v.strides.getD q 0)).set q (v.strides.getD p 0) }

/-- numpy's `rot90`, which returns a view. (numpy; rotate.py:17, 19) -/
def View.rot90 (k : Int) (p q : Nat) (v : View) : View :=
  if pymod k 4 = 0 then v
  else if pymod k 4 = 2 then (v.flip p).flip q
  else if pymod k 4 = 1 then (v.flip q).swapAxes p q
  else (v.swapAxes p q).flip q

/-- Strides of a basic index. (numpy; quantity.py:73, 164-198) -/
def sliceStrides : List RIx → List Int → List Int
  | .int _ :: rs, _ :: ss => sliceStrides rs ss
  | .slice _ st _ :: rs, s :: ss => (st * s) :: sliceStrides rs ss
  | _, _ => []

/-- Where a basic index starts. (numpy; quantity.py:73, 164-198) -/
def sliceStart : List RIx → List Int → Int
  | .int i :: rs, s :: ss => i * s + sliceStart rs ss
  | .slice a _ _ :: rs, s :: ss => a * s + sliceStart rs ss
  | _, _ => 0

/-- `a[ix]` with resolved entries. (numpy; quantity.py:73, 164-198) -/
def View.slice (rs : List RIx) (v : View) : View :=
  ⟨v.offset + sliceStart rs v.strides, viewShape rs, sliceStrides rs v.strides⟩

/-- Number of elements. (numpy; buffer.py:31, 60, 91) -/
def size : List Nat → Nat
  | [] => 1
  | n :: s => n * size s

/-- Strides of an array in C order. (numpy; buffer.py:31) -/
def cStrides : List Nat → List Int
  | [] => []
  | _ :: s => (size s : Int) :: cStrides s

/-- `np.empty(shape)`: an array in C order, at an address where there is place. (numpy; buffer.py:31, communicator.py:107-111) -/
def fresh (base : Int) (shape : List Nat) : View := ⟨base, shape, cStrides shape⟩

/-- How numpy sets `C_CONTIGUOUS` (`_UpdateContiguousFlags`): from the last axis on, axes of length 1 do not count,
other axes must have as stride the number of elements of the axes after them.  Returns this number too.
(numpy; utils.py:47-52) -/
def cCheck : List Nat → List Int → Bool × Nat
  | [], _ => (true, 1)
  | n :: s, [] => (n == 1 && (cCheck s []).1, (cCheck s []).2)
  | n :: s, st :: ss =>
    let r := cCheck s ss
    if n = 1 then r else (r.1 && decide (st = (r.2 : Int)), n * r.2)

/-- utils.py:47-52; an array without elements is contiguous. -/
def View.isCContiguous (v : View) : Bool := v.shape.any (· == 0) || (cCheck v.shape v.strides).1

/-- utils.py:39-44: in C order or in Fortran order. -/
def View.isContiguous (v : View) : Bool :=
  v.isCContiguous || (cCheck v.shape.reverse v.strides.reverse).1

/-- What MPI reads if it is given the array: as many cells as the array has elements, from its first element on.
mpi4py refuses arrays which are not contiguous; so does `ensure_contiguous` of the test communicator
(utils.py:55-57). -/
def View.mpiRead (m : Int → α) (v : View) : Py (List α) :=
  if v.isContiguous then .ok ((List.range (size v.shape)).map fun k => m (v.offset + (k : Nat))) else .error .valueError

/-- Consecutive cells are written. (MPI; communicator.py:655, 664) -/
def pokes (m : Int → α) (a : Int) : List α → Int → α
  | [] => m
  | x :: xs => pokes (poke m a x) (a + 1) xs

/-- What MPI writes if the message is received in the array: raises if the message is longer than the array (or the
array is not contiguous). (MPI; communicator.py:655, 664) -/
def View.mpiWrite (m : Int → α) (v : View) (msg : List α) : Py (Int → α) :=
  if ¬ v.isContiguous then .error .valueError
  else if size v.shape < msg.length then .error .runtimeError
  else .ok (pokes m v.offset msg)

/-- `np.ascontiguousarray(a)`, with a new array at `base` if one is needed. (communicator.py:641-643) -/
def ascontiguous (m : Int → α) (base : Int) (v : View) : (Int → α) × View :=
  if v.isCContiguous then (m, v) else ((fresh base v.shape).assign m (v.read m), fresh base v.shape)

/-- communicator.py:637-646: memory afterwards, and the message. -/
def isend (m : Int → α) (base : Int) (v : View) : (Int → α) × Py (List α) :=
  let x := ascontiguous m base v
  (x.1, x.2.mpiRead x.1)

/-- communicator.py:648-650 with buffer.py:56-67; the buffer is at `base`. -/
def send (m : Int → α) (base : Int) (v : View) : (Int → α) × Py (List α) :=
  if v.isCContiguous then (m, v.mpiRead m)
  else
    let m1 := (fresh base v.shape).assign m (v.read m)
    (m1, (fresh base v.shape).mpiRead m1)

/-- communicator.py:652-655, 661-664 with buffer.py:87-95; the buffer is at `base`. -/
def recv (m : Int → α) (base : Int) (v : View) (msg : List α) : Py (Int → α) :=
  if v.isCContiguous then v.mpiWrite m msg
  else
    match (fresh base v.shape).mpiWrite m msg with
    | .error e => .error e
    | .ok m1 => .ok (v.assign m1 ((fresh base v.shape).read m1))

/-- What MPI gives to rank `r` of `Scatter` with `count` elements for each rank. (MPI; communicator.py:69-79) -/
def piece (msg : List α) (count r : Nat) : List α := (msg.drop (r * count)).take count

end Strided
end FV3
