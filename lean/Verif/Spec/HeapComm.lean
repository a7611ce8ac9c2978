import Verif.Model.HeapComm
import Verif.Spec.Memory
import Verif.Spec.Bulk
import Verif.Spec.Outstanding
import Verif.Spec.HaloResult
import Verif.Spec.Reorder

/-!
# What communicator calls do to memory
-/

namespace FV3
namespace Heap
open Mem (World Gt4py)
variable {α : Type}

section
variable [Inhabited α]

/-- The quantities of a rank as values: for the variables which are quantities. -/
def quantities (W : World α) : FV3.Mem α := fun h =>
  match value W h with
  | .ok q => q
  | .error _ => ⟨⟨[], fun _ => default⟩, [], "", [], []⟩
end

/-- Element `idx` of the data of variable `h` is at address `a`. -/
def Cell (W : World α) (h : Nat) (idx : List Nat) (a : Int) : Prop :=
  ∃ x, dataOf W h = .ok x ∧ InB x.2.1.view.shape idx ∧ x.2.1.view.addr idx = a

/-- Element `idx` of the array which `via` of variable `k` refers to (an array or storage itself, or the data, view or storage
of a quantity) is at address `a`. -/
def At (W : World α) (k : Nat) (via : Mem.Via) (idx : List Nat) (a : Int) : Prop :=
  ∃ o i arr, W.objs[k]? = some o ∧ o.target via = .ok i ∧ W.arrs[i]? = some arr ∧ InB arr.view.shape idx ∧ arr.view.addr idx = a

/-- The variables are quantities with axes, whose data can be written and which do not share memory with each other.
(They may share memory with other variables.) -/
structure Usable (W : World α) (hs : List Nat) : Prop where
  quantity : ∀ h ∈ hs, ∃ i, W.infoOf h = some i ∧ i.dims ≠ []
  writeable : ∀ h ∈ hs, W.writeable h .data = true
  apart : ∀ h ∈ hs, ∀ h' ∈ hs, h ≠ h' → ∀ idx idx' a, Cell W h idx a → ¬ Cell W h' idx' a

/-- From `W` to `W1` there are no new arrays or variables, and memory has changed only at elements `idx` of the data of
variables `h` with `P h idx`. -/
structure OnlyCells (P : Nat → List Nat → Prop) (W W1 : World α) : Prop where
  next : W1.next = W.next
  arrs : W1.arrs = W.arrs
  objs : W1.objs = W.objs
  mem : ∀ a, W1.mem a = W.mem a ∨ ∃ h idx, P h idx ∧ Cell W h idx a

section
variable [Inhabited α] [Neg α]

/-- One update, on all ranks: the quantities of the update are afterwards what the update makes of them as values
(Spec/Bulk.lean), there are no new arrays or variables, and the rest of memory is as before. -/
def CommStep (l : Layout) (op : Op α) (W W1 : Int → World α) : Prop :=
  ∃ m', UpdateStep l op (fun r => quantities (W r)) m' ∧ ∀ r ∈ allRanks l,
    (∀ h ∈ op.qs, quantities (W1 r) h = m' r h) ∧ OnlyCells (fun h _ => h ∈ op.qs) (W r) (W1 r)

/-- The update which a call performs. -/
def HCall.start : HCall α → Option (Op α)
  | .haloUpdate q n => some (.halo q n)
  | .vectorHaloUpdate x y n => some (.vector x y n)
  | .synchronize x y => some (.sync x y)
  | .compute _ => none

/-- What one call does on all ranks. -/
def HStep (g : Gt4py) (l : Layout) : HCall α → (Int → World α) → (Int → World α) → Prop
  | .haloUpdate q n => CommStep l (.halo q n)
  | .vectorHaloUpdate x y n => CommStep l (.vector x y n)
  | .synchronize x y => CommStep l (.sync x y)
  | .compute ops => fun W W1 => ∀ r ∈ allRanks l, W1 r = (W r).after g (ops r)

/-- One call after the other. -/
def HRun (g : Gt4py) (l : Layout) : List (HCall α) → (Int → World α) → (Int → World α) → Prop
  | [], W, W' => ∀ r ∈ allRanks l, W' r = W r
  | c :: cs, W, W' => ∃ W1, HStep g l c W W1 ∧ HRun g l cs W1 W'

/-- The number of message tags a call uses. -/
def HCall.nTags : HCall α → Nat
  | .haloUpdate _ _ => 1
  | .vectorHaloUpdate _ _ _ => 2
  | .synchronize _ _ => 1
  | .compute _ => 0

omit [Neg α] in
/-- Variable `h'` is the same quantity as `h` with its axes in another order, in the same memory. -/
structure Aliases (W : World α) (h h' : Nat) : Prop where
  cells : ∀ idx' a, Cell W h' idx' a → ∃ idx, Cell W h idx a
  values : ∀ mem : Int → α, Reordered (quantities { W with mem := mem } h) (quantities { W with mem := mem } h')

omit [Neg α] in
/-- The halo points of variable `h` on rank `r`, not counting those across the corners of the cube. -/
def HaloCells (l : Layout) (W : Int → World α) (h ky kx : Nat) (n w : Int) (r : Int) (k : Nat) (idx : List Nat) : Prop :=
  k = h ∧ InHalo (quantities (W r) h) ky kx w idx ∧ ∃ t a b, AtTile l (fun r => quantities (W r)) h ky kx n r idx t a b ∧
    SingleCross (l.x * n) a b

end

end Heap
end FV3
