import Verif.Model.StateSession

/-!
# A model code with several fields

What a dynamical core does with a `CubedSphereCommunicator`: scalars and winds, scattered as a state, stepped with halo
updates, vector halo updates, interface synchronisation and computations, and gathered as a state.
-/

namespace FV3
variable {α : Type}

/-- A field of the model code: a scalar (quantity `x` of each rank), or winds (quantities `x` and `y`).  `ky`, `kx` are
the positions of the horizontal axes, `h` is the number of halo points that is updated. (communicator.py:378-386, 446-459:
the arguments of the calls) -/
structure Slot where
  x : Nat
  y : Option Nat
  ky : Nat
  kx : Nat
  h : Int

/-- `halo_update` or `vector_halo_update` of a field. (communicator.py:378-386, 446-459) -/
def Slot.update (s : Slot) : Call α :=
  match s.y with
  | none => .haloUpdate s.x s.h
  | some y => .vectorHaloUpdate s.x y s.h

/-- `synchronize_vector_interfaces` of winds (scalars have none: nothing is done). (communicator.py:493-510) -/
def Slot.sync (s : Slot) : Call α :=
  match s.y with
  | none => .compute fun _ m => m
  | some y => .synchronize s.x y

end FV3
