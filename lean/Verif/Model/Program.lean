import Verif.Spec.Updates

/-!
# Programs made of blocking communicator calls

What a model code does with a `CubedSphereCommunicator` when it uses the blocking methods
only: a sequence of `halo_update`, `vector_halo_update`, `synchronize_vector_interfaces` and
computations on its own quantities.
-/

namespace FV3
variable {α : Type}

/-- A blocking communicator call, or a computation. (communicator.py:378-386, 446-459, 493-510) -/
inductive Call (α : Type) where
  /-- communicator.py:378-386 -/
  | haloUpdate (q : Nat) (n : Int)
  /-- communicator.py:446-459 -/
  | vectorHaloUpdate (x y : Nat) (n : Int)
  /-- communicator.py:493-510 -/
  | synchronize (x y : Nat)
  | compute (f : Int → Mem α → Mem α)

/-- Plumbing of the model (communicator.py:378-386, 446-459, 493-510) -/
def Call.exec [Neg α] (l : Layout) (r : Int) : Call α → CommM α Unit
  | .haloUpdate q n => FV3.haloUpdate l r q n
  | .vectorHaloUpdate x y n => FV3.vectorHaloUpdate l r x y n
  | .synchronize x y => FV3.synchronize l r x y
  | .compute f => fun s => .ret (.ok (), { s with mem := f r s.mem })

/-- A sequence of calls. (communicator.py:378-386, 446-459, 493-510) -/
def execCalls [Neg α] (l : Layout) (r : Int) : List (Call α) → CommM α Unit
  | [] => return ()
  | c :: cs => do
    c.exec l r
    execCalls l r cs

/-- All ranks make the same sequence of calls, starting with fresh communicators.
(communicator.py:378-386, 446-459, 493-510) -/
def callNet [Neg α] (l : Layout) (calls : List (Call α)) (mem : Int → Mem α) :
    Net (Msg α) (Py Unit × RankState α) :=
  Net.start fun r =>
    if r ∈ allRanks l then execCalls l r calls ⟨mem r, 0, []⟩
    else .ret (.ok (), ⟨mem r, 0, []⟩)

end FV3
