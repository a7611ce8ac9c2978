import Verif.Model.FullSession
import Verif.Model.Guarded

/-!
# Complete sessions with `try` statements

A program as in `Verif.Model.FullSession` that also starts updates in `try` statements:

    try:
        request = communicator.start_halo_update(quantity, n_points)
    except Exception as e:
        outcome = e

An update that is attempted as a whole (`communicator.halo_update` in a `try` statement) is an attempt to start it,
followed by a `wait` if there was no exception.  The timer of the communicator is disabled, as in `Verif.Model.Guarded`.
-/

namespace FV3
variable {α : Type}

/-- A statement of a model code that calls communicator.py:52-58, 81-283, 335-346, 388-403, 461-491, 512-535. -/
inductive TryOp (α : Type) where
  /-- a call as in `Verif.Model.FullSession`; an exception ends the program
  (communicator.py:52-58, 81-283, 335-346, 388-403, 461-491, 512-535) -/
  | plain (o : FOp α)
  /-- a start whose exceptions are caught (communicator.py:388-403, 461-491, 512-535) -/
  | attempt (o : Op α)

/-- The program of rank `r`; its result has the outcomes of the attempts.  What a start had done to `_last_halo_tag` when
it raised stays done, and there is no request. (communicator.py:52-58, 81-283, 320-346, 388-403, 461-491, 512-535) -/
def execTry [Neg α] (l : Layout) (junk tjunk : Nat → List Nat → α) (r : Int) :
    List (TryOp α) → FState α → Proc (Msg α) (Py (List (Option PyErr) × FState α))
  | [], s => .ret (.ok ([], s))
  | .plain o :: ops, s => (o.exec l junk tjunk r s).bind fun x =>
    match x with
    | .error e => .ret (.error e)
    | .ok s' => execTry l junk tjunk r ops s'
  | .attempt o :: ops, s => (o.exec l r s.comm).bind fun y =>
    (execTry l junk tjunk r ops { s with comm := y.2 }).bind fun z =>
      .ret (z.map fun w => (caught y.1 :: w.1, w.2))

/-- All ranks run the same program, with a new cubed-sphere communicator.
(communicator.py:52-58, 81-283, 306-346, 388-403, 461-491, 512-535) -/
def tryNet [Neg α] (l : Layout) (junk tjunk : Nat → List Nat → α) (ops : List (TryOp α)) (mem : Int → Mem α)
    (glob : Int → Nat → Option (Quantity α)) (time gtime : Int → Nat → Option Int)
    (tglob : Int → Nat → Option (Quantity α)) (tgtime : Int → Nat → Option Int) :
    Net (Msg α) (Option (Py (List (Option PyErr) × FState α))) :=
  Net.start fun r =>
    if r ∈ allRanks l then
      (execTry l junk tjunk r ops (.new (mem r) (glob r) (time r) (gtime r) (tglob r) (tgtime r))).bind
        fun x => .ret (some x)
    else .ret none

end FV3
