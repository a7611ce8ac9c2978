import Verif.Model.StateSession

/-!
# Sessions with `try` statements

A model code that catches the exceptions of halo updates and carries on:

    try:
        communicator.halo_update(quantity, n_points)
    except Exception as e:
        outcome = e

The timer of the communicator is disabled (`communicator.timer.disable()`): an enabled one keeps a clock running when
OutOfBoundsError is raised, see C53.
-/

namespace FV3
variable {α : Type}

/-- A statement of a model code that calls communicator.py:81-283, 378-510. -/
inductive GOp (α : Type) where
  /-- a call as in `Verif.Model.StateSession`; an exception ends the program (communicator.py:81-283, 378-510) -/
  | plain (o : TOp α)
  /-- a halo update, vector halo update or synchronisation whose exceptions are caught
  (communicator.py:378-386, 446-459, 493-510) -/
  | attempt (c : Call α)

/-- The exception that the model code caught, if any: what follows the calls of communicator.py:378-386, 446-459,
493-510. -/
def caught : Py Unit → Option PyErr
  | .ok _ => none
  | .error e => some e

/-- The program of rank `r`; its result has the outcomes of the attempts.  What a call had done to the quantities and to
`_last_halo_tag` when it raised stays done. (communicator.py:81-283, 318-320, 378-510) -/
def execGuarded [Neg α] (l : Layout) (junk : Nat → List Nat → α) (r : Int) :
    List (GOp α) → SessState α → Proc (Msg α) (Py (List (Option PyErr) × SessState α))
  | [], s => .ret (.ok ([], s))
  | .plain o :: ops, s => (o.exec l junk r s).bind fun x =>
    match x with
    | .error e => .ret (.error e)
    | .ok s' => execGuarded l junk r ops s'
  | .attempt c :: ops, s => (c.exec l r ⟨s.s.mem, s.s.tag, []⟩).bind fun y =>
    (execGuarded l junk r ops { s with s := { s.s with mem := y.2.mem, tag := y.2.lastTag } }).bind fun z =>
      .ret (z.map fun w => (caught y.1 :: w.1, w.2))

/-- All ranks run the same program, with new communicators. (communicator.py:81-283, 378-510) -/
def guardedNet [Neg α] (l : Layout) (junk : Nat → List Nat → α) (ops : List (GOp α)) (mem : Int → Mem α)
    (glob : Int → Nat → Option (Quantity α)) (time gtime : Int → Nat → Option Int) :
    Net (Msg α) (Option (Py (List (Option PyErr) × SessState α))) :=
  Net.start fun r =>
    if r ∈ allRanks l then
      (execGuarded l junk r ops ⟨⟨mem r, glob r, 0, 0⟩, time r, gtime r⟩).bind fun x => .ret (some x)
    else .ret none

end FV3
