import Verif.Model.DummyComm

/-!
# What a point-to-point communicator should do

The values sent so far from one rank to another, and how many of them were received.
-/

namespace FV3.Dummy
variable {α : Type}

/-- The values of the arrays sent from `src` to `dst` in a history starting from state `s`, at
the time of sending, in order. -/
def sentValues (src dst : Int) : DSt α → List (Ev α) → List (NDArray α)
  | _, [] => []
  | s, e :: es =>
    (match e with
     | .send src' dst' a =>
       if src' = src ∧ dst' = dst ∧ a ∈ s.owned then (read s a).toList else []
     | _ => []) ++ sentValues src dst (step s e).2 es

/-- A call of `Recv` by `dst` from `src` takes a message if there is one. -/
def takes (dst src : Int) (waiting : Nat) (s : DSt α) : Ev α → Nat
  | .recv dst' src' a => if dst' = dst ∧ src' = src ∧ a ∈ s.owned ∧ 0 < waiting then 1 else 0
  | _ => 0

/-- How many messages `dst` takes from `src`, if `waiting` have been sent and not been taken before. -/
def taken (dst src : Int) : Nat → DSt α → List (Ev α) → Nat
  | _, _, [] => 0
  | waiting, s, e :: es =>
    takes dst src waiting s e +
      taken dst src (waiting + (sentValues src dst s [e]).length - takes dst src waiting s e) (step s e).2 es

/-- How many messages `dst` has taken from `src` (none of them is sent or waiting at the beginning). -/
def received (dst src : Int) (s : DSt α) (es : List (Ev α)) : Nat := taken dst src 0 s es

/-- The value given by rank `i` in its last `Gather` call of a history. -/
def lastGiven {V : Type} (calls : List (Nat × Nat × V)) (i : Nat) : Option V :=
  ((calls.filter (·.2.1 = i)).getLast?).map (·.2.2)

end FV3.Dummy
