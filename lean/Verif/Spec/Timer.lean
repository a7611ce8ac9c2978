import Verif.Model.Timer

/-!
# What a timer records

Everything is read off the observable record of a history: the calls made on the timer and
whether each succeeded, newest first.
-/

namespace FV3.TimerSpec
variable {T : Type} [Add T] [Sub T]

/-- Calls and their outcomes, newest first. -/
abbrev Record (T : Type) := List (TCall T × Py Unit)

/-- Was the timer enabled? Decided by the latest successful `enable` or `disable`. -/
def on : Record T → Bool
  | [] => true
  | (.enable, .ok _) :: _ => true
  | (.disable, .ok _) :: _ => false
  | _ :: r => on r

/-- The start time of the clock `n`, if it is running: the latest successful `start n` or
`stop n` made while enabled was a `start`. -/
def since (n : String) : Record T → Option T
  | [] => none
  | (.start m t, .ok _) :: r => if m = n ∧ on r = true then some t else since n r
  | (.stop m _, .ok _) :: r => if m = n ∧ on r = true then none else since n r
  | _ :: r => since n r

/-- The durations of the start/stop pairs of `n` completed while enabled since the last
reset, oldest first. -/
def durations (n : String) : Record T → List T
  | [] => []
  | (.reset, _) :: _ => []
  | (.stop m t, .ok _) :: r =>
    if m = n ∧ on r = true then durations n r ++ ((since n r).map (t - ·)).toList
    else durations n r
  | _ :: r => durations n r

/-- Sum of durations in order; `none` if there are none. -/
def total : List T → Option T
  | [] => none
  | d :: ds => some (ds.foldl (· + ·) d)

/-- Number of durations; `none` if there are none. -/
def count : List T → Option Nat
  | [] => none
  | d :: ds => some (d :: ds).length

/-- The outcome a call should have after record `r`. -/
def outcome (r : Record T) : TCall T → Py Unit
  | .start n _ => if on r = true ∧ (since n r).isSome then .error .valueError else .ok ()
  | .stop n _ => if on r = true ∧ since n r = none then .error .keyError else .ok ()
  | .reset => .ok ()
  | .enable => .ok ()
  | .disable => .ok ()

end FV3.TimerSpec
