import Verif.Model.Quantity
import Verif.Model.Dict

/-!
# Nudging (nudging.py)

States map names to quantities (different names: different arrays).  Numbers are elements of
any type with the four operations; in Props/NudgingRounded.lean these round.
-/

namespace FV3.Nudge
variable {α : Type} [Add α] [Sub α] [Mul α] [Div α]

/-- A state dictionary. (nudging.py:6-73) -/
abbrev State (α : Type) := Dict String (Quantity α)

/-- `view[:]` (nudging.py:43, 69) -/
def all : VIdx := .one (.slice .full)

/-- nudging.py:67-72: the tendency of one variable. -/
def tendencyOf (q ref : Quantity α) (timescale : α) : Py (Quantity α) := do
  let r ← ref.viewGet all
  let v ← q.viewGet all
  match broadcastShape r.shape v.shape with
  | some shape =>
    Quantity.mk? ⟨shape, fun i => ((r.stretch shape).get i - (v.stretch shape).get i) / timescale⟩ q.dims
      (q.units ++ " s^-1") none none
  | none => .error .valueError

/-- nudging.py:46-73 `get_nudging_tendencies`; a missing name raises KeyError. -/
def getTendencies (state ref : State α) : Dict String α → Py (Dict String (Quantity α))
  | [] => .ok []
  | (name, timescale) :: rest => do
    match Dict.get? state name with
    | none => .error .keyError
    | some q =>
      match Dict.get? ref name with
      | none => .error .keyError
      | some r =>
        let t ← tendencyOf q r timescale
        let ts ← getTendencies state ref rest
        return (name, t) :: ts

/-- nudging.py:43 `state[name].view[:] += tendency.view[:] * timestep`: read the view, add to
it in place, and assign it to the view again.  For a quantity without axes the array is
changed and the assignment then raises.  The sum must have the shape of the view.  The result is the quantity afterwards and the
exception, if any. -/
def addTo (q t : Quantity α) (dt : α) : Quantity α × Option PyErr :=
  match q.viewGet all, t.viewGet all with
  | .error e, _ => (q, some e)
  | _, .error e => (q, some e)
  | .ok v, .ok w =>
    if broadcastShape v.shape w.shape = some v.shape then
      let new : NDArray α := ⟨v.shape, fun i => v.get i + (w.stretch v.shape).get i * dt⟩
      if q.origin.length = 0 then
        ({ q with data := new },
          match q.computeIndex all with
          | .error e => some e
          | .ok _ => none)
      else
        match q.viewSet all new with
        | .error e => (q, some e)
        | .ok q' => (q', none)
    else (q, some .valueError)

/-- nudging.py:36-43 `_apply_tendencies` -/
def applyTendencies (dt : α) : Dict String (Quantity α) → State α → State α × Option PyErr
  | [], s => (s, none)
  | (name, t) :: rest, s =>
    match Dict.get? s name with
    | none => (s, some .valueError)
    | some q =>
      let x := addTo q t dt
      match x.2 with
      | some e => (s.set name x.1, some e)
      | none => applyTendencies dt rest (s.set name x.1)

/-- nudging.py:6-33 `apply_nudging`: the state afterwards, and the tendencies or the exception. -/
def applyNudging (state ref : State α) (timescales : Dict String α) (dt : α) :
    State α × Py (Dict String (Quantity α)) :=
  match getTendencies state ref timescales with
  | .error e => (state, .error e)
  | .ok ts =>
    let x := applyTendencies dt ts state
    (x.1, match x.2 with
      | none => .ok ts
      | some e => .error e)

end FV3.Nudge
