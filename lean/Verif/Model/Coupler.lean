import Verif.Model.Text

/-!
# coupler.res (io.py, time.py)
-/

namespace FV3.Coupler
open Text

/-- time.py:12-17: the values of `FMS_TO_CFTIME_TYPE`. -/
inductive Calendar where
  | thirtyDay | julian | gregorian | noLeap
  deriving DecidableEq, Repr

/-- time.py:8-17 `FMS_TO_CFTIME_TYPE` -/
def calendarOf (code : Int) : Option Calendar :=
  if code = 1 then some .thirtyDay
  else if code = 2 then some .julian
  else if code = 3 then some .gregorian
  else if code = 4 then some .noLeap
  else none

/-- io.py:58-60 `_get_integer_tokens`: ValueError if a token is not an integer. -/
def getIntegerTokens (line : List Char) (n : Nat) : Py (List Int) :=
  match ((split line).take n).mapM parseInt with
  | none => .error .valueError
  | some l => .ok l

/-- io.py:63-67 `get_current_date_from_coupler_res`.  `construct` is the constructor of the
cftime class of the calendar (which may reject a date).  Unpacking a list of the wrong length
raises ValueError; an unknown calendar KeyError.  Python evaluates the calendar lookup after
the third line has been parsed. -/
def getCurrentDate {D : Type} (construct : Calendar → Int → Int → Int → Int → Int → Int → Py D)
    (file : List Char) : Py D := do
  let (line1, rest1) := readline file
  let l1 ← getIntegerTokens line1 1
  match l1 with
  | [code] =>
    let (_, rest2) := readline rest1
    let (line3, _) := readline rest2
    let l3 ← getIntegerTokens line3 6
    match l3 with
    | [year, month, day, hour, minute, second] =>
      match calendarOf code with
      | none => .error .keyError
      | some cal => construct cal year month day hour minute second
    | _ => .error .valueError
  | _ => .error .valueError

end FV3.Coupler
