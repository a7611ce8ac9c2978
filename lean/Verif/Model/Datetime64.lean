import Verif.Model.Basic
import Mathlib.Data.Rat.Floor

/-!
# `datetime64_to_datetime`

Double precision numbers are rational numbers, and operations on them are rounded by a function `fl` given as a parameter.
Integers of numpy are unbounded.  A datetime is its number of seconds since 1970 and its microseconds: the calendar
computation of Python's `datetime` from them is trusted.
-/

namespace FV3.Time64

/-- `numpy.datetime64`: a number of ticks since 1970, or NaT, with the number of ticks in a second. (time.py:20; units of a
second or finer, coarser ones are converted to seconds exactly by the subtraction in line 22) -/
structure Datetime64 where
  ticks : Option Int
  perSecond : Nat

/-- `datetime.datetime`: whole seconds since 1970 (rounded down) and microseconds. (time.py:20, 23) -/
structure Datetime where
  seconds : Int
  micro : Int
deriving DecidableEq, Repr

/-- C `round half even`, as in Python's `_PyTime_Round`. (time.py:23) -/
def roundHalfEven (x : ℚ) : Int :=
  if x - ⌊x⌋ < 1 / 2 then ⌊x⌋
  else if 1 / 2 < x - ⌊x⌋ then ⌊x⌋ + 1
  else if ⌊x⌋ % 2 = 0 then ⌊x⌋ else ⌊x⌋ + 1

/-- The whole part as C `modf` gives it: towards zero. (time.py:23) -/
def wholePart (x : ℚ) : Int := if 0 ≤ x then ⌊x⌋ else ⌈x⌉

/-- `datetime.utcfromtimestamp(timestamp)`: the fraction is split off (exactly), multiplied by a million (rounded), rounded
to an integer, and carried to the seconds if it is a million or negative; years before 1 and after 9999 raise ValueError
(simplified: far outside, Python raises OverflowError or OSError). (time.py:23) -/
def utcfromtimestamp (fl : ℚ → ℚ) (timestamp : ℚ) : Py Datetime :=
  let whole := wholePart timestamp
  let us := roundHalfEven (fl ((timestamp - whole) * 1000000))
  let r : Datetime :=
    if 1000000 ≤ us then ⟨whole + 1, us - 1000000⟩
    else if us < 0 then ⟨whole - 1, us + 1000000⟩
    else ⟨whole, us⟩
  if -62135596800 ≤ r.seconds ∧ r.seconds < 253402300800 then .ok r else .error .valueError

/-- time.py:20-23.  numpy divides two timedeltas by converting both to doubles and dividing these; the quotient of NaT is
NaN, for which `utcfromtimestamp` raises ValueError. -/
def datetime64ToDatetime (fl : ℚ → ℚ) (dt64 : Datetime64) : Py Datetime :=
  match dt64.ticks with
  | none => .error .valueError
  | some n =>
    let timestamp := fl (fl n / fl dt64.perSecond)
    utcfromtimestamp fl timestamp

end FV3.Time64
