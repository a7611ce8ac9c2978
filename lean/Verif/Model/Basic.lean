/-!
# Basic vocabulary of the model

Exceptions, dimension names and boundary types of `fv3gfs.util`.
-/

namespace FV3

/-- Python exceptions raised by the modelled code (the class only, not the message).
(raised e.g. at _exceptions.py:1-6, partitioner.py:27-34, quantity.py:234-244) -/
inductive PyErr where
  | valueError | typeError | indexError | keyError | notImplemented
  | zeroDivision | outOfBounds | concurrency | runtimeError | unitsError | attributeError | osError
  deriving DecidableEq, Repr

/-- Result of a Python call: a value or a raised exception. (partitioner.py:27-34) -/
abbrev Py (α : Type) := Except PyErr α

/-- Python `a // b` (floor division).  CPython int semantics; division by zero is
handled where it can occur. (used at partitioner.py:34, 693) -/
def pydiv (a b : Int) : Int := Int.fdiv a b

/-- Python `a % b` (sign of the divisor). (used at partitioner.py:30, 694, rotate.py:5) -/
def pymod (a b : Int) : Int := Int.fmod a b

/-- Dimension names: fv3gfs/util/constants.py:2-9.  One constructor per reserved
string, `other` for every remaining string. -/
inductive Dim where
  | x | xI | y | yI | z | zI | zSoil | tile
  | other (name : String)
  deriving DecidableEq, Repr

/-- constants.py:10 -/
def X_DIMS : List Dim := [.x, .xI]
/-- constants.py:11 -/
def Y_DIMS : List Dim := [.y, .yI]
/-- constants.py:13 -/
def HORIZONTAL_DIMS : List Dim := X_DIMS ++ Y_DIMS
/-- constants.py:14 -/
def INTERFACE_DIMS : List Dim := [.xI, .yI, .zI]

/-- constants.py:1 -/
def ROOT_RANK : Int := 0

/-- Boundary types: constants.py:16-23 (`INTERIOR` is treated separately, in the
view model). -/
inductive BType where
  | west | east | north | south | nw | ne | sw | se
  deriving DecidableEq, Repr

/-- constants.py:25-27: the order in which boundaries are visited. -/
def BOUNDARY_TYPES : List BType :=
  [.north, .south, .west, .east, .nw, .ne, .sw, .se]

end FV3
