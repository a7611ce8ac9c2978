/-!
# Python dictionaries

A dictionary is the list of its items in insertion order, with distinct keys.
-/

namespace FV3

/-- A Python `dict`.
(CPython semantics; used throughout, e.g. _timing.py:11-13, _legacy_restart.py:43, zarr_monitor.py:72-81) -/
abbrev Dict (K V : Type) := List (K × V)

namespace Dict
variable {K V : Type} [DecidableEq K]

/-- `d.get(k)` / `d[k]`
(CPython semantics; used throughout, e.g. _timing.py:11-13, _legacy_restart.py:43, zarr_monitor.py:72-81) -/
def get? : Dict K V → K → Option V
  | [], _ => none
  | (k', v) :: d, k => if k = k' then some v else get? d k

/-- `d[k] = v`: an existing key keeps its position, a new one goes last.
(CPython semantics; used throughout, e.g. _timing.py:11-13, _legacy_restart.py:43, zarr_monitor.py:72-81) -/
def set : Dict K V → K → V → Dict K V
  | [], k, v => [(k, v)]
  | (k', v') :: d, k, v => if k = k' then (k', v) :: d else (k', v') :: set d k v

/-- `del d[k]`, `d.pop(k)`
(CPython semantics; used throughout, e.g. _timing.py:11-13, _legacy_restart.py:43, zarr_monitor.py:72-81) -/
def del : Dict K V → K → Dict K V
  | [], _ => []
  | (k', v') :: d, k => if k = k' then d else (k', v') :: del d k

/-- `d.keys()`
(CPython semantics; used throughout, e.g. _timing.py:11-13, _legacy_restart.py:43, zarr_monitor.py:72-81) -/
def keys (d : Dict K V) : List K := d.map (·.1)

/-- `k in d`
(CPython semantics; used throughout, e.g. _timing.py:11-13, _legacy_restart.py:43, zarr_monitor.py:72-81) -/
def has (d : Dict K V) (k : K) : Bool := (d.get? k).isSome

end Dict
end FV3
