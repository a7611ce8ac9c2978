import Verif.Model.Basic
import Verif.Model.Dict

/-!
# Timers (_timing.py)

`T` is the type of clock readings and durations, with the operations the code applies to
them; nothing is assumed about these operations, so floating-point rounding is covered.
The readings of the clock are arguments of the calls.  Not modelled: the warnings issued
by `times` and `hits`.
-/

namespace FV3

/-- _timing.py:10-14: the attributes of a `Timer`. -/
structure Timer (T : Type) where
  clockStarts : Dict String T
  accumulatedTime : Dict String T
  hitCount : Dict String Nat
  enabled : Bool
  deriving DecidableEq

/-- Method calls on a timer; `now` is what `time()` returns during the call. (_timing.py:7-130) -/
inductive TCall (T : Type) where
  | start (name : String) (now : T)
  | stop (name : String) (now : T)
  | reset
  | enable
  | disable
  deriving DecidableEq

namespace Timer
variable {T : Type} [Add T] [Sub T]

/-- _timing.py:10-14 -/
def init : Timer T := ⟨[], [], [], true⟩

omit [Add T] [Sub T] in
/-- _timing.py:16-22 -/
def start (s : Timer T) (name : String) (now : T) : Py Unit × Timer T :=
  if s.enabled then
    if s.clockStarts.has name then (.error .valueError, s)
    else (.ok (), { s with clockStarts := s.clockStarts.set name now })
  else (.ok (), s)

/-- _timing.py:24-36.  `pop` raises KeyError before anything is assigned. -/
def stop (s : Timer T) (name : String) (now : T) : Py Unit × Timer T :=
  if s.enabled then
    match s.clockStarts.get? name with
    | none => (.error .keyError, s)
    | some t0 =>
      (.ok (), { s with
        clockStarts := s.clockStarts.del name
        accumulatedTime := s.accumulatedTime.set name
          (match s.accumulatedTime.get? name with
           | none => now - t0
           | some a => a + (now - t0))
        hitCount := s.hitCount.set name
          (match s.hitCount.get? name with
           | none => 1
           | some h => h + 1) })
  else (.ok (), s)

/-- One method call: _timing.py:16-36, 86-102. -/
def call (s : Timer T) : TCall T → Py Unit × Timer T
  | .start n t => s.start n t
  | .stop n t => s.stop n t
  | .reset => (.ok (), { s with accumulatedTime := [], hitCount := [] })
  | .enable => (.ok (), { s with enabled := true })
  | .disable =>
    if s.clockStarts.length > 0 then (.error .runtimeError, s)
    else (.ok (), { s with enabled := false })

omit [Add T] [Sub T] in
/-- _timing.py:62-72 -/
def times (s : Timer T) : Dict String T := s.accumulatedTime
omit [Add T] [Sub T] in
/-- _timing.py:74-84 -/
def hits (s : Timer T) : Dict String Nat := s.hitCount

/-- The calls of a history in order; the first component is the record of the calls and
their outcomes, newest first. (_timing.py:7-130) -/
def runFrom : List (TCall T × Py Unit) × Timer T → List (TCall T) → List (TCall T × Py Unit) × Timer T
  | (tr, s), [] => (tr, s)
  | (tr, s), c :: cs => runFrom ((c, (s.call c).1) :: tr, (s.call c).2) cs

end Timer

/-- Programs using a timer: code not using it, calls, `with timer.clock(name):`, exceptions and handlers.
The body of the clock runs between its readings `t0` and `t1`. (_timing.py:7-130) -/
inductive TProg (T : Type) where
  | skip
  | call (c : TCall T)
  | seq (p q : TProg T)
  | clock (name : String) (t0 : T) (body : TProg T) (t1 : T)
  | raise (e : PyErr)
  | tryExcept (body handler : TProg T)

/-- One call, recorded. (_timing.py:7-130) -/
def Timer.callRec {T : Type} [Add T] [Sub T] (c : TCall T)
    (st : List (TCall T × Py Unit) × Timer T) : Py Unit × (List (TCall T × Py Unit) × Timer T) :=
  ((st.2.call c).1, ((c, (st.2.call c).1) :: st.1, (st.2.call c).2))

/-- Execution of a program: outcome, record of the timer calls (newest first), timer.  The
context manager (_timing.py:38-60) calls `start`, and `stop` only if the body did not
raise. -/
def TProg.exec {T : Type} [Add T] [Sub T] :
    TProg T → List (TCall T × Py Unit) × Timer T → Py Unit × (List (TCall T × Py Unit) × Timer T)
  | .skip, st => (.ok (), st)
  | .call c, st => Timer.callRec c st
  | .seq p q, st =>
    match p.exec st with
    | (.ok _, st') => q.exec st'
    | (.error e, st') => (.error e, st')
  | .clock n t0 body t1, st =>
    match Timer.callRec (.start n t0) st with
    | (.error e, st') => (.error e, st')
    | (.ok _, st') =>
      match body.exec st' with
      | (.error e, st'') => (.error e, st'')
      | (.ok _, st'') => Timer.callRec (.stop n t1) st''
  | .raise e, st => (.error e, st)
  | .tryExcept p h, st =>
    match p.exec st with
    | (.ok _, st') => (.ok (), st')
    | (.error _, st') => h.exec st'

/-- _timing.py:110-130 `NullTimer`: a timer constructed disabled whose `enable` raises. -/
def NullTimer.call {T : Type} [Add T] [Sub T] (s : Timer T) : TCall T → Py Unit × Timer T
  | .enable => (.error .notImplemented, s)
  | c => s.call c

/-- _timing.py:116-118 -/
def NullTimer.init {T : Type} : Timer T := { (⟨[], [], [], true⟩ : Timer T) with enabled := false }

/-- _timing.py:127-130: the property is overridden. -/
def NullTimer.enabled {T : Type} (_ : Timer T) : Bool := false

/-- A history of calls on a null timer: outcomes in order, and the timer. (_timing.py:7-130) -/
def NullTimer.run {T : Type} [Add T] [Sub T] : Timer T → List (TCall T) → List (Py Unit) × Timer T
  | s, [] => ([], s)
  | s, c :: cs =>
    let x := NullTimer.call s c
    let y := NullTimer.run x.2 cs
    (x.1 :: y.1, y.2)

end FV3
