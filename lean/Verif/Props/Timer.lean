import Verif.Spec.Timer
import Verif.Proofs.Dict
import Mathlib.Tactic.Linarith

/-!
# C37 Timer accounting, C38 NullTimer
-/

namespace FV3
open TimerSpec
variable {T : Type} [Add T] [Sub T]

/-- The timer `s` holds exactly what the record `r` says. -/
structure Timer.Agrees (r : Record T) (s : Timer T) : Prop where
  enabled : s.enabled = on r
  running : ∀ n, s.clockStarts.get? n = since n r
  times : ∀ n, s.times.get? n = total (durations n r)
  hits : ∀ n, s.hits.get? n = count (durations n r)
  keys : s.times.keys = s.hits.keys
  nodup : s.clockStarts.keys.Nodup

theorem total_snoc (l : List T) (d : T) :
    total (l ++ [d]) = some (match total l with | none => d | some a => a + d) := by
  cases l with
  | nil => rfl
  | cons a l => simp [total, List.foldl_append]

theorem count_snoc (l : List T) (d : T) :
    count (l ++ [d]) = some (match count l with | none => 1 | some a => a + 1) := by
  cases l with
  | nil => rfl
  | cons a l => simp [count]

theorem total_none_iff (l : List T) : total l = none ↔ count l = none := by
  cases l <;> simp [total, count]

theorem Timer.agrees_call {r : Record T} {s : Timer T} (A : s.Agrees r) (c : TCall T) :
    (s.call c).2.Agrees ((c, (s.call c).1) :: r) := by
  cases c with
  | start n t =>
    unfold Timer.call Timer.start
    cases he : s.enabled with
    | false =>
      have ho : on r = false := by rw [← A.enabled, he]
      simp only [Bool.false_eq_true, if_false]
      exact ⟨by rw [A.enabled]; rfl, fun m => by rw [A.running m]; simp [since, ho],
        fun m => by rw [A.times m]; rfl, fun m => by rw [A.hits m]; rfl, A.keys, A.nodup⟩
    | true =>
      have ho : on r = true := by rw [← A.enabled, he]
      simp only [if_true]
      cases hh : s.clockStarts.has n with
      | true =>
        simp only [if_true]
        exact ⟨by rw [A.enabled]; rfl, fun m => by rw [A.running m]; rfl,
          fun m => by rw [A.times m]; rfl, fun m => by rw [A.hits m]; rfl, A.keys, A.nodup⟩
      | false =>
        simp only [Bool.false_eq_true, if_false]
        refine ⟨?_, fun m => ?_, fun m => ?_, fun m => ?_, A.keys, Dict.nodup_set _ _ _ A.nodup⟩
        · exact ho.symm
        · show Dict.get? (s.clockStarts.set n t) m = _
          rw [Dict.get?_set, A.running m]
          simp only [since, ho, and_true]
          by_cases e : m = n
          · simp [e]
          · rw [if_neg e, if_neg (fun h => e h.symm)]
        · show s.times.get? m = _
          rw [A.times m]; rfl
        · show s.hits.get? m = _
          rw [A.hits m]; rfl
  | stop n t =>
    unfold Timer.call Timer.stop
    cases he : s.enabled with
    | false =>
      have ho : on r = false := by rw [← A.enabled, he]
      simp only [Bool.false_eq_true, if_false]
      exact ⟨by rw [A.enabled]; rfl, fun m => by rw [A.running m]; simp [since, ho],
        fun m => by rw [A.times m]; simp [durations, ho],
        fun m => by rw [A.hits m]; simp [durations, ho], A.keys, A.nodup⟩
    | true =>
      have ho : on r = true := by rw [← A.enabled, he]
      simp only [if_true]
      cases hh : s.clockStarts.get? n with
      | none =>
        exact ⟨by rw [A.enabled]; rfl, fun m => by rw [A.running m]; rfl,
          fun m => by rw [A.times m]; rfl, fun m => by rw [A.hits m]; rfl, A.keys, A.nodup⟩
      | some t0 =>
        have hs : since n r = some t0 := by rw [← A.running n, hh]
        have hd : ∀ m, durations m ((TCall.stop n t, Except.ok ()) :: r)
            = if m = n then durations n r ++ [t - t0] else durations m r := by
          intro m
          simp only [durations, ho, and_true]
          by_cases e : m = n
          · subst e
            simp [hs]
          · rw [if_neg (fun h => e h.symm), if_neg e]
        refine ⟨?_, fun m => ?_, fun m => ?_, fun m => ?_, ?_, Dict.nodup_del _ _ A.nodup⟩
        · exact ho.symm
        · show Dict.get? (s.clockStarts.del n) m = _
          rw [Dict.get?_del _ A.nodup, A.running m]
          simp only [since, ho, and_true]
          by_cases e : m = n
          · simp [e]
          · rw [if_neg e, if_neg (fun h => e h.symm)]
        · show Dict.get? (Dict.set _ _ _) m = _
          rw [Dict.get?_set, hd m]
          by_cases e : m = n
          · subst e
            have h1 : s.accumulatedTime.get? m = total (durations m r) := A.times m
            rw [if_pos rfl, if_pos rfl, total_snoc, h1]
            cases total (durations m r) <;> rfl
          · rw [if_neg e, if_neg e]; exact A.times m
        · show Dict.get? (Dict.set _ _ _) m = _
          rw [Dict.get?_set, hd m]
          by_cases e : m = n
          · subst e
            have h1 : s.hitCount.get? m = count (durations m r) := A.hits m
            rw [if_pos rfl, if_pos rfl, count_snoc, h1]
            cases count (durations m r) <;> rfl
          · rw [if_neg e, if_neg e]; exact A.hits m
        · show Dict.keys (Dict.set _ _ _) = Dict.keys (Dict.set _ _ _)
          rw [Dict.keys_set, Dict.keys_set]
          have := A.keys
          unfold Timer.times Timer.hits at this
          rw [this]
  | reset =>
    exact ⟨by show s.enabled = _; rw [A.enabled]; rfl, fun m => by
      show s.clockStarts.get? m = _; rw [A.running m]; rfl,
      fun m => rfl, fun m => rfl, rfl, A.nodup⟩
  | enable =>
    exact ⟨rfl, fun m => by show s.clockStarts.get? m = _; rw [A.running m]; rfl,
      fun m => by show s.times.get? m = _; rw [A.times m]; rfl,
      fun m => by show s.hits.get? m = _; rw [A.hits m]; rfl, A.keys, A.nodup⟩
  | disable =>
    unfold Timer.call
    by_cases h : s.clockStarts.length > 0
    · simp only [if_pos h]
      exact ⟨by rw [A.enabled]; rfl, fun m => by rw [A.running m]; rfl,
        fun m => by rw [A.times m]; rfl, fun m => by rw [A.hits m]; rfl, A.keys, A.nodup⟩
    · simp only [if_neg h]
      exact ⟨rfl, fun m => by show s.clockStarts.get? m = _; rw [A.running m]; rfl,
        fun m => by show s.times.get? m = _; rw [A.times m]; rfl,
        fun m => by show s.hits.get? m = _; rw [A.hits m]; rfl, A.keys, A.nodup⟩

theorem Timer.agrees_init : (Timer.init : Timer T).Agrees [] :=
  ⟨rfl, fun _ => rfl, fun _ => rfl, fun _ => rfl, rfl, List.nodup_nil⟩

theorem Timer.agrees_run {r : Record T} {s : Timer T} (A : s.Agrees r) (cs : List (TCall T)) :
    (Timer.runFrom (r, s) cs).2.Agrees (Timer.runFrom (r, s) cs).1 := by
  induction cs generalizing r s with
  | nil => exact A
  | cons c cs ih => exact ih (Timer.agrees_call A c)

/-- **C37.**  After any history of calls on a new timer, read off the record of the calls and
their outcomes: `times[n]` is the sum of the durations of the pairs of `start(n)`, `stop(n)`
completed while enabled since the last reset, `hits[n]` their number, and a name appears in
`times` and `hits` exactly when there is such a pair (both list the same names). -/
theorem C37_accounting (cs : List (TCall T)) :
    let x := Timer.runFrom ([], Timer.init) cs
    (∀ n, x.2.times.get? n = total (durations n x.1)) ∧
    (∀ n, x.2.hits.get? n = count (durations n x.1)) ∧
    x.2.times.keys = x.2.hits.keys ∧
    x.2.enabled = on x.1 :=
  let A := Timer.agrees_run Timer.agrees_init cs
  ⟨A.times, A.hits, A.keys, A.enabled⟩

/-- **C37.**  The outcome of the next call after any history: `start(n)` raises ValueError
exactly if the timer is enabled and the clock `n` is running, `stop(n)` KeyError exactly if
it is enabled and the clock is not running, `disable()` RuntimeError exactly if some clock is
running; nothing else raises.  A call that raises leaves the timer as it was, and so does any
`start` or `stop` while disabled. -/
theorem C37_outcomes (cs : List (TCall T)) (c : TCall T) :
    let x := Timer.runFrom ([], Timer.init) cs
    (c ≠ .disable → (x.2.call c).1 = outcome x.1 c) ∧
    (c = .disable → ((x.2.call c).1 = .error .runtimeError ↔ ∃ n, (since n x.1).isSome)) ∧
    (c = .disable → ¬ (∃ n, (since n x.1).isSome) → (x.2.call c).1 = .ok ()) ∧
    ((x.2.call c).1 ≠ .ok () → (x.2.call c).2 = x.2) ∧
    (on x.1 = false → ∀ n t, c = .start n t ∨ c = .stop n t → (x.2.call c).2 = x.2) := by
  intro x
  have A : x.2.Agrees x.1 := Timer.agrees_run Timer.agrees_init cs
  generalize x.1 = r at A
  generalize x.2 = s at A
  have hrun : (0 < s.clockStarts.length) ↔ ∃ n, (since n r).isSome := by
    rw [List.length_pos_iff]
    constructor
    · intro h
      by_contra hn
      refine h ((Dict.nil_iff _).2 fun k => ?_)
      rw [A.running k]
      by_contra hk
      exact hn ⟨k, Option.isSome_iff_ne_none.2 hk⟩
    · rintro ⟨n, hn⟩ h
      rw [← A.running n, h] at hn
      exact absurd hn (by simp [Dict.get?])
  refine ⟨fun hc => ?_, fun hc => ?_, fun hc hn => ?_, fun hc => ?_, fun ho n t hc => ?_⟩
  · cases c with
    | start n t =>
      simp only [Timer.call, Timer.start, outcome, ← A.enabled, ← A.running n, Dict.has]
      by_cases h1 : s.enabled = true <;> by_cases h2 : (s.clockStarts.get? n).isSome = true <;>
        simp [h1, h2]
    | stop n t =>
      simp only [Timer.call, Timer.stop, outcome, ← A.enabled, ← A.running n]
      by_cases h1 : s.enabled = true
      · rw [if_pos h1]
        rcases h2 : s.clockStarts.get? n with _ | t0 <;> simp [h1]
      · rw [if_neg h1]
        simp [h1]
    | reset => rfl
    | enable => rfl
    | disable => exact absurd rfl hc
  · subst hc
    unfold Timer.call
    by_cases h : 0 < s.clockStarts.length
    · rw [if_pos h]
      exact ⟨fun _ => hrun.1 h, fun _ => rfl⟩
    · rw [if_neg h]
      exact ⟨fun hh => absurd hh (by simp), fun hh => absurd (hrun.2 hh) h⟩
  · subst hc
    unfold Timer.call
    rw [if_neg (fun h => hn (hrun.1 h))]
  · cases c with
    | start n t =>
      simp only [Timer.call, Timer.start] at hc ⊢
      split at hc
      · split at hc
        · rename_i h1 h2; simp [h1, h2]
        · exact absurd rfl hc
      · exact absurd rfl hc
    | stop n t =>
      simp only [Timer.call, Timer.stop] at hc ⊢
      split at hc
      · split at hc
        · split <;> rfl
        · exact absurd rfl hc
      · exact absurd rfl hc
    | reset => exact absurd rfl hc
    | enable => exact absurd rfl hc
    | disable =>
      simp only [Timer.call] at hc ⊢
      split at hc
      · rename_i h; rw [if_pos h]
      · exact absurd rfl hc
  · have he : s.enabled = false := by rw [A.enabled, ho]
    rcases hc with rfl | rfl
    · simp [Timer.call, Timer.start, he]
    · simp [Timer.call, Timer.stop, he]

theorem TProg.exec_agrees (p : TProg T) {st : Record T × Timer T} (A : st.2.Agrees st.1) :
    (p.exec st).2.2.Agrees (p.exec st).2.1 := by
  induction p generalizing st with
  | skip => exact A
  | call c => exact Timer.agrees_call A c
  | seq p q ihp ihq =>
    unfold TProg.exec
    have h := ihp A
    rcases e : p.exec st with ⟨o, st'⟩
    rw [e] at h
    cases o with
    | ok _ => exact ihq h
    | error _ => exact h
  | clock n t0 body t1 ih =>
    unfold TProg.exec
    have h : (Timer.callRec (.start n t0) st).2.2.Agrees
        (Timer.callRec (.start n t0) st).2.1 := Timer.agrees_call A _
    rcases e : Timer.callRec (.start n t0) st with ⟨o, st'⟩
    rw [e] at h
    cases o with
    | error _ => exact h
    | ok _ =>
      dsimp only
      have h' := ih h
      rcases e' : body.exec st' with ⟨o', st''⟩
      rw [e'] at h'
      cases o' with
      | error _ => exact h'
      | ok _ => exact Timer.agrees_call h' (.stop n t1)
  | raise e => exact A
  | tryExcept p h ihp ihh =>
    unfold TProg.exec
    have hp := ihp A
    rcases e : p.exec st with ⟨o, st'⟩
    rw [e] at hp
    cases o with
    | ok _ => exact hp
    | error _ => exact ihh hp

/-- **C37.**  The accounting holds for every program using the timer, with nested
`with timer.clock(name)` blocks, exceptions thrown anywhere and handlers. -/
theorem C37_programs (p : TProg T) :
    let x := (p.exec ([], Timer.init)).2
    (∀ n, x.2.times.get? n = total (durations n x.1)) ∧
    (∀ n, x.2.hits.get? n = count (durations n x.1)) ∧
    x.2.times.keys = x.2.hits.keys :=
  let A := TProg.exec_agrees p Timer.agrees_init
  ⟨A.times, A.hits, A.keys⟩

/-- **C37.**  A `clock` block whose body ends normally, on a timer still enabled, adds the
duration from its start to its end to what the body itself left, as one hit - provided the
body leaves the clock running since it was started. -/
theorem C37_clock (n : String) (t0 t1 : T) (body : TProg T) (before : TProg T)
    (hon : on (before.exec ([], Timer.init)).2.1 = true)
    (hidle : since n (before.exec ([], Timer.init)).2.1 = none)
    (st' : Record T × Timer T)
    (hbody : body.exec (Timer.callRec (.start n t0) (before.exec ([], Timer.init)).2).2
      = (.ok (), st'))
    (hon' : on st'.1 = true) (hrun : since n st'.1 = some t0) :
    let x := (TProg.clock n t0 body t1).exec (before.exec ([], Timer.init)).2
    x.1 = .ok () ∧
    x.2.2.times.get? n = total (durations n st'.1 ++ [t1 - t0]) ∧
    x.2.2.hits.get? n = count (durations n st'.1 ++ [t1 - t0]) := by
  dsimp only
  have A := TProg.exec_agrees before (st := ([], Timer.init)) (Timer.agrees_init (T := T))
  generalize before.exec ([], Timer.init) = b at *
  obtain ⟨ob, tr, s⟩ := b
  have A' : st'.2.Agrees st'.1 := by
    have h1 := TProg.exec_agrees (TProg.call (.start n t0)) (st := (tr, s)) A
    have h2 := TProg.exec_agrees body h1
    have h3 : body.exec ((TProg.call (.start n t0)).exec (tr, s)).2 = (.ok (), st') := hbody
    rw [h3] at h2
    exact h2
  have hstart : (Timer.callRec (.start n t0) (tr, s)).1 = .ok () := by
    have h1 : s.enabled = true := by rw [A.enabled]; exact hon
    have h2 : s.clockStarts.get? n = none := by rw [A.running]; exact hidle
    simp [TProg.exec, Timer.callRec, Timer.call, Timer.start, h1, Dict.has, h2]
  have hx : (TProg.clock n t0 body t1).exec (tr, s) = Timer.callRec (.stop n t1) st' := by
    rw [TProg.exec]
    rcases e : Timer.callRec (.start n t0) (tr, s) with ⟨o, st1⟩
    rw [e] at hstart hbody
    subst hstart
    dsimp only at hbody ⊢
    rw [hbody]
  have hstop : (st'.2.call (.stop n t1)).1 = .ok () := by
    have h1 : st'.2.enabled = true := by rw [A'.enabled, hon']
    have h2 : st'.2.clockStarts.get? n = some t0 := by rw [A'.running, hrun]
    simp [Timer.call, Timer.stop, h1, h2]
  have hd : durations n ((TCall.stop n t1, Except.ok ()) :: st'.1)
      = durations n st'.1 ++ [t1 - t0] := by
    simp [durations, hon', hrun]
  have B := Timer.agrees_call A' (.stop n t1)
  rw [hstop] at B
  rw [hx]
  refine ⟨hstop, ?_, ?_⟩
  · show (st'.2.call (.stop n t1)).2.times.get? n = _
    rw [B.times n, hd]
  · show (st'.2.call (.stop n t1)).2.hits.get? n = _
    rw [B.hits n, hd]

/-- **C37, limit.**  When the body of a `clock` block raises, the clock is left running: the
pair is not recorded, and entering the block again raises ValueError. -/
theorem C37_clock_exception (n : String) (t0 t1 t2 : T) (e : PyErr) :
    let p : TProg T := .tryExcept (.clock n t0 (.raise e) t1) (.call .reset)
    let x := p.exec ([], Timer.init)
    x.1 = .ok () ∧ x.2.2.hits = [] ∧
    ((TProg.clock n t0 (.raise e) t2).exec x.2).1 = .error .valueError := by
  refine ⟨?_, ?_, ?_⟩ <;>
    simp [TProg.exec, Timer.callRec, Timer.call, Timer.start, Timer.init, Dict.has, Dict.get?, Dict.set, Timer.hits]

/-- A history with nested, repeated, failing and disabled timings. -/
def exTimer : List (TCall Int) :=
  [.start "a" 1, .start "b" 2, .stop "b" 5, .start "a" 6, .stop "a" 7, .stop "c" 7, .disable,
   .start "b" 8, .stop "b" 9, .enable, .start "b" 10, .disable, .stop "b" 14]

/-- The hypotheses are met and the numbers are as expected: `b` ran 3 and 4. -/
example : (Timer.runFrom ([], Timer.init) exTimer).2.times.get? "b" = some 7 ∧
    (Timer.runFrom ([], Timer.init) exTimer).2.hits.get? "b" = some 2 ∧
    (Timer.runFrom ([], Timer.init) exTimer).2.hits.get? "a" = some 1 ∧
    durations "b" (Timer.runFrom ([], Timer.init) exTimer).1 = [3, 4] := by decide +kernel

example : ((TProg.clock "m" 0 (.clock "i" 1 (.call .enable) 4) (10 : Int)).exec ([], Timer.init)).2.2.times
    = [("i", 3), ("m", 10)] := by decide +kernel

/-- **C38.**  Under any history of calls a null timer reports `enabled = False` and empty
times and hits; `enable` always raises NotImplementedError and nothing else ever raises. -/
theorem C38_null_timer (cs : List (TCall T)) :
    let x := NullTimer.run (NullTimer.init : Timer T) cs
    x.2.times = [] ∧ x.2.hits = [] ∧ NullTimer.enabled x.2 = false ∧
    x.1 = cs.map fun c => match c with
      | .enable => .error .notImplemented
      | _ => .ok () := by
  have key : ∀ cs : List (TCall T),
      (NullTimer.run (NullTimer.init : Timer T) cs).2 = NullTimer.init ∧
      (NullTimer.run (NullTimer.init : Timer T) cs).1 = cs.map fun c => match c with
        | .enable => .error .notImplemented
        | _ => .ok () := by
    intro cs
    induction cs with
    | nil => exact ⟨rfl, rfl⟩
    | cons c cs ih =>
      have h2 : (NullTimer.call (NullTimer.init : Timer T) c).2 = NullTimer.init := by
        cases c <;> rfl
      constructor
      · show (NullTimer.run (NullTimer.call NullTimer.init c).2 cs).2 = _
        rw [h2]; exact ih.1
      · show (NullTimer.call NullTimer.init c).1 ::
          (NullTimer.run (NullTimer.call NullTimer.init c).2 cs).1 = _
        rw [h2, ih.2]
        cases c <;> rfl
  obtain ⟨h1, h2⟩ := key cs
  intro x
  exact ⟨by show (NullTimer.run _ _).2.times = _; rw [h1]; rfl,
    by show (NullTimer.run _ _).2.hits = _; rw [h1]; rfl, rfl, h2⟩

example : (NullTimer.run (NullTimer.init : Timer Int) exTimer).1.length = 13 := by decide +kernel

end FV3
