import Verif.Py
/-!
# utils.Timer (utils.py:51-90)

`now` is the value returned by `time.time()` in the call.  Times are exact integers here; Python uses
floats (rounding is not modelled).
-/

namespace Satisfy

/-- Attributes of `Timer` (utils.py:52-55). -/
structure Timer where
  elapsed : Int
  start : Option Int
  count : Nat
  deriving DecidableEq

/-- `Timer()` (utils.py:52-55). -/
def Timer.new : Timer := ⟨0, none, 0⟩

/-- `running()` (utils.py:57-58). -/
def Timer.running (t : Timer) : Bool := t.start.isSome

/-- `start()` (utils.py:60-63). -/
def Timer.doStart (t : Timer) (now : Int) : Res Timer :=
  if t.running then .error .runtimeError else .ok { t with start := some now }

/-- `stop(count=…)` (utils.py:65-72). -/
def Timer.doStop (t : Timer) (now : Int) (count : Nat := 1) : Res Timer :=
  match t.start with
  | none => .error .runtimeError
  | some s => .ok ⟨t.elapsed + (now - s), none, t.count + count⟩

/-- `abort()` (utils.py:77-79); reads the clock only if running. -/
def Timer.abort (t : Timer) (now : Int) : Res Timer :=
  if t.running then t.doStop now 0 else .ok t

/-- `elapsed()` (utils.py:81-85); reads the clock only if running. -/
def Timer.elapsedAt (t : Timer) (now : Int) : Int :=
  match t.start with
  | some s => t.elapsed + (now - s)
  | none => t.elapsed

/-- `stats()` (utils.py:87-90): the time of a segment that is still running is not included. -/
def Timer.stats (t : Timer) : Nat × Int := (t.count, t.elapsed)

/-- The calls that change a timer. -/
inductive TimerCall where
  | start | stop (count : Nat) | abort
  deriving DecidableEq, Repr

/-- One call at the time `now`: the timer afterwards and what was raised. The methods raise before they change anything (utils.py:60-63, 65-67). -/
def Timer.call (t : Timer) (now : Int) (c : TimerCall) : Timer × Option Err :=
  match (match c with
    | .start => t.doStart now
    | .stop n => t.doStop now n
    | .abort => t.abort now : Res Timer) with
  | .ok t' => (t', none)
  | .error e => (t, some e)

/-- `Timer()` (utils.py:52-55) and then some calls, with the times at which they are made: the timer, and what each call raised. -/
def Timer.calls : List (Int × TimerCall) → Timer → Timer × List (Option Err)
  | [], t => (t, [])
  | (now, c) :: l, t =>
    let (t', r) := t.call now c
    let (t'', rs) := Timer.calls l t'
    (t'', r :: rs)

end Satisfy
