import Mathlib.Data.Rat.Defs
import Mathlib.Algebra.Order.Ring.Rat
import Mathlib.Algebra.BigOperators.Group.List.Basic

/-!
# Rates of incoming data

Model of `RateTimer` (common/internal/rate_timer.h, here rt.h), with which `CollatedTrajectoryBuilder` logs the rate of each sensor.  Times and wall times are
ticks of 100 ns (common/time.h 30-47); the clock is read once in a pulse and its value is an argument.  Doubles are rationals, with the results of a division
by zero kept apart.  The square root of `sigma` is left to the caller: the value under it is given.
-/

namespace Verif.RateTimer

/-- `Event` (rt.h 92-95). -/
structure Event where
  time : ℤ
  wall : ℤ
  deriving DecidableEq, Repr

/-- A double after a division: a number, an infinity or "not a number". -/
inductive Value where
  | num (q : ℚ)
  | infinity (negative : Bool)
  | nan
  deriving DecidableEq, Repr

/-- Division of finite doubles; a zero denominator is positive zero. -/
def divide (a b : ℚ) : Value :=
  if b ≠ 0 then .num (a / b) else if a = 0 then .nan else .infinity (decide (a < 0))

/-- `ToSeconds` of a duration in ticks (common/time.cc 31-34). -/
def seconds (d : ℤ) : ℚ := (d : ℚ) / 10000000

/-- The loop of `Pulse` (rt.h 72-76): the oldest events are removed while there are more than two and the oldest is out of the window. -/
def trim (window : ℤ) : List Event → List Event
  | [] => []
  | e :: es =>
    match es.getLast? with
    | none => e :: es
    | some b => if 2 < (e :: es).length ∧ window < b.wall - e.wall then trim window es else e :: es

/-- `Pulse` (rt.h 70-77). -/
def pulse (window : ℤ) (events : List Event) (p : Event) : List Event := trim window (events ++ [p])

/-- The events after several pulses of a new timer. -/
def after (window : ℤ) (ps : List Event) : List Event := ps.foldl (pulse window) []

/-- `ComputeRate` (rt.h 49-55). -/
def rate (events : List Event) : Value :=
  match events.head?, events.getLast? with
  | some f, some b => divide ((events.length : ℚ) - 1) (seconds (b.time - f.time))
  | _, _ => .num 0

/-- `ComputeWallTimeRateRatio` (rt.h 60-67). -/
def ratio (events : List Event) : Value :=
  match events.head?, events.getLast? with
  | some f, some b => divide (seconds (b.time - f.time)) (seconds (b.wall - f.wall))
  | _, _ => .num 0

/-- The loop of `ComputeDeltasInSeconds`. -/
def differences : List Event → List ℚ
  | e :: f :: es => seconds (f.time - e.time) :: differences (f :: es)
  | _ => []

/-- `ComputeDeltasInSeconds` (rt.h 98-108) with its `CHECK_GT`. -/
def deltas (events : List Event) : Option (List ℚ) := if 1 < events.length then some (differences events) else none

/-- `DeltasDebugString` (rt.h 111-126): mean and the square of sigma. -/
def statistics (events : List Event) : Option (Value × Value) := do
  let ds ← deltas events
  match divide ds.sum ds.length with
  | .num mean => some (.num mean, divide (ds.map fun x => (x - mean) ^ 2).sum ((ds.length : ℚ) - 1))
  | v => some (v, .nan)

/-- `DebugString` (rt.h 80-89): `none` is a failing `CHECK`, `some none` the text "unknown", otherwise rate, mean, square of sigma and ratio. -/
def debug (events : List Event) : Option (Option (Value × Value × Value × Value)) :=
  if events.length < 2 then some none
  else do
    let s ← statistics events
    some (some (rate events, s.1, s.2, ratio events))

end Verif.RateTimer
