import Mathlib.Data.Int.Log
import Mathlib.Data.Rat.Floor

/-!
# Times and durations

Model of `common/time.h` and `common/time.cc`. A time and a duration are both a signed 64-bit count of ticks of 100 ns;
arithmetic that leaves this range is undefined behaviour and modelled as `none`.

Doubles are rational numbers and every operation on doubles rounds its exact result to 53 significant bits, ties to even,
with the smallest exponent of the format. Infinities, NaN and the largest finite double are left out: values that large are
far outside the range of ticks, and converting them to an integer is undefined in any case.
-/

namespace Verif.Ticks

/-- The values of `int64`. -/
def Int64 (n : Int) : Prop := -9223372036854775808 ≤ n ∧ n ≤ 9223372036854775807

instance (n : Int) : Decidable (Int64 n) := by unfold Int64; infer_instance

/-- The result of an integer operation on `int64`; leaving the range is undefined. -/
def toInt64 (n : Int) : Option Int := if Int64 n then some n else none

/-- `common::Duration` (time.h 30-36): a count of ticks. -/
structure Duration where
  count : Int
deriving DecidableEq

/-- `common::Time` (time.h 33, 42): a duration since the epoch. -/
structure Time where
  sinceEpoch : Duration
deriving DecidableEq

/-- `FromUniversal` (time.cc 46). -/
def fromUniversal (ticks : Int) : Time := ⟨⟨ticks⟩⟩

/-- `ToUniversal` (time.cc 48). -/
def toUniversal (t : Time) : Int := t.sinceEpoch.count

/-- `operator<` of time points, which compares the durations since the epoch. -/
def before (a b : Time) : Bool := decide (a.sinceEpoch.count < b.sinceEpoch.count)

/-- `operator-` of time points. -/
def minus (a b : Time) : Option Duration := (toInt64 (a.sinceEpoch.count - b.sinceEpoch.count)).map Duration.mk

/-- `operator+` of a time point and a duration. -/
def plus (a : Time) (d : Duration) : Option Time := (toInt64 (a.sinceEpoch.count + d.count)).map fun n => ⟨⟨n⟩⟩

/-- Rounding to the nearest integer, ties to even. -/
def roundEven (x : ℚ) : Int :=
  if x - ⌊x⌋ < 1 / 2 then ⌊x⌋
  else if 1 / 2 < x - ⌊x⌋ then ⌊x⌋ + 1
  else if ⌊x⌋ % 2 = 0 then ⌊x⌋ else ⌊x⌋ + 1

/-- The distance of neighbouring doubles at `x`. -/
def ulp (x : ℚ) : ℚ := 2 ^ (max (Int.log 2 |x|) (-1022) - 52)

/-- Rounding to double. -/
def rnd (x : ℚ) : ℚ := roundEven (x / ulp x) * ulp x

/-- Conversion of a double to an integer: rounding towards zero. -/
def trunc (x : ℚ) : Int := if 0 ≤ x then ⌊x⌋ else ⌈x⌉

/-- `FromSeconds` (time.cc 29-32). `duration_cast` from seconds in double to ticks multiplies by 10⁷ in double and then
converts to an integer. -/
def fromSeconds (s : ℚ) : Option Duration := (toInt64 (trunc (rnd (s * 10000000)))).map Duration.mk

/-- `ToSeconds` (time.cc 34-37). `duration_cast` from ticks to seconds in double converts the count to double and divides by
10⁷ in double. -/
def toSeconds (d : Duration) : ℚ := rnd (rnd d.count / 10000000)

/-- `FromMilliseconds` (time.cc 55-58). `duration_cast` from milliseconds to ticks multiplies by 10⁴. -/
def fromMilliseconds (ms : Int) : Option Duration := (toInt64 (ms * 10000)).map Duration.mk

end Verif.Ticks
