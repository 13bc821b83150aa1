import Verif.FloatFormat
import Verif.ProbabilityValues

/-!
# Quantised probabilities in floating point arithmetic

Model of `mapping/probability_values.{h,cc}`, `mapping/value_conversion_tables.cc` and of the conversions of
`mapping/internal/2d/tsd_value_converter.{h,cc}` with `float` arithmetic: `fl` rounds the exact result of an operation to
`float`, and every operation is rounded. `Verif/ProbabilityValues.lean` has the same functions on exact numbers.

* `fused` says whether the compiler contracts a product and a sum into one operation with one rounding; C++ permits both.
* The conversion of a `uint16` to `float` is exact (it has 16 bits) and so are `Clamp` and comparisons.
* `DCHECK_GE`, `DCHECK_LE` are checks: `none` is a failed check.
* Overflow to infinity is left out; the theorems bound the odds.
-/

namespace Verif.FloatProb

open Verif.Prob (clamp roundToInt)

/-- `a * b + c`, rounded once or twice. -/
def mulAdd (fl : ℚ → ℚ) (fused : Bool) (a b c : ℚ) : ℚ := if fused then fl (a * b + c) else fl (fl (a * b) + c)

/-- `BoundedFloatToValue` before the checks (probability_values.h:32-39). -/
def boundedFloatToInt (fl : ℚ → ℚ) (x lo hi : ℚ) : Int :=
  roundToInt (fl (fl (clamp x lo hi - lo) * fl (32766 / fl (hi - lo)))) + 1

/-- `BoundedFloatToValue` (probability_values.h:32-44). -/
def boundedFloatToValue (fl : ℚ → ℚ) (x lo hi : ℚ) : Option Nat :=
  if 1 ≤ boundedFloatToInt fl x lo hi ∧ boundedFloatToInt fl x lo hi ≤ 32767 then some (boundedFloatToInt fl x lo hi).toNat
  else none

/-- `kScale` (probability_values.cc:35, value_conversion_tables.cc:36). -/
def scale (fl : ℚ → ℚ) (lo hi : ℚ) : ℚ := fl (fl (hi - lo) / 32766)

/-- `SlowValueToBoundedFloat` (probability_values.cc:29-37, value_conversion_tables.cc:29-38) for the unknown value 0. -/
def slowValueToBoundedFloat (fl : ℚ → ℚ) (fused : Bool) (v : Nat) (unknownResult lo hi : ℚ) : ℚ :=
  if v = 0 then unknownResult else mulAdd fl fused v (scale fl lo hi) (fl (lo - scale fl lo hi))

/-- Entry `v` of `PrecomputeValueToBoundedFloat` (probability_values.cc:39-54): the 32768 values twice. -/
def valueToBoundedFloat (fl : ℚ → ℚ) (fused : Bool) (v : Nat) (unknownResult lo hi : ℚ) : ℚ :=
  slowValueToBoundedFloat fl fused (v % 32768) unknownResult lo hi

/-- `kMinProbability` .. `kMaxCorrespondenceCost` (probability_values.h:64-67). -/
def minProbability (fl : ℚ → ℚ) : ℚ := fl (1 / 10)
def maxProbability (fl : ℚ → ℚ) : ℚ := fl (1 - minProbability fl)
def minCost (fl : ℚ → ℚ) : ℚ := fl (1 - maxProbability fl)
def maxCost (fl : ℚ → ℚ) : ℚ := fl (1 - minProbability fl)

/-- `Odds` (probability_values.h:48-50). -/
def odds (fl : ℚ → ℚ) (p : ℚ) : ℚ := fl (p / fl (1 - p))

/-- `ProbabilityFromOdds` (probability_values.h:52-54). -/
def probabilityFromOdds (fl : ℚ → ℚ) (o : ℚ) : ℚ := fl (o / fl (o + 1))

/-- `ProbabilityFromOdds(odds * Odds(p))` (probability_values.cc:83-84, 99-101); the product and the sum inside may be
contracted after inlining. -/
def updated (fl : ℚ → ℚ) (fused : Bool) (o p : ℚ) : ℚ :=
  fl (fl (o * odds fl p) / mulAdd fl fused o (odds fl p) 1)

/-- `ProbabilityToCorrespondenceCost`, `CorrespondenceCostToProbability` (probability_values.h:56-62). -/
def probabilityToCost (fl : ℚ → ℚ) (p : ℚ) : ℚ := fl (1 - p)
def costToProbability (fl : ℚ → ℚ) (c : ℚ) : ℚ := fl (1 - c)

/-- `ProbabilityToValue`, `CorrespondenceCostToValue` (probability_values.h:85-93). -/
def probabilityToValue (fl : ℚ → ℚ) (p : ℚ) : Option Nat :=
  boundedFloatToValue fl p (minProbability fl) (maxProbability fl)
def costToValue (fl : ℚ → ℚ) (c : ℚ) : Option Nat := boundedFloatToValue fl c (minCost fl) (maxCost fl)

/-- `ValueToProbability`, `ValueToCorrespondenceCost` (probability_values.h:100-109, .cc:56-66). -/
def valueToProbability (fl : ℚ → ℚ) (fused : Bool) (v : Nat) : ℚ :=
  valueToBoundedFloat fl fused v (minProbability fl) (minProbability fl) (maxProbability fl)
def valueToCost (fl : ℚ → ℚ) (fused : Bool) (v : Nat) : ℚ :=
  valueToBoundedFloat fl fused v (maxCost fl) (minCost fl) (maxCost fl)

/-- Taking the update marker off a value, `f`, and putting it back (probability_values.h:115-124, 131-139). -/
def keepingMarker (f : Nat → Option Nat) (v : Nat) : Option Nat :=
  if v = 0 then some 0
  else if 32768 < v then (f (v - 32768)).map (· + 32768)
  else f v

/-- `ProbabilityValueToCorrespondenceCostValue` (probability_values.h:111-125). -/
def probabilityValueToCostValue (fl : ℚ → ℚ) (fused : Bool) (v : Nat) : Option Nat :=
  keepingMarker (fun w => costToValue fl (probabilityToCost fl (valueToProbability fl fused w))) v

/-- `CorrespondenceCostValueToProbabilityValue` (probability_values.h:127-140). -/
def costValueToProbabilityValue (fl : ℚ → ℚ) (fused : Bool) (v : Nat) : Option Nat :=
  keepingMarker (fun w => probabilityToValue fl (costToProbability fl (valueToCost fl fused w))) v

/-- Entry `cell` of `ComputeLookupTableToApplyOdds` (probability_values.cc:76-88). -/
def oddsTable (fl : ℚ → ℚ) (fused : Bool) (o : ℚ) (cell : Nat) : Option Nat :=
  if cell = 0 then (probabilityToValue fl (probabilityFromOdds fl o)).map (· + 32768)
  else (probabilityToValue fl (updated fl fused o (valueToProbability fl fused cell))).map (· + 32768)

/-- Entry `cell` of `ComputeLookupTableToApplyCorrespondenceCostOdds` (probability_values.cc:90-108). -/
def costOddsTable (fl : ℚ → ℚ) (fused : Bool) (o : ℚ) (cell : Nat) : Option Nat :=
  if cell = 0 then (costToValue fl (probabilityToCost fl (probabilityFromOdds fl o))).map (· + 32768)
  else (costToValue fl (probabilityToCost fl
    (updated fl fused o (costToProbability fl (valueToCost fl fused cell))))).map (· + 32768)

/-- `TSDToValue` and `WeightToValue` (tsd_value_converter.h:40-57): the bounds are `-max_tsd`, `max_tsd` and `0`,
`max_weight`, the resolution is computed once as `32766.f / (max - min)` (tsd_value_converter.cc:28-31). -/
def tsdToValue (fl : ℚ → ℚ) (maxTsd x : ℚ) : Option Nat := boundedFloatToValue fl x (-maxTsd) maxTsd
def weightToValue (fl : ℚ → ℚ) (maxWeight x : ℚ) : Option Nat := boundedFloatToValue fl x 0 maxWeight

/-- `ValueToTSD`, `ValueToWeight` (tsd_value_converter.h:61-69, .cc:32-35, value_conversion_tables.cc:40-52). -/
def valueToTsd (fl : ℚ → ℚ) (fused : Bool) (maxTsd : ℚ) (v : Nat) : ℚ :=
  slowValueToBoundedFloat fl fused (v % 32768) (-maxTsd) (-maxTsd) maxTsd
def valueToWeight (fl : ℚ → ℚ) (fused : Bool) (maxWeight : ℚ) (v : Nat) : ℚ :=
  slowValueToBoundedFloat fl fused (v % 32768) 0 0 maxWeight

end Verif.FloatProb
