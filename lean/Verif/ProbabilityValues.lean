import Mathlib.Data.Rat.Floor
import Mathlib.Tactic.Linarith
import Mathlib.Tactic.FieldSimp
import Mathlib.Tactic.Ring
import Mathlib.Tactic.NormNum
import Mathlib.Tactic.Positivity

/-!
# Quantised probabilities

Model of `cartographer/mapping/probability_values.{h,cc}`, `mapping/value_conversion_tables.cc` and the
used parts of `common/math.h`, `common/port.h`.  `float` is replaced by exact rational numbers, `uint16`
by natural numbers (all results are proved to be below 2^16).
-/

namespace Verif.Prob

/-- `common::Clamp` (math.h:31-40). -/
def clamp (x lo hi : ℚ) : ℚ := if x > hi then hi else if x < lo then lo else x

/-- `common::RoundToInt` (port.h:39-41), i.e. `std::lround`: halfway cases away from zero. -/
def roundToInt (x : ℚ) : Int := if 0 ≤ x then ⌊x + 1 / 2⌋ else ⌈x - 1 / 2⌉

/-- `BoundedFloatToValue` before the conversion to `uint16` (probability_values.h:32-44). -/
def boundedFloatToInt (x lo hi : ℚ) : Int := roundToInt ((clamp x lo hi - lo) * (32766 / (hi - lo))) + 1

/-- `BoundedFloatToValue` (probability_values.h:32-44): conversion of the `int` to `uint16`. -/
def boundedFloatToValue (x lo hi : ℚ) : Nat := (boundedFloatToInt x lo hi % 65536).toNat

/-- `kValueCount` (probability_values.cc:26). -/
def valueCount : Nat := 32768

/-- `kUpdateMarker` (probability_values.h:82). -/
def updateMarker : Nat := 2 ^ 15

/-- `SlowValueToBoundedFloat` (probability_values.cc:29-37, value_conversion_tables.cc:29-37). -/
def slowValueToBoundedFloat (v unknownValue : Nat) (unknownResult lo hi : ℚ) : ℚ :=
  if v = unknownValue then unknownResult
  else
    let scale := (hi - lo) / 32766
    v * scale + (lo - scale)

/-- Entry `v` of `PrecomputeValueToBoundedFloat` (probability_values.cc:39-54): the 32768 values twice. -/
def valueToBoundedFloat (v : Nat) (unknownResult lo hi : ℚ) : ℚ :=
  slowValueToBoundedFloat (v % valueCount) 0 unknownResult lo hi

/-- Entry `v` of `PrecomputeValueToBoundedFloat` of value_conversion_tables.cc:39-51, which masks the update
marker bit. -/
def conversionTable (v : Nat) (unknownResult lo hi : ℚ) : ℚ :=
  slowValueToBoundedFloat (v &&& (65535 - updateMarker)) 0 unknownResult lo hi

/-- `Odds` (probability_values.h:48-50). -/
def odds (p : ℚ) : ℚ := p / (1 - p)

/-- `ProbabilityFromOdds` (probability_values.h:52-54). -/
def probabilityFromOdds (o : ℚ) : ℚ := o / (o + 1)

/-- `kMinProbability` .. `kMaxCorrespondenceCost` (probability_values.h:64-67). -/
def minProbability : ℚ := 1 / 10
def maxProbability : ℚ := 1 - minProbability
def minCost : ℚ := 1 - maxProbability
def maxCost : ℚ := 1 - minProbability

/-- `ProbabilityToCorrespondenceCost` and its inverse (probability_values.h:56-62). -/
def probabilityToCost (p : ℚ) : ℚ := 1 - p
def costToProbability (c : ℚ) : ℚ := 1 - c

/-- `CorrespondenceCostToValue`, `ProbabilityToValue` (probability_values.h:85-93). -/
def costToValue (c : ℚ) : Nat := boundedFloatToValue c minCost maxCost
def probabilityToValue (p : ℚ) : Nat := boundedFloatToValue p minProbability maxProbability

/-- `ValueToProbability` (probability_values.h:100-102, .cc:56-60). -/
def valueToProbability (v : Nat) : ℚ := valueToBoundedFloat v minProbability minProbability maxProbability

/-- `ValueToCorrespondenceCost` (probability_values.h:107-109, .cc:62-66). -/
def valueToCost (v : Nat) : ℚ := valueToBoundedFloat v maxCost minCost maxCost

/-- `ProbabilityValueToCorrespondenceCostValue` (probability_values.h:111-125). -/
def probabilityValueToCostValue (v : Nat) : Nat :=
  if v = 0 then 0
  else
    let carry := decide (v > updateMarker)
    let v' := if carry then v - updateMarker else v
    let r := costToValue (probabilityToCost (valueToProbability v'))
    if carry then (r + updateMarker) % 65536 else r

/-- `CorrespondenceCostValueToProbabilityValue` (probability_values.h:127-140). -/
def costValueToProbabilityValue (v : Nat) : Nat :=
  if v = 0 then 0
  else
    let carry := decide (v > updateMarker)
    let v' := if carry then v - updateMarker else v
    let r := probabilityToValue (costToProbability (valueToCost v'))
    if carry then (r + updateMarker) % 65536 else r

/-- Entry `cell` of `ComputeLookupTableToApplyOdds` (probability_values.cc:76-87), stored as `uint16`. -/
def oddsTable (o : ℚ) (cell : Nat) : Nat :=
  if cell = 0 then (probabilityToValue (probabilityFromOdds o) + updateMarker) % 65536
  else (probabilityToValue (probabilityFromOdds (o * odds (valueToProbability cell))) + updateMarker) % 65536

/-- Entry `cell` of `ComputeLookupTableToApplyCorrespondenceCostOdds` (probability_values.cc:89-105). -/
def costOddsTable (o : ℚ) (cell : Nat) : Nat :=
  if cell = 0 then (costToValue (probabilityToCost (probabilityFromOdds o)) + updateMarker) % 65536
  else (costToValue (probabilityToCost (probabilityFromOdds (o * odds (costToProbability (valueToCost cell))))) + updateMarker) % 65536

end Verif.Prob
