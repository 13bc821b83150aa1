import Verif.FloatFormat

/-!
# Loops controlled by floating point numbers (C113)

Model of the loops of the code whose condition compares floating point numbers, with every operation rounded to nearest:
`NormalizeAngleDifference` (common/math.h), `AddValueToHistogram` (mapping/internal/3d/scan_matching/rotational_scan_matcher.cc),
the bucket boundaries of `metrics/histogram.cc` and the search for an edge length in sensor/internal/voxel_filter.cc.

Simplifications: numbers are rational and exponents are not bounded above, so there are no infinities and no NaN (a boundary
that overflows is infinite in the code and larger than every finite `max_value` here, so the loops agree). A loop has a number
of rounds it may take; `none` means that it has not ended after so many rounds.
-/

namespace Verif.FloatLoops
open Verif.Fp

/-- `M_PI` as a `double`. -/
def pi64 : ℚ := 884279719003555 / 2 ^ 48

/-- `static_cast<float>(M_PI)`. -/
def pi32 : ℚ := 13176795 / 2 ^ 22

/-- `while (x > hi) x -= c` (common/math.h:64, rotational_scan_matcher.cc:38-40). -/
def down (f : Format) (hi c : ℚ) : Nat → ℚ → Option ℚ
  | 0, _ => none
  | n + 1, x => if hi < x then down f hi c n (f.rnd (x - c)) else some x

/-- `while (x < lo) x += c` (common/math.h:65, rotational_scan_matcher.cc:41-43). -/
def up (f : Format) (lo c : ℚ) : Nat → ℚ → Option ℚ
  | 0, _ => none
  | n + 1, x => if x < lo then up f lo c n (f.rnd (x + c)) else some x

/-- `NormalizeAngleDifference<double>` (common/math.h:61-67), each loop with at most `n` rounds. -/
def normalizeAngle (n : Nat) (x : ℚ) : Option ℚ :=
  (down double pi64 (double.rnd (2 * pi64)) n x).bind (up double (-pi64) (double.rnd (2 * pi64)) n)

/-- The two loops of `AddValueToHistogram` (rotational_scan_matcher.cc:38-43), each with at most `n` rounds. -/
def halfTurn (n : Nat) (x : ℚ) : Option ℚ := (down single pi32 pi32 n x).bind (up single 0 pi32 n)

/-- The loop of `Histogram::FixedWidth` (metrics/histogram.cc:43-46) from `boundary`. -/
def widths (width : ℚ) : Nat → ℚ → List ℚ
  | 0, _ => []
  | n + 1, boundary => double.rnd (boundary + width) :: widths width n (double.rnd (boundary + width))

/-- `Histogram::FixedWidth` (metrics/histogram.cc:39-48). -/
def fixedWidth (width : ℚ) (n : Nat) : List ℚ := widths width n 0

/-- The loop of `Histogram::ScaledPowersOf` (metrics/histogram.cc:57-60) from `boundary` with at most `n` rounds. -/
def powers (base max : ℚ) : Nat → ℚ → Option (List ℚ)
  | 0, _ => none
  | n + 1, boundary =>
    if boundary < max then (powers base max n (double.rnd (boundary * base))).map (boundary :: ·) else some []

/-- What became of a call: a failed `CHECK`, a loop that is not over yet, or a result. -/
inductive Outcome (α : Type) where
  | failed
  | running
  | done (a : α)
deriving DecidableEq

/-- `Histogram::ScaledPowersOf` (metrics/histogram.cc:50-62) with at most `n` rounds. -/
def scaledPowersOf (n : Nat) (base scale max : ℚ) : Outcome (List ℚ) :=
  if base ≤ 1 then .failed
  else if scale ≤ 0 then .failed
  else match powers base max n scale with
    | none => .running
    | some l => .done l

/-- `1e-1f`. -/
def tenth : ℚ := 13421773 / 2 ^ 27

/-- `1e-2f`. -/
def hundredth : ℚ := 10737418 / 2 ^ 30

/-- A search for an edge length: the lengths that were tried, in order, and the length of the returned point cloud. -/
structure Search where
  tried : List ℚ
  kept : ℚ
deriving DecidableEq

/-- The binary search (voxel_filter.cc:61-70) with at most `n` rounds. `dense l` says whether filtering with edge length `l`
leaves enough points. -/
def binary (dense : ℚ → Bool) : Nat → ℚ → ℚ → List ℚ → Option Search
  | 0, _, _, _ => none
  | n + 1, low, high, tried =>
    if tenth < single.rnd (single.rnd (high - low) / low) then
      let mid := single.rnd (single.rnd (low + high) / 2)
      if dense mid then binary dense n mid high (tried ++ [mid]) else binary dense n low mid (tried ++ [mid])
    else some ⟨tried, low⟩

/-- The loop over `high_length` (voxel_filter.cc:53-74) with at most `n` rounds. `kept` is the edge length of `result`. -/
def halving (dense : ℚ → Bool) (n : Nat) (max : ℚ) : Nat → ℚ → ℚ → List ℚ → Option Search
  | 0, _, _, _ => none
  | m + 1, high, kept, tried =>
    if single.rnd (hundredth * max) < high then
      let low := single.rnd (high / 2)
      if dense low then binary dense n low high (tried ++ [low])
      else halving dense n max m (single.rnd (high / 2)) low (tried ++ [low])
    else some ⟨tried, kept⟩

/-- `AdaptivelyVoxelFiltered` (voxel_filter.cc:38-76) for a point cloud that has more than `min_num_points` points; only the
edge lengths are modelled. -/
def adaptive (dense : ℚ → Bool) (n : Nat) (max : ℚ) : Option Search :=
  if dense max then some ⟨[max], max⟩ else halving dense n max n max max [max]

end Verif.FloatLoops
