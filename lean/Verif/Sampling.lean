import Mathlib.Data.Rat.Floor
import Mathlib.Algebra.Order.Floor.Ring

/-!
# Fixed ratio sampler and motion filter

Models of `cartographer/common/fixed_ratio_sampler.cc` (lines 24-39) and
`cartographer/mapping/internal/motion_filter.cc` (lines 37-58).
-/

namespace Verif.Sampler

/-- Members of `FixedRatioSampler` (fixed_ratio_sampler.h:46-49).  The `double` ratio is an exact
rational; `int64` counters are unbounded (simplification). -/
structure State where
  ratio : ℚ
  numPulses : Nat
  numSamples : Nat

/-- Constructor (fixed_ratio_sampler.cc:24-28); `none` is a failing `CHECK_GE` / `CHECK_LE`. -/
def mk (ratio : ℚ) : Option State :=
  if 0 ≤ ratio ∧ ratio ≤ 1 then some ⟨ratio, 0, 0⟩ else none

/-- `Pulse` (fixed_ratio_sampler.cc:32-39). -/
def pulse (s : State) : State × Bool :=
  let s1 := { s with numPulses := s.numPulses + 1 }
  if (s1.numSamples : ℚ) / s1.numPulses < s1.ratio then
    ({ s1 with numSamples := s1.numSamples + 1 }, true)
  else (s1, false)

/-- `k` pulses in a row; returns the answers in order. -/
def pulses : Nat → State → State × List Bool
  | 0, s => (s, [])
  | k + 1, s =>
    let (s1, bs) := pulses k s
    let (s2, b) := pulse s1
    (s2, bs ++ [b])

end Verif.Sampler

namespace Verif.MotionFilter

/-- The options (motion_filter.cc:25-35): limits for time (ticks), distance and angle. -/
structure Options (S : Type) where
  maxTime : Int
  maxDistance : S
  maxAngle : S

/-- Members of `MotionFilter` (motion_filter.h).  `last` models `last_time_`, `last_pose_`, which are
default-initialised in the code and never read before they are set (`num_total_ > 1` guards them). -/
structure State (P : Type) where
  numTotal : Nat
  numDifferent : Nat
  last : Int × P

variable {P S : Type} [LE S] [DecidableLE S]

/-- `IsSimilar` (motion_filter.cc:40-58).  `dist p q` is `(p.translation() - q.translation()).norm()`
and `angle p q` is `GetAngle(p.inverse() * q)`; both are parameters, so the theorem holds for whatever
floating point functions these are. -/
def isSimilar (dist angle : P → P → S) (o : Options S) (s : State P) (time : Int) (pose : P) :
    State P × Bool :=
  let s1 := { s with numTotal := s.numTotal + 1 }
  if s1.numTotal > 1 ∧ time - s1.last.1 ≤ o.maxTime ∧ dist pose s1.last.2 ≤ o.maxDistance ∧
      angle pose s1.last.2 ≤ o.maxAngle then
    (s1, true)
  else
    ({ s1 with last := (time, pose), numDifferent := s1.numDifferent + 1 }, false)

/-- A history of calls; returns each input with its answer, in call order. -/
def run (dist angle : P → P → S) (o : Options S) (s : State P) :
    List (Int × P) → State P × List ((Int × P) × Bool)
  | [] => (s, [])
  | x :: xs =>
    let (s1, b) := isSimilar dist angle o s x.1 x.2
    let (s2, rest) := run dist angle o s1 xs
    (s2, (x, b) :: rest)

end Verif.MotionFilter
