import Verif.RealTimeCorrelative
import Mathlib.Analysis.SpecialFunctions.Complex.Arg

/-!
# Histograms of directions

Model of `cartographer/mapping/internal/3d/scan_matching/rotational_scan_matcher.cc`.  `float` is ℝ; `std::sort` is an argument.  `none` is a
failing `CHECK`, an index that is not one of a vector, vectors of different sizes, or a loop that does not end.
-/

namespace Verif.Rotational

open Verif.Rigid Verif.RealTime

/-- `kMinDistance`, `kMaxDistance`, `kSliceHeight` (rotational_scan_matcher.cc:31-33). -/
noncomputable def minDistance : ℝ := 1 / 5
noncomputable def maxDistance : ℝ := 9 / 10
noncomputable def sliceHeight : ℝ := 1 / 5

/-- `while (angle > M_PI) angle -= M_PI` (rotational_scan_matcher.cc:39-41), limited to a number of iterations. -/
noncomputable def down : Nat → ℝ → Option ℝ
  | 0, a => if Real.pi < a then none else some a
  | n + 1, a => if Real.pi < a then down n (a - Real.pi) else some a

/-- `while (angle < 0.f) angle += M_PI` (rotational_scan_matcher.cc:42-44). -/
noncomputable def up : Nat → ℝ → Option ℝ
  | 0, a => if a < 0 then none else some a
  | n + 1, a => if a < 0 then up n (a + Real.pi) else some a

/-- `Clamp<int>` (common/math.h:33-42). -/
def clampInt (v lo hi : Int) : Int := if hi < v then hi else if v < lo then lo else v

/-- `AddValueToHistogram` (rotational_scan_matcher.cc:35-50); the loops are limited to more iterations than they need. -/
noncomputable def addValue (angle value : ℝ) (h : List ℝ) : Option (List ℝ) := do
  let fuel := (⌈|angle| / Real.pi⌉).toNat
  let a ← down fuel angle
  let a ← up fuel a
  let bucket := clampInt (RealTime.round (h.length * (a / Real.pi) - 1 / 2)) 0 (h.length - 1)
  if bucket < 0 then none
  else do
    let v ← h[bucket.toNat]?
    some (h.set bucket.toNat (v + value))

/-- `ComputeCentroid` (rotational_scan_matcher.cc:52-59). -/
noncomputable def centroid (slice : List V3) : Option V3 :=
  if slice.isEmpty then none
  else some ⟨(slice.map V3.x).sum / slice.length, (slice.map V3.y).sum / slice.length, (slice.map V3.z).sum / slice.length⟩

/-- `(a - b).head<2>()`. -/
def delta (a b : V3) : V2 := ⟨a.x - b.x, a.y - b.y⟩

/-- `common::atan2` (common/math.h:69-72). -/
noncomputable def atan2 (v : V2) : ℝ := Complex.arg ⟨v.x, v.y⟩

/-- The weight of a pair of points (rotational_scan_matcher.cc:85-86) for vectors that are not zero. -/
noncomputable def weight (d e : V2) : ℝ := max 0 (1 - |d.x / norm2 d * (e.x / norm2 e) + d.y / norm2 d * (e.y / norm2 e)|)

/-- The loop of `AddPointCloudSliceToHistogram` (rotational_scan_matcher.cc:72-88); `last` is `last_point_position`. -/
noncomputable def pairs (c : V3) : V3 → List V3 → List ℝ → Option (List ℝ)
  | _, [], h => some h
  | last, p :: ps, h =>
    if norm2 (delta p last) < minDistance ∨ norm2 (delta p c) < minDistance then pairs c last ps h
    else if maxDistance < norm2 (delta p last) then pairs c p ps h
    else do
      let h ← addValue (atan2 (delta p last)) (weight (delta p last) (delta p c)) h
      pairs c last ps h

/-- `AddPointCloudSliceToHistogram` (rotational_scan_matcher.cc:61-89). -/
noncomputable def addSlice (slice : List V3) (h : List ℝ) : Option (List ℝ) :=
  match slice with
  | [] => some h
  | first :: rest => do
    let c ← centroid (first :: rest)
    pairs c first (first :: rest) h

/-- The vector `by_angle` of `SortSlice` before it is sorted (rotational_scan_matcher.cc:104-112). -/
noncomputable def byAngle (c : V3) (slice : List V3) : List (ℝ × V3) :=
  (slice.filter fun p => !decide (norm2 (delta p c) < minDistance)).map fun p => (atan2 (delta p c), p)

/-- `SortSlice` (rotational_scan_matcher.cc:94-119). -/
noncomputable def sortSlice (sort : List (ℝ × V3) → List (ℝ × V3)) (slice : List V3) : Option (List V3) := do
  let c ← centroid slice
  some ((sort (byAngle c slice)).map Prod.snd)

/-- The slice of a point (rotational_scan_matcher.cc:169). -/
noncomputable def sliceOf (p : V3) : Int := RealTime.round (p.z / sliceHeight)

/-- `slices[key].push_back(point)` for a `std::map`. -/
def push {α : Type} (k : Int) (p : α) : List (Int × List α) → List (Int × List α)
  | [] => [(k, [p])]
  | (k', s) :: m => if k < k' then (k, [p]) :: (k', s) :: m else if k = k' then (k', s ++ [p]) :: m else (k', s) :: push k p m

/-- The loop that fills `slices` (rotational_scan_matcher.cc:167-171). -/
noncomputable def slices (points : List V3) : List (Int × List V3) := points.foldl (fun m p => push (sliceOf p) p m) []

/-- `RotationalScanMatcher::ComputeHistogram` (rotational_scan_matcher.cc:164-176). -/
noncomputable def computeHistogram (sort : List (ℝ × V3) → List (ℝ × V3)) (points : List V3) (size : Nat) : Option (List ℝ) :=
  (slices points).foldlM (fun h s => do
    let sorted ← sortSlice sort s.2
    addSlice sorted h) (List.replicate size 0)

/-- `while (full_buckets < 0) full_buckets += histogram.size()` (rotational_scan_matcher.cc:150-152). -/
def raise (size : Nat) : Nat → Int → Option Int
  | 0, k => if k < 0 then none else some k
  | n + 1, k => if k < 0 then raise size n (k + size) else some k

/-- `RotationalScanMatcher::RotateHistogram` (rotational_scan_matcher.cc:141-162). -/
noncomputable def rotateHistogram (h : List ℝ) (angle : ℝ) : Option (List ℝ) :=
  if h.length = 0 then some h
  else do
    let by_ : ℝ := -angle * h.length / Real.pi
    let full := RealTime.round (by_ - 1 / 2)
    let fraction : ℝ := by_ - full
    let full ← raise h.length full.natAbs full
    (List.range h.length).mapM fun (i : Nat) => do
      let r0 ← h[((i + full) % h.length).toNat]?
      let r1 ← h[((i + 1 + full) % h.length).toNat]?
      some (fraction * r1 + (1 - fraction) * r0)

/-- `norm()` of a vector. -/
noncomputable def norm (h : List ℝ) : ℝ := √(h.map fun x => x * x).sum

/-- `dot` of vectors. -/
def dot (a b : List ℝ) : ℝ := (List.zipWith (· * ·) a b).sum

/-- `MatchHistograms` (rotational_scan_matcher.cc:121-132). -/
noncomputable def matchHistograms (submap scan : List ℝ) : Option ℝ :=
  let normalization := norm scan * norm submap
  if normalization < 1 / 1000 then some 1
  else if submap.length ≠ scan.length then none
  else some (dot submap scan / normalization)

/-- `RotationalScanMatcher::Match` (rotational_scan_matcher.cc:178-189). -/
noncomputable def «match» (submap h : List ℝ) (initial : ℝ) (angles : List ℝ) : Option (List ℝ) :=
  angles.mapM fun angle => do
    let scan ← rotateHistogram h (initial + angle)
    matchHistograms submap scan

end Verif.Rotational
