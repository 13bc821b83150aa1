import Verif.Grid2D
import Verif.Tsdf2D
import Verif.HybridGrid
import Verif.Rigid
import Mathlib.Analysis.SpecialFunctions.Trigonometric.Inverse
import Mathlib.Analysis.SpecialFunctions.Complex.Arg

/-!
# Real-time correlative scan matching

Model of mapping/internal/2d/scan_matching/real_time_correlative_scan_matcher_2d.cc with the part of correlative_scan_matcher_2d.{h,cc} it
uses, and of mapping/internal/3d/scan_matching/real_time_correlative_scan_matcher_3d.cc.  Poses, points and scores are real numbers,
values of cells rational ones.  `none` is a failing `CHECK`, which includes comparisons with the not-a-number of an empty scan, or
undefined behaviour.  Points of the two-dimensional matcher have no `z`.
-/

namespace Verif.RealTime

open Verif.Rigid Verif.Grid2D

/-- `RoundToInt` (common/port.h:40-42) of a real number. -/
noncomputable def round (x : ℝ) : Int := if 0 ≤ x then ⌊x + 1 / 2⌋ else ⌈x - 1 / 2⌉

/-- `RealTimeCorrelativeScanMatcherOptions`. -/
structure Options where
  linearWindow : ℝ
  angularWindow : ℝ
  translationWeight : ℝ
  rotationWeight : ℝ

/-- `max_scan_range` (correlative_scan_matcher_2d.cc:34-38, real_time_correlative_scan_matcher_3d.cc:59-63) from the ranges. -/
noncomputable def maxRange (resolution : ℝ) (ranges : List ℝ) : ℝ := ranges.foldl (fun m r => max r m) (3 * resolution)

/-- The angular step (correlative_scan_matcher_2d.cc:39-42, real_time_correlative_scan_matcher_3d.cc:64-67). -/
noncomputable def angularStep (resolution range : ℝ) : ℝ := (1 - 1 / 1000) * Real.arccos (1 - resolution ^ 2 / (2 * range ^ 2))

/-! ### Two dimensions -/

/-- `SearchParameters` (correlative_scan_matcher_2d.h:35-63); all linear bounds are the same, from `-linear` to `linear`. -/
structure Search where
  resolution : ℝ
  step : ℝ
  angular : Int
  linear : Int

/-- `Vector2f::norm`. -/
noncomputable def norm2 (p : V2) : ℝ := Real.sqrt (p.x * p.x + p.y * p.y)

/-- The constructor of `SearchParameters` (correlative_scan_matcher_2d.cc:27-55).  With a negative number of scans the loops would not
end. -/
noncomputable def search (linearWindow angularWindow : ℝ) (points : List V2) (resolution : ℝ) : Option Search :=
  let step := angularStep resolution (maxRange resolution (points.map norm2))
  let angular := ⌈angularWindow / step⌉
  if 2 * angular + 1 < 0 then none else some ⟨resolution, step, angular, ⌈linearWindow / resolution⌉⟩

/-- `num_scans`. -/
def Search.scans (s : Search) : Nat := (2 * s.angular + 1).toNat

/-- `GenerateRotatedScans` (correlative_scan_matcher_2d.cc:94-111). -/
noncomputable def rotatedScans (points : List V2) (s : Search) : List (List V2) :=
  (List.range s.scans).map fun (k : Nat) => points.map (rotate2 (-s.angular * s.step + k * s.step))

/-- `MapLimits::GetCellIndex` (map_limits.h:69-76). -/
noncomputable def cellIndex (l : MapLimits) (p : V2) : Int × Int :=
  (round ((l.maxY - p.y) / l.resolution - 1 / 2), round ((l.maxX - p.x) / l.resolution - 1 / 2))

/-- `DiscretizeScans` (correlative_scan_matcher_2d.cc:113-130). -/
noncomputable def discretize (l : MapLimits) (scans : List (List V2)) (t : V2) : List (List (Int × Int)) :=
  scans.map fun scan => scan.map fun p => cellIndex l ⟨p.x + t.x, p.y + t.y⟩

/-- `Candidate2D` (correlative_scan_matcher_2d.h:78-109) before it is scored. -/
structure Candidate where
  scan : Nat
  dx : Int
  dy : Int
  x : ℝ
  y : ℝ
  orientation : ℝ

/-- The constructor of `Candidate2D` (correlative_scan_matcher_2d.h:79-88). -/
def Candidate.new (s : Search) (scan : Nat) (dx dy : Int) : Candidate :=
  ⟨scan, dx, dy, -dy * s.resolution, -dx * s.resolution, (scan - s.angular) * s.step⟩

/-- `for (int i = -n; i <= n; ++i)`. -/
def window (n : Int) : List Int := (List.range (2 * n + 1).toNat).map fun (i : Nat) => (i : Int) - n

/-- `GenerateExhaustiveSearchCandidates` (real_time_correlative_scan_matcher_2d.cc:81-116) with its `CHECK_EQ`. -/
def candidates (s : Search) : Option (List Candidate) :=
  let result := (List.range s.scans).flatMap fun (k : Nat) => (window s.linear).flatMap fun dx => (window s.linear).map fun dy => Candidate.new s k dx dy
  let expected : Int := ((List.range s.scans).map fun _ => (s.linear - -s.linear + 1) * (s.linear - -s.linear + 1)).sum
  if (result.length : Int) = expected then some result else none

/-- `ComputeCandidateScore` for a `ProbabilityGrid` (real_time_correlative_scan_matcher_2d.cc:61-76). -/
def probabilityScore (g : Grid) (scan : List (Int × Int)) (dx dy : Int) : Option ℚ := do
  let sum ← scan.foldlM (fun (sum : ℚ) i => (g.getProbability (i.1 + dx, i.2 + dy)).map (sum + ·)) 0
  if scan.length = 0 then none
  else
    let score := sum / scan.length
    if 0 < score then some score else none

/-- `ComputeCandidateScore` for a `TSDF2D` (real_time_correlative_scan_matcher_2d.cc:37-59). -/
def tsdfScore (t : Tsdf.Map) (scan : List (Int × Int)) (dx dy : Int) : Option ℚ := do
  let (sum, weights) ← scan.foldlM (fun (a : ℚ × ℚ) i => (t.getTsdAndWeight (i.1 + dx, i.2 + dy)).map fun c =>
    (a.1 + (t.maxTsd - |c.1|) / t.maxTsd * c.2, a.2 + c.2)) (0, 0)
  if weights = 0 then some 0
  else
    let score := sum / weights
    if 0 ≤ score then some score else none

/-- The factor for the distance from the initial pose (real_time_correlative_scan_matcher_2d.cc:170-174,
real_time_correlative_scan_matcher_3d.cc:106-109). -/
noncomputable def penalty (o : Options) (distance angle : ℝ) : ℝ :=
  Real.exp (-(distance * o.translationWeight + angle * o.rotationWeight) ^ 2)

/-- The body of the loop of `ScoreCandidates` (real_time_correlative_scan_matcher_2d.cc:150-175). -/
noncomputable def scoreCandidate (o : Options) (cellScore : List (Int × Int) → Int → Int → Option ℚ) (scans : List (List (Int × Int))) (c : Candidate) :
    Option (Candidate × ℝ) := do
  let scan ← scans[c.scan]?
  let score ← cellScore scan c.dx c.dy
  some (c, (score : ℝ) * penalty o (norm2 ⟨c.x, c.y⟩) |c.orientation|)

/-- `std::max_element`: the first of the largest elements. -/
noncomputable def maxElement {α : Type} : List (α × ℝ) → Option (α × ℝ)
  | [] => none
  | c :: cs => some (cs.foldl (fun best c => if best.2 < c.2 then c else best) c)

/-- `RealTimeCorrelativeScanMatcher2D::Match` (real_time_correlative_scan_matcher_2d.cc:118-148): score and pose estimate. -/
noncomputable def match2 (o : Options) (cellScore : List (Int × Int) → Int → Int → Option ℚ) (l : MapLimits) (initial : Rigid2) (points : List V2) :
    Option (ℝ × Rigid2) := do
  let rotated := points.map (rotate2 initial.angle)
  let s ← search o.linearWindow o.angularWindow rotated l.resolution
  let scans := discretize l (rotatedScans rotated s) initial.translation
  let cs ← candidates s
  let scored ← cs.mapM (scoreCandidate o cellScore scans)
  let best ← maxElement scored
  some (best.2, ⟨⟨initial.translation.x + best.1.x, initial.translation.y + best.1.y⟩, initial.angle + best.1.orientation⟩)

/-! ### Three dimensions -/

/-- `HybridGridBase::GetCellIndex` (hybrid_grid.h:428-433). -/
noncomputable def cellIndex3 (resolution : ℝ) (p : V3) : Hybrid.I3 := ⟨round (p.x / resolution), round (p.y / resolution), round (p.z / resolution)⟩

/-- `GenerateExhaustiveSearchTransforms` (real_time_correlative_scan_matcher_3d.cc:52-91). -/
noncomputable def transforms (o : Options) (resolution : ℝ) (points : List V3) : List Rigid3 :=
  let linear := round (o.linearWindow / resolution)
  let step := angularStep resolution (maxRange resolution (points.map V3.norm))
  let angular := round (o.angularWindow / step)
  (window linear).flatMap fun (z : Int) => (window linear).flatMap fun (y : Int) => (window linear).flatMap fun (x : Int) =>
    (window angular).flatMap fun (rz : Int) => (window angular).flatMap fun (ry : Int) => (window angular).map fun (rx : Int) =>
      ⟨⟨x * resolution, y * resolution, z * resolution⟩, fromAngleAxis ⟨rx * step, ry * step, rz * step⟩⟩

/-- `GetAngle` (transform.h:33-37). -/
noncomputable def angleOf (q : Quat) : ℝ := 2 * Complex.arg ⟨|q.w|, V3.norm ⟨q.x, q.y, q.z⟩⟩

/-- `ScoreCandidate` (real_time_correlative_scan_matcher_3d.cc:93-112). -/
noncomputable def scoreCandidate3 (o : Options) (g : Hybrid.HG) (points : List V3) (transform : Rigid3) : Option ℝ := do
  let sum ← points.foldlM (fun (sum : ℚ) p => (g.getProbability (cellIndex3 g.resolution p)).map (sum + ·)) 0
  if points.length = 0 then none
  else
    let score := (sum / points.length : ℚ) * penalty o transform.translation.norm (angleOf transform.rotation)
    if 0 < score then some score else none

/-- `RealTimeCorrelativeScanMatcher3D::Match` (real_time_correlative_scan_matcher_3d.cc:29-50): score and pose estimate, which is left
alone if there are no candidates. -/
noncomputable def match3 (o : Options) (g : Hybrid.HG) (initial : Rigid3) (points : List V3) : Option (ℝ × Option Rigid3) :=
  (transforms o g.resolution points).foldlM (fun (best : ℝ × Option Rigid3) t => do
    let candidate := initial.mul t
    let score ← scoreCandidate3 o g (points.map candidate.apply) t
    some (if best.1 < score then (score, some candidate) else best)) (-1, none)

end Verif.RealTime
