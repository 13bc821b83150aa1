import Verif.FastCorrelative3D
import Verif.RotationalScanMatcher
import Verif.LoopClosure

/-!
# Searching for loop closures in three dimensions

Model of `FastCorrelativeScanMatcher3D::{Match, MatchFullSubmap, MatchWithSearchParameters, GenerateDiscreteScans, DiscretizeScan, GetPoseFromCandidate}`
(mapping/internal/3d/scan_matching/fast_correlative_scan_matcher_3d.cc, here fcsm3d.cc), of low_resolution_matcher.cc, and of `MaybeAddConstraint` and
`ComputeConstraint` of mapping/internal/constraints/constraint_builder_3d.cc (here cb3d.cc).  The search itself is that of `Verif.Fast3D`.  Poses and points are
real numbers, scores rational ones with `⊥` for `-infinity`.  `none` is a failing `CHECK`.  The scan matcher that refines the pose and `std::sort` are arguments.
-/

namespace Verif.Match3D

open Verif.Rigid Verif.Hybrid Verif.Fast3D
open Verif.RealTime (cellIndex3 maxRange window)
open Verif.LoopClosure (Id Constraint Samplers)

/-- `Quaternion::inverse` of Eigen. -/
noncomputable def inverse (q : Quat) : Quat :=
  if 0 < q.normSq then ⟨q.w / q.normSq, -q.x / q.normSq, -q.y / q.normSq, -q.z / q.normSq⟩ else ⟨0, 0, 0, 0⟩

/-- `FastCorrelativeScanMatcher3D` (fcsm3d.h 66-156): the grids, the histogram of the submap, the precomputed grids, the options and the result of `std::sort`. -/
structure Matcher where
  grid : HG
  low : HG
  histogram : List ℝ
  stack : List Grid8
  depth : Nat
  f : Nat
  minRotational : ℝ
  minLow : ℚ
  linearXY : ℝ
  linearZ : ℝ
  angular : ℝ
  sort : List (Candidate (WithBot ℚ)) → List (Candidate (WithBot ℚ))

/-- `TrajectoryNode::Data`. -/
structure Node where
  gravity : Quat
  high : List V3
  low : List V3
  histogram : List ℝ

/-- `FastCorrelativeScanMatcher3D::Result` (fcsm3d.h 68-73). -/
structure Result where
  score : WithBot ℚ
  pose : Rigid3
  rotational : ℝ
  low : WithBot ℚ

/-- `DiscreteScan3D` (fcsm3d.cc 79-84) with the cells of full resolution only; those for the other depths are made in `Verif.Fast3D`. -/
structure Scan where
  pose : Rigid3
  cells : List I3
  rotational : ℝ

/-- The angular step (fcsm3d.cc 254-264). -/
noncomputable def angularStep (resolution : ℝ) (points : List V3) : ℝ :=
  (1 - 1 / 100) * Real.arccos (1 - resolution ^ 2 / (2 * maxRange resolution (points.map V3.norm) ^ 2))

/-- The angles (fcsm3d.cc 265-270). -/
noncomputable def angles (resolution : ℝ) (points : List V3) (angularWindow : ℝ) : List ℝ :=
  (window (RealTime.round (angularWindow / angularStep resolution points))).map fun (rz : Int) => rz * angularStep resolution points

/-- The pose for an angle (fcsm3d.cc 271-272, 282-290). -/
noncomputable def poseOf (node submap : Rigid3) (angle : ℝ) : Rigid3 :=
  ⟨(submap.inverse.mul node).translation, ((inverse submap.rotation).mul (fromAngleAxis ⟨0, 0, angle⟩)).mul node.rotation⟩

/-- The yaw that is handed to the rotational scan matcher (fcsm3d.cc 275-276). -/
noncomputable def yaw (node submap : Rigid3) (gravity : Quat) : ℝ := getYaw ((submap.inverse.mul node).rotation.mul (inverse gravity))

/-- `full_resolution_cell_indices` of `DiscretizeScan` (fcsm3d.cc 207-212). -/
noncomputable def cells (resolution : ℝ) (pose : Rigid3) (points : List V3) : List I3 := points.map fun p => cellIndex3 resolution (pose.apply p)

/-- `GenerateDiscreteScans` (fcsm3d.cc 246-295). -/
noncomputable def discreteScans (m : Matcher) (data : Node) (node submap : Rigid3) (angularWindow : ℝ) : Option (List Scan) := do
  let as := angles m.grid.resolution data.high angularWindow
  let scores ← Rotational.match m.histogram data.histogram (yaw node submap data.gravity) as
  some ((as.zip scores).filterMap fun c => open Classical in
    if c.2 < m.minRotational then none
    else some ⟨poseOf node submap c.1, cells m.grid.resolution (poseOf node submap c.1) data.high, c.2⟩)

/-- `GetPoseFromCandidate` (fcsm3d.cc 369-375). -/
noncomputable def poseFromCandidate (resolution : ℝ) (pose : Rigid3) (offset : I3) : Rigid3 :=
  Rigid3.mul ⟨⟨resolution * offset.x, resolution * offset.y, resolution * offset.z⟩, ⟨1, 0, 0, 0⟩⟩ pose

/-- `PrecomputationGrid3D::ToProbability` (precomputation_grid_3d.h 32-35) of the mean of `n` values with the given sum. -/
def toProbability (n : Nat) (sum : Int) : ℚ := Prob.minProbability + sum / n * ((Prob.maxProbability - Prob.minProbability) / 255)

/-- The function that `CreateLowResolutionMatcher` returns (low_resolution_matcher.cc 25-35).  Without points its result is not-a-number, which passes no
comparison, here `⊥`. -/
noncomputable def lowResolution (g : HG) (points : List V3) (pose : Rigid3) : Option (WithBot ℚ) := do
  let sum ← points.foldlM (fun (sum : ℚ) p => (g.getProbability (cellIndex3 g.resolution (pose.apply p))).map (sum + ·)) 0
  some (if points.isEmpty then ⊥ else ((sum / points.length : ℚ) : WithBot ℚ))

/-- What the search of `Verif.Fast3D` works with. -/
noncomputable def setting (m : Matcher) (wxy wz : Int) (data : Node) (scans : List Scan) : Setting (WithBot ℚ) :=
  ⟨m.stack, m.depth, m.f, wxy, wz, scans.map Scan.cells, fun n sum => (toProbability n sum : WithBot ℚ),
    fun k o => match scans[k]? with
      | some s => (lowResolution m.low data.low (poseFromCandidate m.grid.resolution s.pose o)).getD ⊥
      | none => ⊥,
    (m.minLow : WithBot ℚ), ((0 : ℚ) : WithBot ℚ), m.sort⟩

/-- `MatchWithSearchParameters` (fcsm3d.cc 172-198).  Without points all scores are not-a-number: they are not above the minimum, whatever candidate is chosen. -/
noncomputable def matchWith (m : Matcher) (wxy wz : Int) (angularWindow : ℝ) (node submap : Rigid3) (data : Node) (minScore : ℚ) : Option (Option Result) := do
  let scans ← discreteScans m data node submap angularWindow
  if data.high.isEmpty then some none else
  let best ← search (setting m wxy wz data scans) (minScore : WithBot ℚ)
  match best with
  | none => some none
  | some c => do
    let s ← scans[c.scan]?
    some (some ⟨c.score, poseFromCandidate m.grid.resolution s.pose c.offset, s.rotational, c.low⟩)

/-- `Match` (fcsm3d.cc 127-144). -/
noncomputable def fastMatch (m : Matcher) (node submap : Rigid3) (data : Node) (minScore : ℚ) : Option (Option Result) :=
  matchWith m (RealTime.round (m.linearXY / m.grid.resolution)) (RealTime.round (m.linearZ / m.grid.resolution)) m.angular node submap data minScore

/-- `linear_window_size` (fcsm3d.cc 151-158). -/
noncomputable def fullWindow (m : Matcher) (points : List V3) : Int :=
  ((m.grid.grid.gridSize + 1) / 2 : Nat) + RealTime.round ((points.map V3.norm).foldl (fun m r => max m r) 0 / m.grid.resolution + 1 / 2)

/-- `MatchFullSubmap` (fcsm3d.cc 146-170). -/
noncomputable def matchFull (m : Matcher) (node submap : Quat) (data : Node) (minScore : ℚ) : Option (Option Result) :=
  matchWith m (fullWindow m data.high) (fullWindow m data.high) Real.pi ⟨⟨0, 0, 0⟩, node⟩ ⟨⟨0, 0, 0⟩, submap⟩ data minScore

/-! ### Constraints -/

/-- `ComputeConstraint` (cb3d.cc 200-271) without logging and metrics.  `refine` is `CeresScanMatcher3D::Match` with its argument as both initial pose and
target. -/
noncomputable def computeConstraint (o : LoopClosure.Options) (m : Matcher) (refine : Rigid3 → Rigid3) (submap node : Id) (full : Bool) (data : Node)
    (nodePose submapPose : Rigid3) : Option (Option Constraint) := do
  let found ← if full then matchFull m nodePose.rotation submapPose.rotation data o.globalMinScore else fastMatch m nodePose submapPose data o.minScore
  match found with
  | none => some none
  | some r =>
    guard (r.score > ((if full then o.globalMinScore else o.minScore : ℚ) : WithBot ℚ))
    guard (full = true → node.trajectory ≥ 0 ∧ submap.trajectory ≥ 0)
    some (some ⟨submap, node, refine r.pose, o.translationWeight, o.rotationWeight⟩)

/-- `MaybeAddConstraint` up to the start of a search (cb3d.cc 79-95): the samplers afterwards and whether a search is started. -/
noncomputable def maybeAdd (o : LoopClosure.Options) (s : Samplers) (submap : Id) (nodePose submapPose : Rigid3) : Option (Samplers × Bool) :=
  if V3.norm ⟨nodePose.translation.x - submapPose.translation.x, nodePose.translation.y - submapPose.translation.y,
      nodePose.translation.z - submapPose.translation.z⟩ > o.maxDistance then some (s, false)
  else do
    let fresh ← Sampler.mk o.samplingRatio
    let r := Sampler.pulse ((s submap).getD fresh)
    some (fun i => if i = submap then some r.1 else s i, r.2)

end Verif.Match3D
