import Verif.FastCorrelative2D
import Verif.RealTimeCorrelative
import Verif.Connectivity
import Verif.Sampling

/-!
# Searching for loop closures in two dimensions

Model of `FastCorrelativeScanMatcher2D::{Match, MatchFullSubmap, MatchWithSearchParameters}`
(mapping/internal/2d/scan_matching/fast_correlative_scan_matcher_2d.cc, here fcsm2d.cc), of `MaybeAddConstraint` and `ComputeConstraint` of
mapping/internal/constraints/constraint_builder_2d.cc (here cb2d.cc), and of the choice in `PoseGraph2D::ComputeConstraint`
(mapping/internal/2d/pose_graph_2d.cc 261-310).  Poses and points are real numbers, scores rational ones.  `none` is a failing `CHECK`.  The scan
matcher that refines the pose and `std::sort` are arguments.  Tasks, the order of searches and their results are the subject of
`Verif.ConstraintBuilder`.
-/

namespace Verif.LoopClosure

open Verif.Rigid Verif.Grid2D Verif.RealTime
open Verif.FastCorrelative (CostGrid Bounds matchWith)

/-! ### Matching -/

/-- `FastCorrelativeScanMatcher2D` (fcsm2d.h 109-165): the limits and the costs of the grid, the options and the result of `std::sort`. -/
structure Matcher where
  limits : MapLimits
  grid : CostGrid
  depth : Nat
  linearWindow : ℝ
  angularWindow : ℝ
  sort : List (FastCorrelative.Candidate ℚ) → List (FastCorrelative.Candidate ℚ)

/-- `ToScore` (fcsm2d.h 73-76) of the mean of `n` values with the given sum (fcsm2d.cc 329-330). -/
def toScore (g : CostGrid) (n : Nat) (sum : Int) : ℚ := g.minScore + (sum / n) * ((g.maxScore - g.minScore) / 255)

/-- `MatchWithSearchParameters` (fcsm2d.cc 225-262): score and pose, if there is a match.  For an empty point cloud all scores are not-a-number, no
comparison holds, and there is no match. -/
noncomputable def matchWithParameters (m : Matcher) (s : Search) (initial : Rigid2) (points : List V2) (minScore : ℚ) : Option (Option (ℚ × Rigid2)) :=
  if points.isEmpty then some none else do
  let rotated := points.map (rotate2 initial.angle)
  let scans := discretize m.limits (rotatedScans rotated s) initial.translation
  let bounds : List Bounds := List.replicate s.scans ⟨-s.linear, s.linear, -s.linear, s.linear⟩
  let best ← matchWith m.grid m.depth (toScore m.grid) m.sort scans bounds minScore
  some (best.map fun c =>
    let c' := Candidate.new s c.scan c.x c.y
    (c.score, ⟨⟨initial.translation.x + c'.x, initial.translation.y + c'.y⟩, initial.angle + c'.orientation⟩))

/-- `Match` (fcsm2d.cc 197-207). -/
noncomputable def fastMatch (m : Matcher) (initial : Rigid2) (points : List V2) (minScore : ℚ) : Option (Option (ℚ × Rigid2)) := do
  let s ← search m.linearWindow m.angularWindow points m.limits.resolution
  matchWithParameters m s initial points minScore

/-- The centre of the map (fcsm2d.cc 218-221). -/
noncomputable def center (l : MapLimits) : Rigid2 :=
  ⟨⟨l.maxX - 1 / 2 * l.resolution * l.numY, l.maxY - 1 / 2 * l.resolution * l.numX⟩, 0⟩

/-- `MatchFullSubmap` (fcsm2d.cc 209-223). -/
noncomputable def matchFull (m : Matcher) (points : List V2) (minScore : ℚ) : Option (Option (ℚ × Rigid2)) := do
  let s ← search (1000000 * m.limits.resolution) Real.pi points m.limits.resolution
  matchWithParameters m s (center m.limits) points minScore

/-! ### Constraints -/

/-- `ConstraintBuilderOptions`. -/
structure Options where
  maxDistance : ℝ
  samplingRatio : ℚ
  minScore : ℚ
  globalMinScore : ℚ
  translationWeight : ℝ
  rotationWeight : ℝ

/-- `SubmapId` and `NodeId`. -/
structure Id where
  trajectory : Int
  index : Int
  deriving DecidableEq

/-- `PoseGraphInterface::Constraint`, which is one between submaps (`INTER_SUBMAP`). -/
structure Constraint where
  submap : Id
  node : Id
  pose : Rigid3
  translationWeight : ℝ
  rotationWeight : ℝ

/-- `ComputeConstraint` (cb2d.cc 188-259) without logging and metrics.  `submapPose` is the result of `ComputeSubmapPose`, `refine` is
`CeresScanMatcher2D::Match` with its argument as both initial pose and target. -/
noncomputable def computeConstraint (o : Options) (m : Matcher) (refine : Rigid2 → Rigid2) (submap node : Id) (submapPose : Rigid2) (full : Bool) (points : List V2)
    (initialRelative : Rigid2) : Option (Option Constraint) := do
  let initial := submapPose.mul initialRelative
  let found ← if full then matchFull m points o.globalMinScore else fastMatch m initial points o.minScore
  match found with
  | none => some none
  | some (score, estimate) =>
    guard (score > if full then o.globalMinScore else o.minScore)
    guard (full = true → node.trajectory ≥ 0 ∧ submap.trajectory ≥ 0)
    let pose := submapPose.inverse.mul (refine estimate)
    some (some ⟨submap, node, embed3D pose, o.translationWeight, o.rotationWeight⟩)

/-! ### Which searches are started -/

/-- `per_submap_sampler_` (constraint_builder_2d.h). -/
abbrev Samplers := Id → Option Sampler.State

/-- `MaybeAddConstraint` up to the start of a search (cb2d.cc 77-92): the samplers afterwards and whether a search is started. -/
noncomputable def maybeAdd (o : Options) (s : Samplers) (submap : Id) (relative : Rigid2) : Option (Samplers × Bool) :=
  if norm2 relative.translation > o.maxDistance then some (s, false)
  else do
    let fresh ← Sampler.mk o.samplingRatio
    let r := Sampler.pulse ((s submap).getD fresh)
    some (fun i => if i = submap then some r.1 else s i, r.2)

/-- `DeleteScanMatcher` (cb2d.cc 307-316). -/
def deleteMatcher (s : Samplers) (submap : Id) : Samplers := fun i => if i = submap then none else s i

/-- What `PoseGraph2D::ComputeConstraint` asks for. -/
inductive Kind where
  | nothing
  | local
  | global
  deriving DecidableEq

/-- The choice in `PoseGraph2D::ComputeConstraint` (pose_graph_2d.cc 267-296).  `finished` tells whether the submap has the state `kFinished`, `complete` is
`insertion_finished`, `after` the duration `global_constraint_search_after_n_seconds`, and `sampler` that of the trajectory of the node. -/
def choose (c : Conn.TCS) (after : Int) (sampler : Sampler.State) (finished complete : Bool) (node submap : Id) (nodeTime : Int) : Option (Kind × Sampler.State) :=
  if finished then
    if !complete then some (.nothing, sampler)
    else if node.trajectory = submap.trajectory ∨ nodeTime < c.lastConnectionTime node.trajectory submap.trajectory + after then some (.local, sampler)
    else
      let r := Sampler.pulse sampler
      some (if r.2 then .global else .nothing, r.1)
  else none

/-- `GetLatestNodeTime` (pose_graph_2d.cc 404-416): the time of the node, and that of the last node of the submap if there is one. -/
def latestTime (time : Int) (lastOfSubmap : Option Int) : Int :=
  match lastOfSubmap with
  | some t => max time t
  | none => time

/-- The relative pose that is handed over for a local search (pose_graph_2d.cc 299-303). -/
noncomputable def relativePose (submap node : Rigid2) : Rigid2 := submap.inverse.mul node

end Verif.LoopClosure
