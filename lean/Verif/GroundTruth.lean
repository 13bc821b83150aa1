import Verif.InterpolationBuffer

/-!
# Relations as ground truth, and errors of a trajectory

Model of `cartographer/ground_truth/autogenerate_ground_truth.cc` (abbreviated agt) and `compute_relations_metrics_main.cc` (abbreviated crm).  `double` is
ℝ, transforms in protocol buffers are `Rigid3`, timestamps are ticks.  `none` is a failing `CHECK`, an exception of `at`, or an index that is not one of a
repeated field.
-/

namespace Verif.GroundTruth

open Rigid InterpolationBuffer

/-- A node of `proto::Trajectory`. -/
structure Node where
  time : Int
  pose : Rigid3

/-- `proto::Trajectory`. -/
structure Trajectory where
  nodes : List Node
  submaps : List Rigid3

/-- `proto::PoseGraph::Constraint`. -/
structure Constraint where
  submapTrajectory : Int
  submap : Int
  nodeTrajectory : Int
  node : Int
  relativePose : Rigid3
  intra : Bool

/-- `proto::PoseGraph`. -/
structure PoseGraph where
  trajectories : List Trajectory
  constraints : List Constraint

/-- `proto::Relation`. -/
structure Relation where
  time1 : Int
  time2 : Int
  expected : Rigid3
  covered : ℝ

/-- An element of a vector or a repeated field with an `int` as index. -/
def at? {α : Type} (l : List α) (i : Int) : Option α := if 0 ≤ i then l[i.toNat]? else none

/-- `GetAngle` (transform.h 33-37). -/
noncomputable def getAngle (r : Rigid3) : ℝ := 2 * Complex.arg ⟨|r.rotation.w|, V3.norm ⟨r.rotation.x, r.rotation.y, r.rotation.z⟩⟩

/-- The loop of `ComputeCoveredDistance` (agt 36-42): `last` is the pose before, `back` the last element. -/
noncomputable def coveredLoop (last : Rigid3) (back : ℝ) : List Node → List ℝ
  | [] => []
  | n :: l =>
    let d := back + (last.inverse.mul n.pose).translation.norm
    d :: coveredLoop n.pose d l

/-- `ComputeCoveredDistance` (agt 30-44). -/
noncomputable def coveredDistance (t : Trajectory) : Option (List ℝ) :=
  match t.nodes with
  | [] => none
  | n :: l => some (0 :: coveredLoop n.pose 0 l)

/-- `ComputeSubmapRepresentativeNode` (agt 50-71): the loop, with `submap_to_node_index` as accumulator. -/
def representatives : List Int → List Constraint → Option (List Int)
  | acc, [] => some acc
  | acc, c :: cs =>
    if c.intra then
      if c.submapTrajectory = 0 ∧ c.nodeTrajectory = 0 then
        if c.submap ≤ acc.length then representatives acc cs
        else if c.submap = acc.length + 1 then representatives (acc ++ [c.node]) cs
        else none
      else none
    else representatives acc cs

/-- The body of the loop of `GenerateGroundTruth` (agt 88-143). -/
noncomputable def relation (t : Trajectory) (covered : List ℝ) (reps : List Int) (minCovered meters radians : ℝ) (c : Constraint) : Option (Option Relation) :=
  if c.intra then some none
  else if c.submapTrajectory = 0 ∧ c.nodeTrajectory = 0 then
    if (reps.length : Int) ≤ c.submap then some none
    else do
      let representative ← at? reps c.submap
      let a ← at? covered c.node
      let b ← at? covered representative
      if |a - b| < minCovered then some none
      else do
        let node1 ← at? t.nodes representative
        let node2 ← at? t.nodes c.node
        let submap ← at? t.submaps c.submap
        let solution := node1.pose.inverse.mul node2.pose
        let expected := (node1.pose.inverse.mul submap).mul c.relativePose
        let error := solution.mul expected.inverse
        if error.translation.norm > meters ∨ getAngle error > radians then some none
        else some (some ⟨node1.time, node2.time, expected, |a - b|⟩)
  else none

/-- The loop of `GenerateGroundTruth`. -/
noncomputable def relations (t : Trajectory) (covered : List ℝ) (reps : List Int) (minCovered meters radians : ℝ) : List Constraint → Option (List Relation)
  | [] => some []
  | c :: cs => do
    let r ← relation t covered reps minCovered meters radians c
    let rest ← relations t covered reps minCovered meters radians cs
    some (r.toList ++ rest)

/-- `GenerateGroundTruth` (agt 75-149). -/
noncomputable def generate (g : PoseGraph) (minCovered meters radians : ℝ) : Option (List Relation) := do
  let t ← g.trajectories[0]?
  let covered ← coveredDistance t
  let reps ← representatives [] g.constraints
  relations t covered reps minCovered meters radians g.constraints

/-- `Error` (crm 55-58). -/
structure Error where
  translationalSquared : ℝ
  rotationalSquared : ℝ

/-- `ComputeError` (crm 65-72). -/
noncomputable def computeError (pose1 pose2 expected : Rigid3) : Error :=
  let error := (pose1.inverse.mul pose2).mul expected.inverse
  ⟨error.translation.x * error.translation.x + error.translation.y * error.translation.y + error.translation.z * error.translation.z, getAngle error ^ 2⟩

/-- The numbers of `MeanAndStdDevString` (crm 74-88). -/
noncomputable def meanAndStdDev (values : List ℝ) : Option (ℝ × ℝ) :=
  if 2 ≤ values.length then
    let mean : ℝ := values.foldl (fun s v => s + v) (0 : ℝ) / values.length
    let sumOfSquaredDifferences : ℝ := values.foldl (fun s v => s + (v - mean) ^ 2) (0 : ℝ)
    some (mean, √(sumOfSquaredDifferences / (values.length - 1)))
  else none

/-- `RadToDeg` (common/math.h 58). -/
noncomputable def radToDeg (rad : ℝ) : ℝ := 180 * rad / Real.pi

/-- The numbers of `StatisticsString` (crm 90-118). -/
noncomputable def statistics (errors : List Error) : Option ((ℝ × ℝ) × (ℝ × ℝ) × (ℝ × ℝ) × (ℝ × ℝ)) := do
  let a ← meanAndStdDev (errors.map fun e => √e.translationalSquared)
  let b ← meanAndStdDev (errors.map fun e => e.translationalSquared)
  let c ← meanAndStdDev (errors.map fun e => radToDeg √e.rotationalSquared)
  let d ← meanAndStdDev (errors.map fun e => radToDeg √e.rotationalSquared ^ 2)
  some (a, b, c, d)

/-- `TransformInterpolationBuffer` of a trajectory (transform_interpolation_buffer.cc 29-35).  The buffer has no limit on its size
(transform_interpolation_buffer.h 80); `limit` is the number of nodes here. -/
def bufferOf (t : Trajectory) : Option Buffer :=
  t.nodes.foldlM (fun b n => push b n.time n.pose) { limit := t.nodes.length }

/-- `LookupTransform` (crm 156-169).  `earliest_time` of an empty buffer is a failing `CHECK`. -/
noncomputable def lookupTransform (eps : ℝ) (b : Buffer) (time : Int) : Option Rigid3 := do
  let first ← b.items.head?
  let last ← b.items.getLast?
  if has b time then lookup eps b time
  else if time < first.time then lookup eps b first.time
  else lookup eps b last.time

/-- The errors computed by `Run` (crm 193-204). -/
noncomputable def errors (eps : ℝ) (b : Buffer) : List Relation → Option (List Error)
  | [] => some []
  | r :: rs => do
    let pose1 ← lookupTransform eps b r.time1
    let pose2 ← lookupTransform eps b r.time2
    let rest ← errors eps b rs
    some (computeError pose1 pose2 r.expected :: rest)

/-- `Run` (crm 171-213) after reading the files: errors and statistics. -/
noncomputable def run (eps : ℝ) (g : PoseGraph) (truth : List Relation) : Option (List Error × ((ℝ × ℝ) × (ℝ × ℝ) × (ℝ × ℝ) × (ℝ × ℝ))) := do
  let t ← g.trajectories[0]?
  let b ← bufferOf t
  let es ← errors eps b truth
  let s ← statistics es
  some (es, s)

end Verif.GroundTruth
