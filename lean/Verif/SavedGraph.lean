import Verif.Rigid
import Verif.ImuIntegration
import Verif.SortedMap

/-!
# Saving and loading a 2D pose graph

Model of how /repo/cartographer/mapping/internal/2d/pose_graph_2d.cc (abbreviated pg) converts between its poses in the plane
and the poses in space that are shown and saved: the gravity alignment of a node is multiplied when a pose leaves the
optimization and divided out when it comes back.

The identifiers of nodes and submaps are `N` and `S`, linearly ordered as in `MapById`. Real arithmetic. All work items that
were added are done, so that every node is in the optimization problem, and an operation is one step. The nodes of a submap
(`node_ids`) are not kept apart: they are those with an INTRA_SUBMAP constraint. The contents of nodes and submaps that are not
poses (point clouds, grids) are not modelled; that they and the poses survive the format of the file is C29 and C85. Identifiers
are not changed by loading, as is the case for a file with all its trajectories loaded into an empty map builder.
-/

namespace Verif.SavedGraph

open Verif.Rigid

variable {N S : Type} [LinearOrder N] [LinearOrder S]

/-- `Rigid3::Rotation` (rigid_transform.h:150). -/
def rotation (q : Quat) : Rigid3 := ⟨⟨0, 0, 0⟩, q⟩

/-- `TrajectoryNode::Data` (trajectory_node.h:35-54). -/
structure NodeData where
  time : Int
  gravity : Quat
  localPose : Rigid3

/-- `TrajectoryNode` (trajectory_node.h:57-65). -/
structure Node where
  data : NodeData
  globalPose : Rigid3

/-- `NodeSpec2D` (optimization_problem_2d.h:42-47). -/
structure Spec where
  time : Int
  localPose : Rigid2
  globalPose : Rigid2
  gravity : Quat

/-- `Constraint` (pose_graph_interface.h:36-52). -/
structure Constraint (N S : Type) where
  submap : S
  node : N
  zbar : Rigid3
  translationWeight : ℝ
  rotationWeight : ℝ
  intra : Bool

/-- The part of `PoseGraphData` and `OptimizationProblem2D` that consists of poses. -/
structure Graph (N S : Type) where
  nodes : List (N × Node)
  specs : List (N × Spec)
  /-- `local_pose()` of the submaps. -/
  locals : List (S × Rigid3)
  /-- `submap_data` of the optimization problem. -/
  poses : List (S × Rigid2)
  /-- `global_submap_poses_2d`. -/
  shown : List (S × Rigid2)
  constraints : List (Constraint N S)

def Graph.empty : Graph N S := ⟨[], [], [], [], [], []⟩

/-- pg:327-330, pg:750-757. -/
noncomputable def flatten (gravity : Quat) (pose : Rigid3) : Rigid2 := project2D (pose.mul (rotation (Imu.inverseQuat gravity)))

/-! ### Working with the graph -/

/-- A submap that is used for the first time (pg:95-145, `AppendNode` and `InitializeGlobalSubmapPoses`): its place is computed
from other submaps, which is not modelled here. -/
def addSubmap (g : Graph N S) (s : S) (localPose : Rigid3) (pose : Rigid2) : Option (Graph N S) :=
  match SMap.get? s g.locals with
  | some _ => none
  | none => some { g with locals := SMap.put s localPose g.locals, poses := SMap.put s pose g.poses }

/-- The constraint between a node and a submap it was inserted into (pg:347-357); `ComputeSubmapPose` is `Project2D` of the local
pose (constraint_builder_2d.cc:47). -/
noncomputable def intraConstraint (g : Graph N S) (n : N) (pose : Rigid2) (weights : ℝ × ℝ) (s : S) : Option (Constraint N S) :=
  (SMap.get? s g.locals).map fun l => ⟨s, n, embed3D ((project2D l).inverse.mul pose), weights.1, weights.2, true⟩

/-- All or nothing. -/
def allOf {V W : Type} (f : V → Option W) : List V → Option (List W)
  | [] => some []
  | v :: l => do
    let w ← f v
    let ws ← allOf f l
    some (w :: ws)

/-- `AddNode` and `ComputeConstraintsForNode` (pg:147-180, 312-357); `shownAt` is the pose shown before the next optimization and
`front` and the others the submaps the node was inserted into. -/
noncomputable def addNode (g : Graph N S) (n : N) (data : NodeData) (shownAt : Rigid3) (front : S) (others : List S) (weights : ℝ × ℝ) :
    Option (Graph N S) := do
  let pose := flatten data.gravity data.localPose
  let l ← SMap.get? front g.locals
  let p ← SMap.get? front g.poses
  let cs ← allOf (intraConstraint g n pose weights) (front :: others)
  match SMap.get? n g.nodes with
  | some _ => none
  | none => some { g with
      nodes := SMap.put n ⟨data, shownAt⟩ g.nodes
      specs := SMap.put n ⟨data.time, pose, (p.mul (project2D l).inverse).mul pose, data.gravity⟩ g.specs
      constraints := g.constraints ++ cs }

/-- A loop closure (constraint_builder_2d.cc:272-278, pg:466-471): the constraint is in the plane. -/
noncomputable def addLoopClosure (g : Graph N S) (n : N) (s : S) (pose : Rigid2) (weights : ℝ × ℝ) : Option (Graph N S) := do
  let _ ← SMap.get? n g.nodes
  let _ ← SMap.get? s g.locals
  some { g with constraints := g.constraints ++ [⟨s, n, embed3D pose, weights.1, weights.2, false⟩] }

/-- pg:880-882. -/
noncomputable def place (solution : N → Rigid2) (e : N × Node) : N × Node :=
  (e.1, ⟨e.2.data, (embed3D (solution e.1)).mul (rotation e.2.data.gravity)⟩)

/-- `RunOptimization` (pg:861-907) with the solution of `Solve`. -/
noncomputable def optimize (g : Graph N S) (nodes : N → Rigid2) (submaps : S → Rigid2) : Graph N S :=
  { g with
    nodes := g.nodes.map (place nodes)
    specs := g.specs.map fun e => (e.1, { e.2 with globalPose := nodes e.1 })
    poses := g.poses.map fun e => (e.1, submaps e.1)
    shown := g.poses.map fun e => (e.1, submaps e.1) }

/-- `TrimSubmap` (pg:1206-1299) and the deletion of trajectories: nodes and submaps with all their constraints. -/
def trim (g : Graph N S) (nodes : List N) (submaps : List S) : Graph N S where
  nodes := g.nodes.filter fun e => decide (e.1 ∉ nodes)
  specs := g.specs.filter fun e => decide (e.1 ∉ nodes)
  locals := g.locals.filter fun e => decide (e.1 ∉ submaps)
  poses := g.poses.filter fun e => decide (e.1 ∉ submaps)
  shown := g.shown.filter fun e => decide (e.1 ∉ submaps)
  constraints := g.constraints.filter fun c => decide (c.node ∉ nodes ∧ c.submap ∉ submaps)

/-! ### Saving -/

/-- What is saved: the data of nodes with their global pose, the local and global pose of submaps, and the constraints. -/
structure File (N S : Type) where
  nodes : List (N × NodeData × Rigid3)
  submaps : List (S × Rigid3 × Rigid3)
  constraints : List (Constraint N S)

/-- One constraint of `constraints` (pg:1029-1036); `none` if the node is not there. -/
noncomputable def exportConstraint (g : Graph N S) (c : Constraint N S) : Option (Constraint N S) :=
  (SMap.get? c.node g.nodes).map fun n => { c with zbar := c.zbar.mul (rotation n.data.gravity) }

/-- The global pose of a submap (`GetSubmapDataUnderLock`, pg:1302-1312); `extrapolated` is the pose of a submap that is not in
`global_submap_poses_2d`. -/
noncomputable def exportSubmap (g : Graph N S) (extrapolated : S → Rigid3) (e : S × Rigid3) : S × Rigid3 × Rigid3 :=
  match SMap.get? e.1 g.shown with
  | some p => (e.1, e.2, embed3D p)
  | none => (e.1, e.2, extrapolated e.1)

/-- `ToProto` (pose_graph.cc:135-205) and the nodes and submaps (mapping_state_serialization.cc:76-116). -/
noncomputable def save (g : Graph N S) (extrapolated : S → Rigid3) : Option (File N S) := do
  let constraints ← allOf (exportConstraint g) g.constraints
  some ⟨g.nodes.map fun e => (e.1, e.2.data, e.2.globalPose), g.locals.map (exportSubmap g extrapolated), constraints⟩

/-! ### Loading -/

/-- `AddSubmapFromProto` (pg:688-727); `Insert` checks that the submap is new (id.h:286-292). -/
noncomputable def loadSubmap (g : Graph N S) (e : S × Rigid3 × Rigid3) : Option (Graph N S) :=
  match SMap.get? e.1 g.locals with
  | some _ => none
  | none => some { g with
      locals := SMap.put e.1 e.2.1 g.locals
      poses := SMap.put e.1 (project2D e.2.2) g.poses
      shown := SMap.put e.1 (project2D e.2.2) g.shown }

/-- `AddNodeFromProto` (pg:729-762). -/
noncomputable def loadNode (g : Graph N S) (e : N × NodeData × Rigid3) : Option (Graph N S) :=
  match SMap.get? e.1 g.nodes with
  | some _ => none
  | none => some { g with
      nodes := SMap.put e.1 ⟨e.2.1, e.2.2⟩ g.nodes
      specs := SMap.put e.1 ⟨e.2.1.time, flatten e.2.1.gravity e.2.1.localPose, flatten e.2.1.gravity e.2.2, e.2.1.gravity⟩ g.specs }

/-- The node is in `node_ids` of the submap. -/
def isMember (g : Graph N S) (c : Constraint N S) : Bool :=
  g.constraints.any fun d => d.intra && decide (d.submap = c.submap) && decide (d.node = c.node)

/-- One constraint of `AddSerializedConstraints` (pg:801-828); node and submap must be there and an INTRA_SUBMAP constraint must be
the first one of the pair. -/
noncomputable def loadConstraint (g : Graph N S) (c : Constraint N S) : Option (Graph N S) := do
  let n ← SMap.get? c.node g.nodes
  let _ ← SMap.get? c.submap g.locals
  if c.intra && isMember g c then none
  else some { g with constraints := g.constraints ++ [{ c with zbar := c.zbar.mul (rotation (Imu.inverseQuat n.data.gravity)) }] }

/-- One after the other. -/
def each {V W : Type} (f : W → V → Option W) : W → List V → Option W
  | w, [] => some w
  | w, v :: l => (f w v).bind fun w' => each f w' l

/-- `LoadState` (map_builder.cc:213-384) into an empty graph: submaps, nodes, constraints. -/
noncomputable def load (f : File N S) : Option (Graph N S) := do
  let g ← each loadSubmap Graph.empty f.submaps
  let g ← each loadNode g f.nodes
  each loadConstraint g f.constraints

end Verif.SavedGraph
