import Verif.ActiveSubmaps
import Verif.SortedMap
import Verif.RotationalScanMatcher
import Verif.Match3D

/-!
# Histograms of 3D submaps and the migration of saved states

Model of the histograms in `cartographer/mapping/3d/submap_3d.cc` (lines 197-351, abbreviated sm3), of
`cartographer/io/serialization_format_migration.cc` (abbreviated sfm) and of what it uses of
`mapping/internal/3d/pose_graph_3d.cc` (pg3) and `io/internal/mapping_state_serialization.cc` (mss).

Numbers are exact reals (floats and doubles in the code); quaternions, poses and rotated histograms are those of `Verif.Rigid`,
`Verif.Match3D` and `Verif.RotationalScanMatcher`.
-/

namespace Verif.Migration

open Verif.Rigid Verif.Rotational

/-! ### Histograms of submaps while mapping -/

/-- `TrajectoryNode::Data` as far as it is used here, and the origin of the range data in the local frame
(local_trajectory_builder_3d.cc:399-424). -/
structure Node where
  localPose : Rigid3
  gravity : Quat
  histogram : List ℝ
  origin : V3

/-- `proto::Submap` with `submap_3d` set if `is3d` (grids are left out), also used for `Submap3D`. -/
@[ext] structure Sub where
  pose : Rigid3
  is3d : Bool
  finished : Bool
  histogram : List ℝ

/-- `local_from_gravity_aligned` (local_trajectory_builder_3d.cc:406-407). -/
noncomputable def localFromGravity (r : Node) : Quat := r.localPose.rotation.mul (Match3D.inverse r.gravity)

/-- Sum of two `Eigen::VectorXf`; different sizes are an assertion of Eigen. -/
noncomputable def add (a b : List ℝ) : Option (List ℝ) := if a.length = b.length then some (List.zipWith (· + ·) a b) else none

/-- `ActiveSubmaps3D::AddSubmap` with the arguments of `InsertData` (sm3 316-318, 346-350): pose and histogram of the new submap. -/
noncomputable def newSub (r : Node) : Sub := ⟨⟨r.origin, localFromGravity r⟩, true, false, List.replicate r.histogram.length 0⟩

/-- `Submap3D::InsertData` (sm3 289-293); that it is not called on a finished submap is the subject of `Verif.ActiveSubmaps`. -/
noncomputable def insertData (s : Sub) (r : Node) : Option Sub := do
  let rotated ← rotateHistogram r.histogram (getYaw (s.pose.inverse.rotation.mul (localFromGravity r)))
  let h ← add s.histogram rotated
  some { s with histogram := h }

/-- A submap into which the range data of a list of nodes has been inserted; the first one created it. -/
noncomputable def build : List Node → Option Sub
  | [] => none
  | r :: rs => (r :: rs).foldlM insertData (newSub r)

/-- The submaps of a trajectory whose nodes are `rs`, oldest first: `ActiveSubmaps3D` (sm3 310-351) distributes the nodes and the contents
of the submaps follow. -/
noncomputable def mapping (n : Nat) (rs : List Node) : Option (List Sub) := do
  let st ← ActiveSubmaps.insertAll n ActiveSubmaps.init rs
  (st.erased ++ st.submaps).mapM fun s => (build s.data).map fun b => { b with finished := s.finished }

/-- `PoseGraph::Constraint` (pose_graph_interface.h 40-60) without the measurement. -/
structure Constraint (I J : Type) where
  intra : Bool
  submap : I
  node : J

/-- The constraints within submaps of a trajectory: one for each node and each of its insertion submaps
(pg3 330-343; `PoseGraph3D::AddNode` is called with the result of `InsertData`, sm3 329). -/
def intraOf (n : Nat) (rs : List Node) : List (Constraint Nat Nat) :=
  (List.range rs.length).flatMap fun k =>
    match ActiveSubmaps.insertAll n ActiveSubmaps.init (rs.take (k + 1)) with
    | some st => (List.range st.submaps.length).map fun j => ⟨true, st.erased.length + j, k⟩
    | none => []

/-! ### Migration of submaps -/

variable {I J : Type} [LinearOrder I] [LinearOrder J]

/-- sfm 257-271: the first histogram is copied, further ones are added, `Mutable(i)` past the end is an error. -/
noncomputable def accumulate (h r : List ℝ) : Option (List ℝ) :=
  if h.length = 0 then some r
  else if r.length ≤ h.length then some (List.zipWith (· + ·) h r ++ h.drop r.length)
  else none

/-- One constraint (sfm 229-272). -/
noncomputable def migrateOne (nodes : List (J × Node)) (subs : List (I × Sub)) (c : Constraint I J) : Option (List (I × Sub)) :=
  if c.intra then do
    let node ← SMap.get? c.node nodes
    let s ← SMap.get? c.submap subs
    guard s.is3d
    let rotated ← rotateHistogram node.histogram
      (getYaw ((s.pose.inverse.rotation.mul node.localPose.rotation).mul (Match3D.inverse node.gravity)))
    let h ← accumulate s.histogram rotated
    some (SMap.put c.submap { s with histogram := h } subs)
  else some subs

/-- `MigrateSubmapFormatVersion1ToVersion2` (sfm 214-275). -/
noncomputable def migrate (nodes : List (J × Node)) (subs : List (I × Sub)) (cs : List (Constraint I J)) : Option (List (I × Sub)) :=
  match subs with
  | [] => some []
  | (_, first) :: _ => if first.is3d then cs.foldlM (migrateOne nodes) subs else some subs

/-! ### Migration of streams -/

/-- The kinds of data which the pose graph adds by work items (pg3 180-240, 741-761). -/
inductive Kind
  | trajectoryData
  | imu
  | odometry
  | fixedFrame
  | landmark
  deriving DecidableEq

/-- A record after the pose graph and the options (`SerializedData`); `D` is the contents. -/
inductive Rec (I J D : Type)
  | submap (id : I) (s : Sub)
  | node (id : J) (n : Node)
  | data (kind : Kind) (d : D)
  | poseGraph
  | options
  | unknown

/-- A stream as read by `ProtoStreamDeserializer` (C29): format version, trajectory ids, number of options, ids with poses, landmark
poses and constraints of the pose graph, and the records. -/
structure Input (I J D : Type) where
  version : Nat
  trajectories : List Int
  numOptions : Nat
  submapPoses : List I
  nodePoses : List J
  landmarkPoses : List D
  constraints : List (Constraint I J)
  records : List (Rec I J D)

/-- Work items of the pose graph (`AddWorkItem`); `touch` only changes the optimization problem (pg3 706-711, 729-738). -/
inductive Item (I J D : Type)
  | landmarkPose (d : D)
  | touch
  | data (kind : Kind) (d : D)
  | constraints (cs : List (Constraint I J))

/-- The pose graph: submaps and nodes are inserted at once (pg3 687-696, 721-727), the rest by work items, of which `done` have been run
and `queue` have not. -/
structure Graph (I J D : Type) where
  submaps : List (I × Sub)
  nodes : List (J × Node)
  done : List (Item I J D)
  queue : List (Item I J D)

/-- `MapById::Insert` as used here: the id must be new. -/
def insertNew {K V : Type} [LinearOrder K] (k : K) (v : V) (l : List (K × V)) : Option (List (K × V)) :=
  if (SMap.get? k l).isSome then none else some (SMap.put k v l)

/-- sfm 78-84: options exist for each trajectory and the ids are 0, 1, …. -/
def idsOk (numOptions : Nat) : Nat → List Int → Bool
  | _, [] => true
  | i, t :: ts => decide (i < numOptions) && decide (t = i) && idsOk numOptions (i + 1) ts

/-- Reading the records (sfm 123-191): the submaps of the stream and the pose graph. -/
def read (i : Input I J D) : List (Rec I J D) → List (I × Sub) → Graph I J D → Option (List (I × Sub) × Graph I J D)
  | [], subs, g => some (subs, g)
  | .submap id s :: rs, subs, g => do
      guard s.is3d
      let subs ← insertNew id s subs
      read i rs subs g
  | .node id n :: rs, subs, g => do
      guard (id ∈ i.nodePoses)
      let nodes ← insertNew id n g.nodes
      read i rs subs { g with nodes := nodes, queue := g.queue ++ [.touch] }
  | .data k d :: rs, subs, g => read i rs subs { g with queue := g.queue ++ [.data k d] }
  | .unknown :: rs, subs, g => read i rs subs g
  | .poseGraph :: _, _, _ => none
  | .options :: _, _, _ => none

/-- sfm 201-204 with pg3 676-712. -/
def addSubmaps (i : Input I J D) : List (I × Sub) → Graph I J D → Option (Graph I J D)
  | [], g => some g
  | (id, s) :: l, g => do
      guard (id ∈ i.submapPoses)
      let subs ← insertNew id s g.submaps
      addSubmaps i l { g with submaps := subs, queue := g.queue ++ [.touch] }

/-- sfm 195-199: `kFormatVersionWithoutSubmapHistograms` is 1 (mapping_state_serialization.h:29). -/
noncomputable def migrateIf (version : Nat) (nodes : List (J × Node)) (subs : List (I × Sub)) (cs : List (Constraint I J)) :
    Option (List (I × Sub)) :=
  if version = 1 then migrate nodes subs cs else some subs

/-- sfm 68-208: everything before the new stream is written.  The workers have not run any item in this state; they may have, which is part
of the executions of `write`. -/
noncomputable def fill (i : Input I J D) : Option (Graph I J D) := do
  guard (idsOk i.numOptions 0 i.trajectories)
  let (subs, g) ← read i i.records [] ⟨[], [], [], i.landmarkPoses.map .landmarkPose⟩
  let subs ← migrateIf i.version g.nodes subs i.constraints
  let g ← addSubmaps i subs g
  some { g with queue := g.queue ++ [.constraints i.constraints] }

/-- The check of `AddSerializedConstraints` for one constraint (pg3 779-792): node and submap exist, and no node is twice in a submap. -/
def constraintsOk (nodes : List (J × Node)) (subs : List (I × Sub)) : List (I × J) → List (Constraint I J) → Bool
  | _, [] => true
  | seen, c :: cs =>
      (SMap.get? c.node nodes).isSome && (SMap.get? c.submap subs).isSome &&
        (if c.intra then !decide ((c.submap, c.node) ∈ seen) && constraintsOk nodes subs ((c.submap, c.node) :: seen) cs
         else constraintsOk nodes subs seen cs)

/-- A worker runs the next work item. -/
def work (g : Graph I J D) : Option (Graph I J D) :=
  match g.queue with
  | [] => some g
  | .constraints cs :: q =>
      if constraintsOk g.nodes g.submaps [] cs then some { g with done := g.done ++ [.constraints cs], queue := q } else none
  | item :: q => some { g with done := g.done ++ [item], queue := q }

/-- A worker runs `k` items, or all if there are fewer. -/
def workN : Nat → Graph I J D → Option (Graph I J D)
  | 0, g => some g
  | k + 1, g => (work g).bind (workN k)

/-- `constraints()` (pg3 1021-1024). -/
def constraintsIn (done : List (Item I J D)) : List (Constraint I J) := done.flatMap fun | .constraints cs => cs | _ => []
/-- Landmarks with a pose (`GetLandmarkNodes`). -/
def landmarkPosesIn (done : List (Item I J D)) : List D := done.filterMap fun | .landmarkPose d => some d | _ => none
/-- `GetTrajectoryData`, `GetImuData`, `GetOdometryData`, `GetFixedFramePoseData`, `GetLandmarkNodes` (pg3 993-1019).  Simplification: in the
order of insertion; the order of the containers is the subject of C11 and C29. -/
def dataIn (kind : Kind) (done : List (Item I J D)) : List D :=
  done.filterMap fun | .data k d => if k = kind then some d else none | _ => none

/-- The stream that is written (`WritePbStream`, mss 214-234; header, options and the poses of nodes and submaps are left out). -/
structure Output (I J D : Type) where
  version : Nat
  constraints : List (Constraint I J)
  landmarkPoses : List D
  submaps : List (I × Sub)
  nodes : List (J × Node)
  data : Kind → List D

/-- The submaps which are written (mss 82-101, pose_graph.cc:149-164). -/
def kept (unfinished : Bool) (g : Graph I J D) : List (I × Sub) := g.submaps.filter fun e => unfinished || e.2.finished

/-- The constraints which are written (pose_graph.cc:166-180). -/
def keptConstraints (unfinished : Bool) (g : Graph I J D) (cs : List (Constraint I J)) : List (Constraint I J) :=
  cs.filter fun c => !(!unfinished && decide (∃ e ∈ g.submaps, e.1 = c.submap ∧ e.2.finished = false))

/-- How many items the workers run before each of the reads of `WritePbStream`. -/
structure Schedule where
  first : Nat
  landmarkPoses : Nat
  trajectoryData : Nat
  imu : Nat
  odometry : Nat
  fixedFrame : Nat
  landmark : Nat

/-- `WritePbStream` while the workers drain the queue: each getter locks the mutex for itself. -/
def write (unfinished : Bool) (s : Schedule) (g : Graph I J D) : Option (Output I J D) := do
  let g0 ← workN s.first g
  let g1 ← workN s.landmarkPoses g0
  let g2 ← workN s.trajectoryData g1
  let g3 ← workN s.imu g2
  let g4 ← workN s.odometry g3
  let g5 ← workN s.fixedFrame g4
  let g6 ← workN s.landmark g5
  some ⟨2, keptConstraints unfinished g0 (constraintsIn g0.done), landmarkPosesIn g1.done, kept unfinished g2, g2.nodes,
    fun
    | .trajectoryData => dataIn .trajectoryData g2.done
    | .imu => dataIn .imu g3.done
    | .odometry => dataIn .odometry g4.done
    | .fixedFrame => dataIn .fixedFrame g5.done
    | .landmark => dataIn .landmark g6.done⟩

/-- `MigrateStreamVersion1ToVersion2` (sfm 43-212). -/
noncomputable def migrateStream (unfinished : Bool) (s : Schedule) (i : Input I J D) : Option (Output I J D) := do
  let g ← fill i
  write unfinished s g

end Verif.Migration
