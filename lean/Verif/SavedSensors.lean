import Verif.MapByTime

/-!
# Sensor data, landmarks and trajectory data of a saved map

Model of the part of the pose graph that keeps sensor data (cartographer/mapping/internal/2d/pose_graph_2d.cc, pg2; the same
functions of pose_graph_3d.cc are cited where they differ, pg3; cartographer/mapping/internal/optimization/
optimization_problem_2d.cc and optimization_problem_3d.cc, op2 and op3), of how it is written to a file
(cartographer/io/internal/mapping_state_serialization.cc, mss; `PoseGraph::ToProto` in cartographer/mapping/pose_graph.cc) and
of how `MapBuilder::LoadState` (cartographer/mapping/map_builder.cc, mb) reads it again.

A sensor message is its time together with an arbitrary content; the conversions of times and poses to and from protos are the
identity here (`Verif.Ticks`, `Verif.SavedGraph`). The work items run in the order in which they were added (`Verif.WorkQueue`),
each at once, and all of them have run when the state is saved. Trajectories that accept no data (`CanAddWorkItemModifying`) are the subject of `Verif.PoseGraph`; the new
trajectories of a loaded map always accept it. `none` is a failing `CHECK` or the exception of `at`.
-/

namespace Verif.SavedSensors

variable {T I O F R S : Type} [LinearOrder T] [BoundedOrder T] [LinearOrder S]

/-- `LandmarkNode::LandmarkObservation` (pose_graph_interface.h 56-62). -/
structure Observation (T R : Type) where
  trajectory : Int
  time : T
  pose : R
  translationWeight : Rat
  rotationWeight : Rat
deriving DecidableEq

/-- `LandmarkNode` (pose_graph_interface.h 55-66). -/
structure Landmark (T R : Type) where
  observations : List (Observation T R) := []
  pose : Option R := none
  frozen : Bool := false
deriving DecidableEq

/-- `TrajectoryData` (pose_graph_interface.h 78-82); the four numbers of `imu_calibration` in the order of the array. -/
structure Calibration (R : Type) where
  gravity : Rat := 98 / 10
  imu : Rat × Rat × Rat × Rat := (1, 0, 0, 0)
  fixedFrame : Option R := none
deriving DecidableEq

/-- The sensor data of the pose graph: `imu_data_` (in 2D the map `empty_imu_data_`), `odometry_data_`, `fixed_frame_pose_data_`,
`data_.landmark_nodes`, `trajectory_data_`, and for each element of `node_data_` the id of its trajectory. -/
structure State (T I O F R S : Type) where
  imu : MapByTime.Map T (T × I) := []
  odometry : MapByTime.Map T (T × O) := []
  fixedFrame : MapByTime.Map T (T × F) := []
  landmarks : List (S × Landmark T R) := []
  trajectories : List (Int × Calibration R) := []
  nodes : List Int := []

/-- `AddImuData` (pg2 209-218, op2 176-180: ignored; pg3 197-206, op3 194-197). -/
def addImu (is3d : Bool) (s : State T I O F R S) (t : Int) (d : T × I) : Option (State T I O F R S) :=
  if is3d then (MapByTime.append Prod.fst s.imu t d).map (fun m => { s with imu := m }) else some s

/-- `AddOdometryData` (pg2 220-229, op2 182-185). -/
def addOdometry (s : State T I O F R S) (t : Int) (d : T × O) : Option (State T I O F R S) :=
  (MapByTime.append Prod.fst s.odometry t d).map (fun m => { s with odometry := m })

/-- `AddFixedFramePoseData` (pg2 231-242, op2 187-191). -/
def addFixedFrame (s : State T I O F R S) (t : Int) (d : T × F) : Option (State T I O F R S) :=
  (MapByTime.append Prod.fst s.fixedFrame t d).map (fun m => { s with fixedFrame := m })

/-- One observation of a message with landmarks (sensor/landmark_data.h 28-34). -/
structure Seen (R S : Type) where
  id : S
  pose : R
  translationWeight : Rat
  rotationWeight : Rat

/-- Lines 250-254 of pg2: `operator[]` creates the landmark if it is new. -/
def addObservation (l : List (S × Landmark T R)) (t : Int) (time : T) (o : Seen R S) : List (S × Landmark T R) :=
  let lm := (SMap.get? o.id l).getD {}
  SMap.put o.id
    { lm with observations := lm.observations ++ [⟨t, time, o.pose, o.translationWeight, o.rotationWeight⟩] } l

/-- `AddLandmarkData` (pg2 244-259). -/
def addLandmarks (s : State T I O F R S) (t : Int) (time : T) (os : List (Seen R S)) : State T I O F R S :=
  { s with landmarks := os.foldl (fun l o => addObservation l t time o) s.landmarks }

/-- `data_.landmark_nodes[id].global_landmark_pose = pose` (pg2 906, 990). -/
def putPose (l : List (S × Landmark T R)) (id : S) (pose : R) : List (S × Landmark T R) :=
  SMap.put id { (SMap.get? id l).getD {} with pose := some pose } l

/-- `SetLandmarkPose` (pg2 984-994). -/
def setLandmarkPose (s : State T I O F R S) (id : S) (pose : R) (frozen : Bool) : State T I O F R S :=
  { s with landmarks := SMap.put id { (SMap.get? id s.landmarks).getD {} with pose := some pose, frozen := frozen } s.landmarks }

/-- `AddTrajectoryNode` and `InsertTrajectoryNode` (op2 193-208): `operator[]` creates the trajectory data. -/
def addNode (s : State T I O F R S) (t : Int) : State T I O F R S :=
  { s with
    nodes := s.nodes ++ [t]
    trajectories := if (SMap.get? t s.trajectories).isSome then s.trajectories else SMap.put t {} s.trajectories }

/-- `proto::TrajectoryData` without the trajectory id. -/
structure CalibrationProto (R : Type) where
  gravity : Rat
  w : Rat
  x : Rat
  y : Rat
  z : Rat
  fixedFrame : Option R

/-- `SetTrajectoryDataFromProto` (pg2 764-784, pg3 741-761). -/
def setTrajectoryData (is3d : Bool) (s : State T I O F R S) (t : Int) (c : CalibrationProto R) : State T I O F R S :=
  if is3d then
    { s with trajectories := SMap.put t ⟨c.gravity, (c.w, c.x, c.y, c.z), c.fixedFrame⟩ s.trajectories }
  else
    match c.fixedFrame with
    | none => s
    | some p => { s with trajectories := SMap.put t { fixedFrame := some p } s.trajectories }

/-- What an optimization changes (op2 416-428, op3 589-606, pg2 903-907): the solver chooses the gravity, the calibration (both
only in 3D) and the origin of the fixed frame of each trajectory, if it has one, and poses for some landmarks. -/
def solve (is3d : Bool) (s : State T I O F R S) (gravity : Int → Rat) (imu : Int → Rat × Rat × Rat × Rat)
    (origin : Int → Option R) (poses : List (S × R)) : State T I O F R S :=
  { s with
    trajectories := s.trajectories.map (fun e => (e.1,
      { gravity := if is3d then gravity e.1 else e.2.gravity
        imu := if is3d then imu e.1 else e.2.imu
        fixedFrame := (origin e.1).or e.2.fixedFrame }))
    landmarks := poses.foldl (fun l p => putPose l p.1 p.2) s.landmarks }

/-- What `MapByTime::Trim` does to the data of a trajectory (`MapByTime.trim`), with an arbitrary choice of the data kept. -/
def keepData {D : Type} (t : Int) (keep : T → Bool) (m : MapByTime.Map T D) : MapByTime.Map T D :=
  match SMap.get? t m with
  | none => m
  | some tr =>
    let tr' := tr.filter (fun e => keep e.1)
    if tr'.isEmpty then SMap.erase t m else SMap.put t tr' m

/-- `TrimTrajectoryNode` (op2 210-218, op3 227-235): the trajectory data are erased together with the last node. `none`: there is
no such node. -/
def trimNode (s : State T I O F R S) (t : Int) (ki ko kf : T → Bool) : Option (State T I O F R S) :=
  if t ∈ s.nodes then
    some { s with
      imu := keepData t ki s.imu
      odometry := keepData t ko s.odometry
      fixedFrame := keepData t kf s.fixedFrame
      nodes := s.nodes.erase t
      trajectories := if t ∈ s.nodes.erase t then s.trajectories else SMap.erase t s.trajectories }
  else none

/-- The records of the file that concern this data (serialization.proto). -/
inductive Rec (T I O F R S : Type) where
  | node (t : Int)
  | trajectoryData (t : Int) (c : CalibrationProto R)
  | imu (t : Int) (d : T × I)
  | odometry (t : Int) (d : T × O)
  | fixedFrame (t : Int) (d : T × F)
  | landmark (t : Int) (time : T) (os : List (Seen R S))

/-- `SerializeImuData`, `SerializeOdometryData`, `SerializeFixedFramePoseData` (mss 142-187): one record for each message, by
trajectory and time. -/
def dataRecs {D : Type} (f : Int → T × D → Rec T I O F R S) (m : MapByTime.Map T (T × D)) : List (Rec T I O F R S) :=
  m.flatMap (fun e => e.2.map (fun x => f e.1 x.2))

/-- Lines 123-138 of mss. -/
def calibrationProto (c : Calibration R) : CalibrationProto R :=
  ⟨c.gravity, c.imu.1, c.imu.2.1, c.imu.2.2.1, c.imu.2.2.2, c.fixedFrame⟩

/-- Lines 193-207 of mss: one record for each observation. -/
def observationRec (id : S) (o : Observation T R) : Rec T I O F R S :=
  .landmark o.trajectory o.time [⟨id, o.pose, o.translationWeight, o.rotationWeight⟩]

/-- `SerializeTrajectoryNodes`, ..., `SerializeLandmarkNodes` in the order of `WritePbStream` (mss 226-232). -/
def records (s : State T I O F R S) : List (Rec T I O F R S) :=
  s.nodes.map .node ++ s.trajectories.map (fun e => .trajectoryData e.1 (calibrationProto e.2)) ++
    dataRecs .imu s.imu ++ dataRecs .odometry s.odometry ++ dataRecs .fixedFrame s.fixedFrame ++
    s.landmarks.flatMap (fun e => e.2.observations.map (observationRec e.1))

/-- `landmark_poses` of the pose graph proto (pose_graph.cc 202-208, `GetLandmarkPoses` pg2 972-982). -/
def landmarkPoses (s : State T I O F R S) : List (S × R) := s.landmarks.filterMap (fun e => e.2.pose.map (fun p => (e.1, p)))

/-- The part of the file with this data. -/
structure File (T I O F R S : Type) where
  poses : List (S × R)
  recs : List (Rec T I O F R S)

/-- `WritePbStream` (mss 215-233). -/
def save (s : State T I O F R S) : File T I O F R S := ⟨landmarkPoses s, records s⟩

/-- One record in `LoadState` (mb 305-351); `remap` is `trajectory_remapping`. -/
def loadRec (is3d frozen : Bool) (remap : List (Int × Int)) (s : State T I O F R S) : Rec T I O F R S → Option (State T I O F R S)
  | .node t => (SMap.get? t remap).map (fun u => addNode s u)
  | .trajectoryData t c => (SMap.get? t remap).map (fun u => setTrajectoryData is3d s u c)
  | .imu t d => if frozen then some s else (SMap.get? t remap).bind (fun u => addImu is3d s u d)
  | .odometry t d => if frozen then some s else (SMap.get? t remap).bind (fun u => addOdometry s u d)
  | .fixedFrame t d => if frozen then some s else (SMap.get? t remap).bind (fun u => addFixedFrame s u d)
  | .landmark t time os => if frozen then some s else (SMap.get? t remap).map (fun u => addLandmarks s u time os)

/-- `LoadState` (mb 269-352) after the new trajectories got their ids: landmark poses, then the records in the order of the
file. -/
def load (is3d frozen : Bool) (remap : List (Int × Int)) (s : State T I O F R S) (f : File T I O F R S) :
    Option (State T I O F R S) :=
  f.recs.foldlM (loadRec is3d frozen remap) (f.poses.foldl (fun s p => setLandmarkPose s p.1 p.2 true) s)

/-- What may happen to the sensor data of a pose graph. -/
inductive Op (T I O F R S : Type) where
  | imu (t : Int) (d : T × I)
  | odometry (t : Int) (d : T × O)
  | fixedFrame (t : Int) (d : T × F)
  | landmark (t : Int) (time : T) (os : List (Seen R S))
  | pose (id : S) (pose : R) (frozen : Bool)
  | node (t : Int)
  | trajectoryData (t : Int) (c : CalibrationProto R)
  | solve (gravity : Int → Rat) (imu : Int → Rat × Rat × Rat × Rat) (origin : Int → Option R) (poses : List (S × R))
  | trim (t : Int) (ki ko kf : T → Bool)

/-- One of these. -/
def step (is3d : Bool) (s : State T I O F R S) : Op T I O F R S → Option (State T I O F R S)
  | .imu t d => addImu is3d s t d
  | .odometry t d => addOdometry s t d
  | .fixedFrame t d => addFixedFrame s t d
  | .landmark t time os => some (addLandmarks s t time os)
  | .pose id p frozen => some (setLandmarkPose s id p frozen)
  | .node t => some (addNode s t)
  | .trajectoryData t c => some (setTrajectoryData is3d s t c)
  | .solve g q origin poses => some (solve is3d s g q origin poses)
  | .trim t ki ko kf => trimNode s t ki ko kf

/-- A whole history. -/
def run (is3d : Bool) (ops : List (Op T I O F R S)) : Option (State T I O F R S) := ops.foldlM (step is3d) {}

end Verif.SavedSensors
