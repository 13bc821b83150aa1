import Verif.CompressedPointCloud
import Verif.Time

/-!
# Messages of sensor data and nodes

Model of the conversions in `cartographer/sensor/{imu_data,odometry_data,landmark_data,fixed_frame_pose_data,timed_point_cloud_data,range_data}.cc`,
`sensor/rangefinder_point.h`, `transform/transform.cc`, `mapping/trajectory_node.cc` and the conversions of `SensorId` in
`mapping/trajectory_builder_interface.cc`.  `float` and `double` are ℚ: each field of a message has the type of what is stored in it.  A message that is not set
is `none`, and its fields then read as 0 or empty (proto3).  Setting fields one by one is building a structure.  `none` as result is a failing `CHECK`.
-/

namespace Verif.Messages

open Verif.Compressed (P3 Cloud)

/-- `Eigen::Quaterniond`. -/
structure Q where
  w : ℚ
  x : ℚ
  y : ℚ
  z : ℚ
  deriving DecidableEq

/-- `transform::Rigid3d`. -/
structure Rigid where
  translation : P3
  rotation : Q
  deriving DecidableEq

/-! ### Messages -/

/-- `transform::proto::Vector3d` and `Vector3f` (transform.proto). -/
structure Vector3Msg where
  x : ℚ := 0
  y : ℚ := 0
  z : ℚ := 0
  deriving DecidableEq

/-- `transform::proto::Vector4f`. -/
structure Vector4Msg where
  x : ℚ := 0
  y : ℚ := 0
  z : ℚ := 0
  t : ℚ := 0
  deriving DecidableEq

/-- `transform::proto::Quaterniond`. -/
structure QuaternionMsg where
  x : ℚ := 0
  y : ℚ := 0
  z : ℚ := 0
  w : ℚ := 0
  deriving DecidableEq

/-- `transform::proto::Rigid3d`. -/
structure RigidMsg where
  translation : Option Vector3Msg := none
  rotation : Option QuaternionMsg := none
  deriving DecidableEq

/-- `ToEigen` of vectors (transform.cc 31-41). -/
def toVector (m : Vector3Msg) : P3 := ⟨m.x, m.y, m.z⟩

/-- `ToProto` of vectors (transform.cc 90-96, 107-113). -/
def vectorMsg (v : P3) : Vector3Msg := { x := v.x, y := v.y, z := v.z }

/-- `ToEigen` of quaternions (transform.cc 43-46). -/
def toQuaternion (m : QuaternionMsg) : Q := ⟨m.w, m.x, m.y, m.z⟩

/-- `ToProto` of quaternions (transform.cc 124-131). -/
def quaternionMsg (q : Q) : QuaternionMsg := { w := q.w, x := q.x, y := q.y, z := q.z }

/-- `ToProto` of transforms (transform.cc 64-69). -/
def rigidMsg (r : Rigid) : RigidMsg := { translation := some (vectorMsg r.translation), rotation := some (quaternionMsg r.rotation) }

/-- `ToRigid3` (transform.cc 71-74). -/
def toRigid (m : RigidMsg) : Rigid := ⟨toVector (m.translation.getD {}), toQuaternion (m.rotation.getD {})⟩

/-! ### Sensor data -/

/-- `ImuData` (imu_data.h). -/
structure Imu where
  time : Ticks.Time
  linearAcceleration : P3
  angularVelocity : P3

/-- `proto::ImuData` (sensor.proto). -/
structure ImuMsg where
  timestamp : Int := 0
  linearAcceleration : Option Vector3Msg := none
  angularVelocity : Option Vector3Msg := none

/-- `ToProto` (imu_data.cc 24-32). -/
def imuMsg (d : Imu) : ImuMsg :=
  { timestamp := Ticks.toUniversal d.time, linearAcceleration := some (vectorMsg d.linearAcceleration), angularVelocity := some (vectorMsg d.angularVelocity) }

/-- `FromProto` (imu_data.cc 34-38). -/
def toImu (m : ImuMsg) : Imu := ⟨Ticks.fromUniversal m.timestamp, toVector (m.linearAcceleration.getD {}), toVector (m.angularVelocity.getD {})⟩

/-- `OdometryData` (odometry_data.h). -/
structure Odometry where
  time : Ticks.Time
  pose : Rigid

/-- `proto::OdometryData` and `proto::FixedFramePoseData` (sensor.proto). -/
structure PoseMsg where
  timestamp : Int := 0
  pose : Option RigidMsg := none

/-- `ToProto` (odometry_data.cc 24-29). -/
def odometryMsg (d : Odometry) : PoseMsg := { timestamp := Ticks.toUniversal d.time, pose := some (rigidMsg d.pose) }

/-- `FromProto` (odometry_data.cc 31-34). -/
def toOdometry (m : PoseMsg) : Odometry := ⟨Ticks.fromUniversal m.timestamp, toRigid (m.pose.getD {})⟩

/-- `FixedFramePoseData` (fixed_frame_pose_data.h). -/
structure FixedFrame where
  time : Ticks.Time
  pose : Option Rigid

/-- `ToProto` (fixed_frame_pose_data.cc 25-32). -/
def fixedFrameMsg (d : FixedFrame) : PoseMsg :=
  match d.pose with
  | some pose => { timestamp := Ticks.toUniversal d.time, pose := some (rigidMsg pose) }
  | none => { timestamp := Ticks.toUniversal d.time }

/-- `FromProto` (fixed_frame_pose_data.cc 34-40). -/
def toFixedFrame (m : PoseMsg) : FixedFrame := ⟨Ticks.fromUniversal m.timestamp, if m.pose.isSome then some (toRigid (m.pose.getD {})) else none⟩

/-- `LandmarkObservation` (landmark_data.h 32-37). -/
structure Observation where
  id : String
  transform : Rigid
  translationWeight : ℚ
  rotationWeight : ℚ

/-- `LandmarkData` (landmark_data.h 39-42). -/
structure Landmark where
  time : Ticks.Time
  observations : List Observation

/-- `proto::LandmarkData::LandmarkObservation`. -/
structure ObservationMsg where
  id : String := ""
  transform : Option RigidMsg := none
  translationWeight : ℚ := 0
  rotationWeight : ℚ := 0

/-- `proto::LandmarkData`. -/
structure LandmarkMsg where
  timestamp : Int := 0
  observations : List ObservationMsg := []

/-- `ToProto` (landmark_data.cc 24-36). -/
def landmarkMsg (d : Landmark) : LandmarkMsg :=
  d.observations.foldl (fun m o => { m with observations := m.observations ++
    [{ id := o.id, transform := some (rigidMsg o.transform), translationWeight := o.translationWeight, rotationWeight := o.rotationWeight }] })
    { timestamp := Ticks.toUniversal d.time }

/-- `FromProto` (landmark_data.cc 38-50). -/
def toLandmark (m : LandmarkMsg) : Landmark :=
  m.observations.foldl (fun d o => { d with observations := d.observations ++ [⟨o.id, toRigid (o.transform.getD {}), o.translationWeight, o.rotationWeight⟩] })
    ⟨Ticks.fromUniversal m.timestamp, []⟩

/-! ### Point clouds -/

/-- `TimedRangefinderPoint` (rangefinder_point.h 37-40). -/
structure TimedPoint where
  position : P3
  time : ℚ

/-- `proto::TimedRangefinderPoint`. -/
structure TimedPointMsg where
  position : Option Vector3Msg := none
  time : ℚ := 0

/-- `proto::RangefinderPoint`. -/
structure PointMsg where
  position : Option Vector3Msg := none

/-- `FromProto` of timed points (rangefinder_point.h 80-84). -/
def toTimedPoint (m : TimedPointMsg) : TimedPoint := ⟨toVector (m.position.getD {}), m.time⟩

/-- `ToProto` of timed points (rangefinder_point.h 86-93). -/
def timedPointMsg (p : TimedPoint) : TimedPointMsg := { position := some (vectorMsg p.position), time := p.time }

/-- `FromProto` of points (rangefinder_point.h 68-71); a `RangefinderPoint` is its position. -/
def toPoint (m : PointMsg) : P3 := toVector (m.position.getD {})

/-- `ToProto` of points (rangefinder_point.h 73-78). -/
def pointMsg (p : P3) : PointMsg := { position := some (vectorMsg p) }

/-- `TimedPointCloudData` (timed_point_cloud_data.h 27-33). -/
structure TimedCloud where
  time : Ticks.Time
  origin : P3
  ranges : List TimedPoint
  intensities : List ℚ

/-- `proto::TimedPointCloudData`. -/
structure TimedCloudMsg where
  timestamp : Int := 0
  origin : Option Vector3Msg := none
  pointDataLegacy : List Vector4Msg := []
  pointData : List TimedPointMsg := []
  intensities : List ℚ := []

/-- `ToProto` (timed_point_cloud_data.cc 25-38). -/
def timedCloudMsg (d : TimedCloud) : TimedCloudMsg :=
  let m : TimedCloudMsg := { timestamp := Ticks.toUniversal d.time, origin := some (vectorMsg d.origin) }
  let m := d.ranges.foldl (fun (m : TimedCloudMsg) r => { m with pointData := m.pointData ++ [timedPointMsg r] }) m
  d.intensities.foldl (fun (m : TimedCloudMsg) i => { m with intensities := m.intensities ++ [i] }) m

/-- `FromProto` (timed_point_cloud_data.cc 40-61). -/
def toTimedCloud (m : TimedCloudMsg) : Option TimedCloud :=
  if m.intensities.length = 0 ∨ m.intensities.length = m.pointData.length then
    let ranges :=
      if m.pointData.length > 0 then m.pointData.foldl (fun l p => l ++ [toTimedPoint p]) []
      else m.pointDataLegacy.foldl (fun l p => l ++ [⟨⟨p.x, p.y, p.z⟩, p.t⟩]) []
    some ⟨Ticks.fromUniversal m.timestamp, toVector (m.origin.getD {}), ranges, m.intensities⟩
  else none

/-- `PointCloud` (point_cloud.h): points and intensities. -/
structure PointCloud where
  points : List P3
  intensities : List ℚ := []

/-- `RangeData` (range_data.h). -/
structure RangeData where
  origin : P3
  returns : PointCloud
  misses : PointCloud

/-- `proto::RangeData`. -/
structure RangeDataMsg where
  origin : Option Vector3Msg := none
  returnsLegacy : List Vector3Msg := []
  missesLegacy : List Vector3Msg := []
  returns : List PointMsg := []
  misses : List PointMsg := []

/-- `ToProto` (range_data.cc 41-53); iterating over a point cloud gives the points only. -/
def rangeDataMsg (d : RangeData) : RangeDataMsg :=
  let m : RangeDataMsg := { origin := some (vectorMsg d.origin) }
  let m := d.returns.points.foldl (fun (m : RangeDataMsg) p => { m with returns := m.returns ++ [pointMsg p] }) m
  d.misses.points.foldl (fun (m : RangeDataMsg) p => { m with misses := m.misses ++ [pointMsg p] }) m

/-- `FromProto` (range_data.cc 55-82). -/
def toRangeData (m : RangeDataMsg) : RangeData :=
  let returns :=
    if m.returns.length > 0 then m.returns.foldl (fun l p => l ++ [toPoint p]) []
    else m.returnsLegacy.foldl (fun l p => l ++ [toVector p]) []
  let misses :=
    if m.misses.length > 0 then m.misses.foldl (fun l p => l ++ [toPoint p]) []
    else m.missesLegacy.foldl (fun l p => l ++ [toVector p]) []
  ⟨toVector (m.origin.getD {}), ⟨returns, []⟩, ⟨misses, []⟩⟩

/-! ### Nodes -/

/-- `TrajectoryNode::Data` (trajectory_node.h 45-63). -/
structure Node where
  time : Ticks.Time
  gravityAlignment : Q
  filtered : PointCloud
  high : PointCloud
  low : PointCloud
  histogram : List ℚ
  localPose : Rigid

/-- `proto::TrajectoryNodeData` (trajectory_node_data.proto). -/
structure NodeMsg where
  timestamp : Int := 0
  gravityAlignment : Option QuaternionMsg := none
  filtered : Option Compressed.Proto := none
  high : Option Compressed.Proto := none
  low : Option Compressed.Proto := none
  histogram : List ℚ := []
  localPose : Option RigidMsg := none

/-- `ToProto` (trajectory_node.cc 27-49); `n` bounds the loops over the blocks of the compressed point clouds. -/
def nodeMsg (n : Nat) (d : Node) : Option NodeMsg := do
  let filtered ← Compressed.compress n d.filtered.points
  let high ← Compressed.compress n d.high.points
  let low ← Compressed.compress n d.low.points
  let m : NodeMsg := { timestamp := Ticks.toUniversal d.time, gravityAlignment := some (quaternionMsg d.gravityAlignment)
                       filtered := some filtered.toProto, high := some high.toProto, low := some low.toProto }
  let m := d.histogram.foldl (fun (m : NodeMsg) v => { m with histogram := m.histogram ++ [v] }) m
  some { m with localPose := some (rigidMsg d.localPose) }

/-- `Decompress` of a message; a message that is not set has no points. -/
def decompressMsg (m : Option Compressed.Proto) : Option (List P3) := (Cloud.fromProto (m.getD ⟨0, []⟩)).decompress

/-- `FromProto` (trajectory_node.cc 51-69). -/
def toNode (m : NodeMsg) : Option Node := do
  let filtered ← decompressMsg m.filtered
  let high ← decompressMsg m.high
  let low ← decompressMsg m.low
  some ⟨Ticks.fromUniversal m.timestamp, toQuaternion (m.gravityAlignment.getD {}), ⟨filtered, []⟩, ⟨high, []⟩, ⟨low, []⟩,
    (List.range m.histogram.length).map fun i => m.histogram.getD i 0, toRigid (m.localPose.getD {})⟩

/-! ### Sensor ids -/

/-- `SensorType` (trajectory_builder_interface.h 62-69). -/
inductive SensorType where
  | range | imu | odometry | fixedFramePose | landmark | localSlamResult
  deriving DecidableEq

/-- `SensorId` (trajectory_builder_interface.h 61-84). -/
structure SensorId where
  type : SensorType
  id : String
  deriving DecidableEq

/-- `proto::SensorId` (trajectory_builder_options.proto); the enum is open. -/
structure SensorIdMsg where
  type : Int := 0
  id : String := ""

/-- `ToProto` (trajectory_builder_interface.cc 77-103). -/
def sensorIdMsg (s : SensorId) : SensorIdMsg :=
  match s.type with
  | .range => ⟨0, s.id⟩
  | .imu => ⟨1, s.id⟩
  | .odometry => ⟨2, s.id⟩
  | .fixedFramePose => ⟨3, s.id⟩
  | .landmark => ⟨4, s.id⟩
  | .localSlamResult => ⟨5, s.id⟩

/-- `FromProto` (trajectory_builder_interface.cc 105-136). -/
def toSensorId (m : SensorIdMsg) : Option SensorId :=
  if m.type = 0 then some ⟨.range, m.id⟩
  else if m.type = 1 then some ⟨.imu, m.id⟩
  else if m.type = 2 then some ⟨.odometry, m.id⟩
  else if m.type = 3 then some ⟨.fixedFramePose, m.id⟩
  else if m.type = 4 then some ⟨.landmark, m.id⟩
  else if m.type = 5 then some ⟨.localSlamResult, m.id⟩
  else none

end Verif.Messages
