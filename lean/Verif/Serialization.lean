import Verif.PoseGraph

/-!
# Saving and loading a mapping state

Model of `WritePbStream` (cartographer/io/internal/mapping_state_serialization.cc, abbreviated mss),
`ProtoStreamDeserializer` (cartographer/io/proto_stream_deserializer.cc) and `MapBuilder::LoadState`
(cartographer/mapping/map_builder.cc 216-384).

A stream is a list of records; reading at its end fails and sets `eof` (this is `Verif.ProtoStream`). Poses and the contents
of submaps, nodes and sensor data are left out. The state is not changed while it is saved. `none` is a failing `CHECK`, an
exception of `at` or an index out of range.
-/

namespace Verif.Serialization

open PoseGraph
open MapById (Id Map at? insert flat)

/-- The records of a stream (serialization.proto): `SerializationHeader`, and the cases of `SerializedData`. -/
inductive Record (P O : Type) where
  | header (version : Nat)
  | poseGraph (proto : Proto P)
  | options (l : List O)
  | submap (id : Id)
  | node (id : Id)
  | trajectoryData (t : Int)
  | imu (t : Int)
  | odometry (t : Int)
  | fixedFrame (t : Int)
  | landmark (t : Int)

/-- What is saved: the pose graph, and for the data kept by trajectory (`GetTrajectoryData`, `GetImuData`,
`GetOdometryData`, `GetFixedFramePoseData`, `GetLandmarkNodes`) the trajectory id of each entry in the order of iteration. `fin`
is `insertion_finished()` of a submap, `options` is `all_trajectory_builder_options_`. -/
structure Snapshot (P O : Type) where
  graph : State P
  fin : Nat → Bool
  options : List O
  trajectoryData : List Int := []
  imu : List Int := []
  odometry : List Int := []
  fixedFrame : List Int := []
  landmarks : List Int := []

variable {P O : Type}

/-- `GetValidTrajectoryIds` (mss 46-56). -/
def validTrajectoryIds (l : List (Int × TrajState)) : List Int :=
  (l.filter (fun e => e.2.state ≠ .deleted)).map (·.1)

/-- `all_options_with_sensor_ids[id]` (mss 40). -/
def optionAt (options : List O) (t : Int) : Option O := if t < 0 then none else options[t.toNat]?

/-- The loop of `CreateAllTrajectoryBuilderOptionsProto` (mss 37-42). -/
def allOptions (options : List O) : List Int → Option (List O)
  | [] => some []
  | t :: ts =>
    match optionAt options t, allOptions options ts with
    | some o, some os => some (o :: os)
    | _, _ => none

/-- The loop of `SerializeSubmaps` (mss 82-101). -/
def submapRecords (includeUnfinished : Bool) (fin : Nat → Bool) (l : List (Id × Submap)) : List (Record P O) :=
  (l.filter (fun e => !(includeUnfinished == false && fin e.2.ptr == false))).map (fun e => .submap e.1)

/-- `WritePbStream` (mss 214-234). -/
def save (includeUnfinished : Bool) (s : Snapshot P O) : Option (List (Record P O)) :=
  match allOptions s.options (validTrajectoryIds s.graph.trajs) with
  | none => none
  | some os => some ([.header 2, .poseGraph (toProto includeUnfinished s.fin s.graph s.graph s.graph), .options os] ++
      submapRecords includeUnfinished s.fin (flat s.graph.submaps) ++
      (flat s.graph.nodes).map (fun e => .node e.1) ++
      s.trajectoryData.map .trajectoryData ++ s.imu.map .imu ++ s.odometry.map .odometry ++
      s.fixedFrame.map .fixedFrame ++ s.landmarks.map .landmark)

/-- The calls of the loader on the pose graph, in order. -/
inductive Call (P : Type) where
  | freeze (t : Int)
  | addSubmapFromProto (id : Id)
  | addNodeFromProto (id : Id)
  | setTrajectoryData (t : Int)
  | addImu (t : Int)
  | addOdometry (t : Int)
  | addFixedFrame (t : Int)
  | addLandmark (t : Int)
  | addNodeToSubmap (node submap : Id)
  | addSerializedConstraints (cs : List (Constraint P))

/-- The constructor of `ProtoStreamDeserializer` (proto_stream_deserializer.cc 26-71): header version, pose graph, options and
the records left. -/
def deserialize : List (Record P O) → Option (Nat × Proto P × List O × List (Record P O))
  | .header v :: .poseGraph p :: .options os :: rest =>
    if v = 2 ∨ v = 1 then
      if p.trajectories.length = os.length then some (v, p, os, rest) else none
    else none
  | _ => none

/-- The loop map_builder.cc 226-241. `n` is `trajectory_builders_.size()`. Yields the remapping, the trajectories with their new
ids and the options under which they were added. -/
def addTrajectories (n : Int) : List TrajectoryProto → List O → List (Int × Int) →
    Option (List (Int × Int) × List TrajectoryProto × List (Int × O))
  | [], _, remap => some (remap, [], [])
  | _ :: _, [], _ => none
  | tr :: trs, o :: os, remap =>
    match SMap.get? tr.id remap with
    | some _ => none
    | none =>
      match addTrajectories (n + 1) trs os (SMap.put tr.id n remap) with
      | none => none
      | some (remap', trs', added) => some (remap', { tr with id := n } :: trs', (n, o) :: added)

/-- `trajectory_remapping.at(...)` for an id. -/
def remapId (remap : List (Int × Int)) (id : Id) : Option Id := (SMap.get? id.1 remap).map (fun t => (t, id.2))

/-- The loop map_builder.cc 244-249. -/
def remapConstraints (remap : List (Int × Int)) : List (Constraint P) → Option (List (Constraint P))
  | [] => some []
  | c :: cs =>
    match remapId remap c.submap, remapId remap c.node, remapConstraints remap cs with
    | some s, some n, some cs' => some ({ c with submap := s, node := n } :: cs')
    | _, _, _ => none

/-- Repeated `Insert` into a `MapById`. -/
def insertAll (m : Map Unit) : List Id → Option (Map Unit)
  | [] => some m
  | id :: ids =>
    match insert m id () with
    | none => none
    | some m' => insertAll m' ids

/-- map_builder.cc 251-260, 262-270: the ids in the order of the loops. -/
def submapIds (trs : List TrajectoryProto) : List Id := trs.flatMap (fun tr => tr.submaps.map (fun i => (tr.id, i)))
def nodeIds (trs : List TrajectoryProto) : List Id := trs.flatMap (fun tr => tr.nodes.map (fun i => (tr.id, i)))

/-- One iteration of the loop map_builder.cc 288-358. -/
def loadRecord (frozen : Bool) (remap : List (Int × Int)) (submapPoses nodePoses : Map Unit) :
    Record P O → Option (List (Call P))
  | .header _ => some []
  | .poseGraph _ => some []
  | .options _ => some []
  | .submap id => do
    let id' ← remapId remap id
    let _ ← at? submapPoses id'
    some [.addSubmapFromProto id']
  | .node id => do
    let id' ← remapId remap id
    let _ ← at? nodePoses id'
    some [.addNodeFromProto id']
  | .trajectoryData t => (SMap.get? t remap).map (fun t' => [.setTrajectoryData t'])
  | .imu t => if frozen then some [] else (SMap.get? t remap).map (fun t' => [.addImu t'])
  | .odometry t => if frozen then some [] else (SMap.get? t remap).map (fun t' => [.addOdometry t'])
  | .fixedFrame t => if frozen then some [] else (SMap.get? t remap).map (fun t' => [.addFixedFrame t'])
  | .landmark t => if frozen then some [] else (SMap.get? t remap).map (fun t' => [.addLandmark t'])

/-- The loop map_builder.cc 288-358. -/
def loadRecords (frozen : Bool) (remap : List (Int × Int)) (submapPoses nodePoses : Map Unit) :
    List (Record P O) → Option (List (Call P))
  | [] => some []
  | r :: rs =>
    match loadRecord frozen remap submapPoses nodePoses r, loadRecords frozen remap submapPoses nodePoses rs with
    | some cs, some cs' => some (cs ++ cs')
    | _, _ => none

/-- map_builder.cc 360-381. -/
def finalCalls (frozen : Bool) (cs : List (Constraint P)) : List (Call P) :=
  if frozen then (cs.filter (·.intra)).map (fun c => .addNodeToSubmap c.node c.submap)
  else [.addSerializedConstraints cs]

/-- The result of loading. -/
structure Loaded (P O : Type) where
  remap : List (Int × Int)
  added : List (Int × O)
  calls : List (Call P)

/-- `MapBuilder::LoadState` (map_builder.cc 216-384) with `n` trajectories existing. -/
def load (n : Int) (use3d frozen : Bool) (records : List (Record P O)) : Option (Loaded P O) := do
  let (v, p, os, rest) ← deserialize records
  let (remap, trs, added) ← addTrajectories n p.trajectories os []
  let cs ← remapConstraints remap p.constraints
  let submapPoses ← insertAll [] (submapIds trs)
  let nodePoses ← insertAll [] (nodeIds trs)
  guard (use3d = true → v ≠ 1)
  let calls ← loadRecords frozen remap submapPoses nodePoses rest
  some ⟨remap, added, (if frozen then added.map (fun e => .freeze e.1) else []) ++ calls ++ finalCalls frozen cs⟩

end Verif.Serialization
