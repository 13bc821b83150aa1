import Verif.MapByIdLemmas
import Verif.Messages
import Verif.Serialization
import Mathlib.Data.String.Basic

/-!
# Using a map builder through the client stub

`MapBuilderStub` (/repo/cartographer/cloud/client/map_builder_stub.cc, abbreviated mb), `PoseGraphStub`
(/repo/cartographer/cloud/internal/client/pose_graph_stub.cc, pg) and `TrajectoryBuilderStub`
(/repo/cartographer/cloud/internal/client/trajectory_builder_stub.cc, tb) offer the interface of the map builder to another process. Each call
becomes a request, which is answered by a handler in /repo/cartographer/cloud/internal/handlers (h/).

Modelled: what a handler puts into its response and what the stub makes of it, the requests by which a state is loaded, and the responses by which
it is saved. Messages arrive as they were sent. `map` fields of messages are unordered: the order in which they are visited is an argument. The calls
that the stubs do not implement (`LOG(FATAL)`: mb 89-93, 243-246, pg 50-58, 89-92, 197-200, 212-220, tb 145-148) are left out. `none` is a failing
`CHECK`, `LOG(FATAL)` or exception.
-/

namespace Verif.ClientStub

open Messages (Rigid RigidMsg rigidMsg toRigid)
open MapById (Id Map insert flat)
open Serialization (Record Loaded Snapshot deserialize)

/-! ### Queries -/

/-- `SubmapId` and `NodeId` messages (mapping/proto/pose_graph.proto 22-30). -/
structure IdMsg where
  trajectory : Int := 0
  index : Int := 0
  deriving DecidableEq

/-- `ToProto` of ids (mapping/id.h 75-78, 106-109). -/
def idMsg (id : Id) : IdMsg := ⟨id.1, id.2⟩

/-- `SubmapId{...}`, `NodeId{...}` from a message (pg 70-71, 110-111). -/
def toId (m : IdMsg) : Id := (m.trajectory, m.index)

/-- The loops that fill a `MapById` by `Insert` (pg 68-75, 101-114). -/
def insertAll {D : Type} (m : Map D) : List (Id × D) → Option (Map D)
  | [] => some m
  | e :: l => (insert m e.1 e.2).bind fun m' => insertAll m' l

/-- `PoseGraphInterface::SubmapPose` (pose_graph_interface.h 68-71). -/
structure SubmapPose where
  version : Int
  pose : Rigid
  deriving DecidableEq

/-- `proto::SubmapPose` (map_builder_service.proto 202-206). -/
structure SubmapPoseMsg where
  id : Option IdMsg := none
  version : Int := 0
  pose : Option RigidMsg := none

/-- The handler of `GetAllSubmapPoses` (h/get_all_submap_poses.cc 30-45). -/
def submapPosesResponse (m : Map SubmapPose) : List SubmapPoseMsg :=
  (flat m).map fun e => { id := some (idMsg e.1), version := e.2.version, pose := some (rigidMsg e.2.pose) }

/-- `GetAllSubmapPoses` (pg 60-77). -/
def readSubmapPoses (l : List SubmapPoseMsg) : Option (Map SubmapPose) :=
  insertAll [] (l.map fun e => (toId (e.id.getD {}), ⟨e.version, toRigid (e.pose.getD {})⟩))

/-- `TrajectoryNodePose` (trajectory_node.h 33-42). -/
structure NodePose where
  globalPose : Rigid
  fixedPart : Option (Ticks.Time × Rigid)
  deriving DecidableEq

/-- `proto::TrajectoryNodePose` (map_builder_service.proto). -/
structure NodePoseMsg where
  id : Option IdMsg := none
  globalPose : Option RigidMsg := none
  fixedPart : Option (Int × Option RigidMsg) := none

/-- The constant part (h/get_trajectory_node_poses_handler.cc 42-49). -/
def constantMsg (c : Option (Ticks.Time × Rigid)) : Option (Int × Option RigidMsg) :=
  match c with
  | none => none
  | some c => some (Ticks.toUniversal c.1, some (rigidMsg c.2))

/-- The handler of `GetTrajectoryNodePoses` (h/get_trajectory_node_poses_handler.cc 30-52). -/
def nodePosesResponse (m : Map NodePose) : List NodePoseMsg :=
  (flat m).map fun e =>
    { id := some (idMsg e.1), globalPose := some (rigidMsg e.2.globalPose), fixedPart := constantMsg e.2.fixedPart }

/-- The constant part (pg 102-108). -/
def readConstant (c : Option (Int × Option RigidMsg)) : Option (Ticks.Time × Rigid) :=
  match c with
  | none => none
  | some c => some (Ticks.fromUniversal c.1, toRigid (c.2.getD {}))

/-- `GetTrajectoryNodePoses` (pg 94-116). -/
def readNodePoses (l : List NodePoseMsg) : Option (Map NodePose) :=
  insertAll [] (l.map fun e => (toId (e.id.getD {}), ⟨toRigid (e.globalPose.getD {}), readConstant e.fixedPart⟩))

/-- `TrajectoryState` (pose_graph_interface.h 84). -/
inductive TrajectoryState where
  | active | finished | frozen | deleted
  deriving DecidableEq

/-- `ToProto` (cloud/internal/mapping/serialization.cc 30-43; map_builder_service.proto 36-41). -/
def stateMsg : TrajectoryState → Int
  | .active => 0
  | .finished => 1
  | .frozen => 2
  | .deleted => 3

/-- `FromProto` (cloud/internal/mapping/serialization.cc 45-58); the enum is open. -/
def toState (n : Int) : Option TrajectoryState :=
  if n = 0 then some .active
  else if n = 1 then some .finished
  else if n = 2 then some .frozen
  else if n = 3 then some .deleted
  else none

/-- The handler of `GetTrajectoryStates` (h/get_trajectory_states_handler.cc 30-42). `order` is the order in which the entries of the response are
visited. -/
def statesResponse (order : List (Int × Int) → List (Int × Int)) (states : List (Int × TrajectoryState)) : List (Int × Int) :=
  order (states.map fun e => (e.1, stateMsg e.2))

/-- The loop of `GetTrajectoryStates` (pg 126-128). -/
def fillStates (m : List (Int × TrajectoryState)) : List (Int × Int) → Option (List (Int × TrajectoryState))
  | [] => some m
  | e :: l => (toState e.2).bind fun s => fillStates (SMap.put e.1 s m) l

/-- `GetTrajectoryStates` (pg 118-130). -/
def readStates (l : List (Int × Int)) : Option (List (Int × TrajectoryState)) := fillStates [] l

/-- `PoseGraph.LandmarkPose` (mapping/proto/pose_graph.proto). -/
structure LandmarkPoseMsg where
  id : String := ""
  pose : Option RigidMsg := none

/-- The handler of `GetLandmarkPoses` (h/get_landmark_poses_handler.cc 30-43). -/
def landmarksResponse (m : List (String × Rigid)) : List LandmarkPoseMsg := m.map fun e => { id := e.1, pose := some (rigidMsg e.2) }

/-- `GetLandmarkPoses` (pg 132-144). -/
def readLandmarks (l : List LandmarkPoseMsg) : List (String × Rigid) :=
  l.foldl (fun m e => SMap.put e.id (toRigid (e.pose.getD {})) m) []

/-- `PoseGraphInterface::Constraint` (pose_graph_interface.h 36-53). -/
structure Constraint where
  submap : Id
  node : Id
  pose : Rigid
  translationWeight : ℚ
  rotationWeight : ℚ
  intra : Bool
  deriving DecidableEq

/-- `PoseGraph.Constraint` (mapping/proto/pose_graph.proto 33-52). -/
structure ConstraintMsg where
  submap : Option IdMsg := none
  node : Option IdMsg := none
  pose : Option RigidMsg := none
  translationWeight : ℚ := 0
  rotationWeight : ℚ := 0
  tag : Int := 0

/-- `ToProto` of constraints and tags (mapping/pose_graph.cc 27-36, 117-133). -/
def constraintMsg (c : Constraint) : ConstraintMsg :=
  { submap := some (idMsg c.submap), node := some (idMsg c.node), pose := some (rigidMsg c.pose), translationWeight := c.translationWeight,
    rotationWeight := c.rotationWeight, tag := if c.intra then 0 else 1 }

/-- `FromProto` of tags (mapping/pose_graph.cc 38-50); the enum is open. -/
def toTag (n : Int) : Option Bool := if n = 0 then some true else if n = 1 then some false else none

/-- The loop of `FromProto` (mapping/pose_graph.cc 52-70). -/
def readConstraints : List ConstraintMsg → Option (List Constraint)
  | [] => some []
  | m :: l => do
    let tag ← toTag m.tag
    let cs ← readConstraints l
    some (⟨toId (m.submap.getD {}), toId (m.node.getD {}), toRigid (m.pose.getD {}), m.translationWeight, m.rotationWeight, tag⟩ :: cs)

/-! ### Results of local SLAM -/

/-- What the callback for results of local SLAM is given (trajectory_builder_interface.h 50-63): the data inserted is left out of
`InsertionResult`. -/
structure Result where
  trajectory : Int
  time : Ticks.Time
  localPose : Rigid
  rangeData : Messages.RangeData
  inserted : Option Id

/-- `ReceiveLocalSlamResultsResponse` (map_builder_service.proto 120-130). -/
structure ResultMsg where
  trajectory : Int := 0
  timestamp : Int := 0
  localPose : Option RigidMsg := none
  rangeData : Option Messages.RangeDataMsg := none
  inserted : Option (Option IdMsg) := none

/-- `GenerateResponse` (h/receive_local_slam_results_handler.cc 30-47). The range data is always there (map_builder_server.cc 183-184). -/
def resultMsg (r : Result) : ResultMsg :=
  { trajectory := r.trajectory, timestamp := Ticks.toUniversal r.time, localPose := some (rigidMsg r.localPose),
    rangeData := some (Messages.rangeDataMsg r.rangeData), inserted := r.inserted.map fun i => some (idMsg i) }

/-- The body of the loop of `RunLocalSlamResultsReader` (tb 154-168). -/
def readResult (m : ResultMsg) : Result :=
  { trajectory := m.trajectory, time := Ticks.fromUniversal m.timestamp, localPose := toRigid (m.localPose.getD {}),
    rangeData := Messages.toRangeData (m.rangeData.getD {}), inserted := m.inserted.map fun i => toId (i.getD {}) }

/-! ### Landmarks -/

/-- `LandmarkNode` as far as it is set by `SetLandmarkPose`: the pose and whether it is frozen (mapping/internal/2d/pose_graph_2d.cc 985-994). -/
abbrev Landmarks := List (String × (Rigid × Bool))

/-- The work item of `PoseGraph2D::SetLandmarkPose` (pose_graph_2d.cc 988-993). -/
def setLandmark (m : Landmarks) (id : String) (pose : Rigid) (frozen : Bool) : Landmarks := SMap.put id (pose, frozen) m

/-- `PoseGraphStub::SetLandmarkPose` (pg 146-156): the request has no field for `frozen`. -/
def landmarkRequest (id : String) (pose : Rigid) (_frozen : Bool) : LandmarkPoseMsg := { id := id, pose := some (rigidMsg pose) }

/-- The handler (h/set_landmark_pose_handler.cc 29-38); `frozen` has the default of pose_graph_interface.h 133. -/
def handleLandmark (m : Landmarks) (r : LandmarkPoseMsg) : Landmarks := setLandmark m r.id (toRigid (r.pose.getD {})) false

/-! ### Saving -/

variable {P O : Type}

/-- `WriteStateResponse` (map_builder_service.proto): a header or serialized data. -/
inductive StateChunk (P O : Type) where
  | header (r : Record P O)
  | data (r : Record P O)

/-- Whether a record is a `SerializationHeader`; the others are `SerializedData`. -/
def isHeader : Record P O → Bool
  | .header _ => true
  | _ => false

/-- The callback of the writer in the handler (h/write_state_handler.cc 32-50). -/
def chunkOf (r : Record P O) : StateChunk P O := if isHeader r then .header r else .data r

/-- The handler of `WriteState` (h/write_state_handler.cc 29-54). -/
def writeStateResponses (s : Snapshot P O) : Option (List (StateChunk P O)) := (Serialization.save false s).map fun rs => rs.map chunkOf

/-- The loop of `MapBuilderStub::SerializeState` (mb 142-153). -/
def readStateChunk : StateChunk P O → Record P O
  | .header r => r
  | .data r => r

/-- `MapBuilderStub::SerializeState` (mb 132-154). -/
def remoteSave (_includeUnfinished : Bool) (s : Snapshot P O) : Option (List (Record P O)) :=
  (writeStateResponses s).map fun cs => cs.map readStateChunk

/-! ### Loading -/

/-- The `oneof` of `LoadStateRequest` (map_builder_service.proto 143-150). -/
inductive LoadChunk (P O : Type) where
  | clientId (c : String)
  | header (version : Nat)
  | data (r : Record P O)

/-- `LoadStateRequest`. -/
structure LoadRequest (P O : Type) where
  chunk : LoadChunk P O
  frozen : Bool := false

/-- The requests of `MapBuilderStub::LoadState` (mb 175-215). -/
def loadRequests (client : String) (frozen : Bool) (records : List (Record P O)) : Option (List (LoadRequest P O)) := do
  let (v, p, os, rest) ← deserialize records
  some ([⟨.clientId client, false⟩, ⟨.header v, frozen⟩, ⟨.data (.poseGraph p), frozen⟩, ⟨.data (.options os), frozen⟩] ++
    rest.map fun r => ⟨.data r, frozen⟩)

/-- The members of `LoadStateHandler` (h/load_state_handler.h). -/
structure LoadHandler (P O : Type) where
  reader : List (Record P O) := []
  client : String := ""
  frozen : Bool := false

/-- `LoadStateHandler::OnRequest` (h/load_state_handler.cc 29-44). -/
def onLoadRequest (h : LoadHandler P O) (r : LoadRequest P O) : LoadHandler P O :=
  let h := match r.chunk with
    | .data d => { h with reader := h.reader ++ [d] }
    | .header v => { h with reader := h.reader ++ [Record.header v] }
    | .clientId c => { h with client := c }
  { h with frozen := r.frozen }

/-- The loop that registers the client for the trajectories loaded (h/load_state_handler.cc 50-53) with `RegisterClientIdForTrajectory`
(cloud/internal/map_builder_context_impl.h 110-117). -/
def register (client : String) (clients : List (Int × String)) : List (Int × Int) → Option (List (Int × String))
  | [] => some clients
  | e :: l => if (SMap.get? e.2 clients).isSome then none else register client (SMap.put e.2 client clients) l

/-- `LoadStateHandler::OnReadsDone` (h/load_state_handler.cc 46-57), with `n` trajectories existing. -/
def onLoadDone (n : Int) (use3d : Bool) (clients : List (Int × String)) (h : LoadHandler P O) :
    Option (Loaded P O × List (Int × String)) := do
  let l ← Serialization.load n use3d h.frozen h.reader
  let clients ← register h.client clients l.remap
  some (l, clients)

/-- `FromProto(TrajectoryRemapping)` (cloud/internal/mapping/serialization.cc 69-73) of the remapping in the response, visited in some order; of
entries with equal keys the first is kept. -/
def readRemapping (l : List (Int × Int)) : List (Int × Int) :=
  l.foldl (fun m e => if (SMap.get? e.1 m).isSome then m else SMap.put e.1 e.2 m) []

/-- `MapBuilderStub::LoadState` (mb 175-221) with the handler: what it returns, what happened on the server and the clients registered there. -/
def remoteLoad (client : String) (n : Int) (use3d frozen : Bool) (order : List (Int × Int) → List (Int × Int)) (clients : List (Int × String))
    (records : List (Record P O)) : Option (List (Int × Int) × Loaded P O × List (Int × String)) := do
  let requests ← loadRequests client frozen records
  let (l, clients) ← onLoadDone n use3d clients (requests.foldl onLoadRequest {})
  some (readRemapping (order l.remap), l, clients)

end Verif.ClientStub
