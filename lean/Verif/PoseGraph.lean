import Verif.MapByIdRun

/-!
# The pose graph

Model of the data of `PoseGraph2D` (cartographer/mapping/internal/2d/pose_graph_2d.cc, abbreviated pg2d) and
of everything that changes it: the public operations, the work items, the delivery of found constraints,
deletion of trajectories and the trimmers.  `PoseGraph3D` has the same code for all of it.

Every block that runs under `mutex_` is one step.  Work items run one after the other on a worker (the
work queue itself is `Verif.PoseGraphScheduling`); public operations run at any time in between, also between
the blocks of one item.  `none` is a failing `CHECK`, `LOG(FATAL)` or an exception of `at`.

Simplifications: poses, times, landmarks and sensor data are left out except for the pose of a constraint,
which is carried along (type `P`).  A node set is a list used as a set.  The trajectory connectivity is
`Verif.TrajectoryConnectivity` and left out here.
-/

namespace Verif.PoseGraph

open MapById (Id Map at? append insert trim assign contains sizeOfTrajectoryOrZero flat)

/-- `PoseGraphInterface::TrajectoryState` (pose_graph_interface.h:87). -/
inductive TrajectoryState where
  | active
  | finished
  | frozen
  | deleted
  deriving DecidableEq, Repr

/-- `InternalTrajectoryState::DeletionState` (pose_graph_data.h:40-44). -/
inductive DeletionState where
  | normal
  | scheduled
  | waiting
  deriving DecidableEq, Repr

/-- `InternalTrajectoryState` (pose_graph_data.h:39-50). -/
structure TrajState where
  state : TrajectoryState := .active
  deletion : DeletionState := .normal
  deriving DecidableEq, Repr

/-- `InternalSubmapData` (pose_graph_data.h:52-62): the identity of the submap pointer, whether `state` is
`kFinished` and `node_ids`. -/
structure Submap where
  ptr : Nat
  finished : Bool := false
  nodeIds : List Id := []
  deriving DecidableEq, Repr

/-- `PoseGraphInterface::Constraint` (pose_graph_interface.h:35-52); `intra` is `tag == INTRA_SUBMAP`. -/
structure Constraint (P : Type) where
  submap : Id
  node : Id
  pose : P
  intra : Bool

/-- The trimmers of `trimmers_`: `PureLocalizationTrimmer` with its members
(pose_graph_trimmer.h:69-81), and any other trimmer, which may trim whatever it wants. -/
inductive Trimmer where
  | pureLocalization (t : Int) (keep : Nat) (done : Bool)
  | other
  deriving DecidableEq, Repr

/-- The work items, named after the functions that add them. -/
inductive Item (P : Type) where
  /-- `AddNode` (pg2d:166-169). -/
  | computeConstraints (node : Id) (ins : List Nat) (newlyFinished : Bool)
  /-- `AddImuData`, `AddOdometryData`, `AddFixedFramePoseData`, `AddLandmarkData`, `SetTrajectoryDataFromProto`. -/
  | data (t : Int)
  /-- `FinishTrajectory` (pg2d:636-645). -/
  | finish (t : Int)
  /-- `FreezeTrajectory` (pg2d:659-680). -/
  | freeze (t : Int)
  /-- `DeleteTrajectory` (pg2d:621-632). -/
  | delete (t : Int)
  /-- `AddSubmapFromProto` (pg2d:721-728). -/
  | submapFromProto (id : Id)
  /-- `AddNodeFromProto` (pg2d:746-761). -/
  | nodeFromProto (id : Id)
  /-- `AddNodeToSubmap` (pg2d:788-794). -/
  | nodeToSubmap (node submap : Id)
  /-- `AddSerializedConstraints` (pg2d:799-829). -/
  | serialized (cs : List (Constraint P))
  /-- `AddTrimmer` (pg2d:835-839). -/
  | addTrimmer (tr : Trimmer)

/-- What the worker is doing. -/
inductive Worker (P : Type) where
  /-- Between two items. -/
  | idle
  /-- In the loops of `ComputeConstraintsForNode` (pg2d:377-393): the calls `ComputeConstraint(node, submap)`
  left to do. -/
  | searching (todo : List (Id × Id))
  /-- In `HandleWorkQueue` between `RunOptimization` and the block that trims (pg2d:452-481), with the result
  of the constraint builder. -/
  | optimized (result : List (Constraint P))

/-- `PoseGraphData` (pose_graph_data.h:62-87), the ids known to the optimization problem
(optimization_problem_2d.h:109-110), the constraint searches under way (node, submap), the trimmers, the work
queue and the items created by a public function that has not put them into the queue yet. -/
structure State (P : Type) where
  submaps : Map Submap := []
  nodes : Map Unit := []
  constraints : List (Constraint P) := []
  trajs : List (Int × TrajState) := []
  optSubmaps : Map Unit := []
  optNodes : Map Unit := []
  searches : List (Id × Id) := []
  trimmers : List Trimmer := []
  queue : List (Item P) := []
  inflight : List (Item P) := []
  worker : Worker P := .idle

variable {P : Type}

/-- `data_.trajectories_state[t]` read, default constructed if missing. -/
def trajOf (l : List (Int × TrajState)) (t : Int) : TrajState := (SMap.get? t l).getD {}

/-- `data_.trajectories_state[t].state = x`. -/
def setTraj (l : List (Int × TrajState)) (t : Int) (x : TrajectoryState) : List (Int × TrajState) :=
  SMap.put t { trajOf l t with state := x } l

/-- `data_.trajectories_state.at(t).deletion_state = x`. -/
def setDeletion (l : List (Int × TrajState)) (t : Int) (x : DeletionState) : List (Int × TrajState) :=
  SMap.put t { trajOf l t with deletion := x } l

/-- `IsTrajectoryFinished` (pg2d:648-652). -/
def isFinished (l : List (Int × TrajState)) (t : Int) : Bool :=
  (SMap.get? t l).any (fun s => s.state == .finished)

/-- `IsTrajectoryFrozen` (pg2d:683-687). -/
def isFrozen (l : List (Int × TrajState)) (t : Int) : Bool :=
  (SMap.get? t l).any (fun s => s.state == .frozen)

/-- `CanAddWorkItemModifying` (pg2d:911-937): true, or `LOG(FATAL)`. -/
def canModify (l : List (Int × TrajState)) (t : Int) : Bool :=
  match SMap.get? t l with
  | none => true
  | some s =>
    if s.state = .finished then false
    else if s.deletion ≠ .normal then false
    else if s.state = .deleted then false
    else true

/-- `AddTrajectoryIfNeeded` (pg2d:192-207) without connectivity and samplers. -/
def addTrajectoryIfNeeded (l : List (Int × TrajState)) (t : Int) : Option (List (Int × TrajState)) :=
  let l' := SMap.put t (trajOf l t) l
  if (trajOf l t).state = .finished then none
  else if (trajOf l t).state = .deleted then none
  else if (trajOf l t).deletion ≠ .normal then none
  else some l'

/-- The ids of trajectory `t` in order, `MapById::trajectory` (id.h:371-378). -/
def idsOf {D : Type} (m : Map D) (t : Int) : List Id :=
  ((SMap.get? t m).elim [] (·.data)).map (fun e => (t, e.1))

/-- `std::prev(m.EndOfTrajectory(t))->id`; `none` if the trajectory is missing. -/
def lastId {D : Type} (m : Map D) (t : Int) : Option Id := (idsOf m t).getLast?

/-- The pointer stored in `data_.submap_data.at(id)`. -/
def ptrAt (m : Map Submap) (id : Id) : Option Nat := (at? m id).map (·.ptr)

/-! ### The public operations -/

/-- `AppendNode` (pg2d:126-152); `insertion_submaps` is not empty. -/
def appendNode (s : State P) (t : Int) (ins : List Nat) : Option (State P × Id) := do
  let trajs ← addTrajectoryIfNeeded s.trajs t
  guard (canModify trajs t)
  let (nodes, id) ← append s.nodes t ()
  let back ← ins.getLast?
  if sizeOfTrajectoryOrZero s.submaps t = 0 ∨ (lastId s.submaps t).bind (ptrAt s.submaps) ≠ some back then
    let (submaps, _) ← append s.submaps t { ptr := back }
    some ({ s with
      trajs := trajs
      nodes := nodes
      submaps := submaps }, id)
  else
    some ({ s with
      trajs := trajs
      nodes := nodes }, id)

/-- The part of `AddNode` (pg2d:154-172) before the work item is queued. -/
def addNode (s : State P) (t : Int) (ins : List Nat) (newlyFinished : Bool) : Option (State P) := do
  let (s', id) ← appendNode s t ins
  some { s' with
    inflight := s'.inflight ++ [.computeConstraints id ins newlyFinished] }

/-- The part of `DeleteTrajectory` (pg2d:609-620) before the work item is queued. -/
def deleteTrajectory (s : State P) (t : Int) : State P :=
  match SMap.get? t s.trajs with
  | none => s
  | some _ => { s with
      trajs := setDeletion s.trajs t .scheduled
      inflight := s.inflight ++ [.delete t] }

/-- The part of `AddSubmapFromProto` (pg2d:689-711) before the work item is queued. -/
def addSubmapFromProto (s : State P) (id : Id) (ptr : Nat) : Option (State P) := do
  let trajs ← addTrajectoryIfNeeded s.trajs id.1
  guard (canModify trajs id.1)
  let submaps ← insert s.submaps id { ptr := ptr }
  some { s with
    trajs := trajs
    submaps := submaps
    inflight := s.inflight ++ [.submapFromProto id] }

/-- The part of `AddNodeFromProto` (pg2d:731-744) before the work item is queued. -/
def addNodeFromProto (s : State P) (id : Id) : Option (State P) := do
  let trajs ← addTrajectoryIfNeeded s.trajs id.1
  guard (canModify trajs id.1)
  let nodes ← insert s.nodes id ()
  some { s with
    trajs := trajs
    nodes := nodes
    inflight := s.inflight ++ [.nodeFromProto id] }

/-! ### Work items -/

/-- The first submap of a trajectory gets an entry in the optimization problem (pg2d:82-95). -/
def addFirstSubmap (opt : Map Unit) (t : Int) : Option (Map Unit) :=
  if sizeOfTrajectoryOrZero opt t = 0 then (append opt t ()).map (·.1) else some opt

/-- `InitializeGlobalSubmapPoses` (pg2d:75-124): the new optimization problem and the submap ids. -/
def initializeGlobalSubmapPoses (s : State P) (t : Int) (ins : List Nat) : Option (Map Unit × List Id) :=
  match ins with
  | [p] => do
    let opt ← addFirstSubmap s.optSubmaps t
    guard (sizeOfTrajectoryOrZero opt t = 1)
    guard (ptrAt s.submaps (t, 0) = some p)
    some (opt, [(t, 0)])
  | [p, q] => do
    let last ← lastId s.optSubmaps t
    let lastPtr ← ptrAt s.submaps last
    if lastPtr = p then
      let (opt, _) ← append s.optSubmaps t ()
      some (opt, [last, (t, last.2 + 1)])
    else
      guard (lastPtr = q)
      guard (ptrAt s.submaps (t, last.2 - 1) = some p)
      some (s.optSubmaps, [(t, last.2 - 1), last])
  | _ => none

/-- `node_ids.insert(n)`. -/
def setInsert (n : Id) (l : List Id) : List Id := if n ∈ l then l else l ++ [n]

/-- One turn of the loop over the insertion submaps (pg2d:343-361). -/
def insertIntra (s : State P) (node id : Id) (pose : P) : Option (State P) := do
  let sm ← at? s.submaps id
  guard (sm.finished = false)
  let submaps ← assign s.submaps id { sm with nodeIds := setInsert node sm.nodeIds }
  some { s with
    submaps := submaps
    constraints := s.constraints ++ [⟨id, node, pose, true⟩] }

/-- The loop over the insertion submaps; `poses` are the constraint transforms. -/
def insertIntras (s : State P) (node : Id) : List Id → List P → Option (State P)
  | [], _ => some s
  | id :: ids, pose :: poses => do
    let s ← insertIntra s node id pose
    insertIntras s node ids poses
  | _ :: _, [] => none

/-- The ids of the finished submaps (pg2d:367-372). -/
def finishedIds (m : Map Submap) : List Id := ((flat m).filter (fun e => e.2.finished)).map (·.1)

/-- `data_.submap_data.at(id).state = kFinished`. -/
def markFinished (m : Map Submap) (id : Id) : Option (Map Submap) := do
  let sm ← at? m id
  assign m id { sm with finished := true }

/-- `ComputeConstraintsForNode` up to the searches (pg2d:312-376); the searches it will ask for are left
to the worker. -/
def computeConstraints (s : State P) (node : Id) (ins : List Nat) (newlyFinished : Bool) (poses : List P) :
    Option (State P) := do
  let _ ← at? s.nodes node
  let (opt, ids) ← initializeGlobalSubmapPoses s node.1 ins
  guard (ids.length = ins.length)
  let matching ← ids.head?
  let _ ← at? opt matching
  let (optNodes, _) ← append s.optNodes matching.1 ()
  let s ← insertIntras { s with
    optSubmaps := opt
    optNodes := optNodes } node ids poses
  guard ((flat s.submaps).all (fun e => !(e.2.finished && decide (node ∈ e.2.nodeIds))))
  let finished := (finishedIds s.submaps).map (fun id => (node, id))
  if newlyFinished then
    let sm ← at? s.submaps matching
    guard (sm.finished = false)
    let submaps ← markFinished s.submaps matching
    let old := ((flat s.optNodes).map (·.1)).filter (fun n => n ∉ sm.nodeIds)
    some { s with
      submaps := submaps
      worker := .searching (finished ++ old.map (fun n => (n, matching))) }
  else
    some { s with
      worker := .searching finished }

/-- `FinishTrajectory`: all submaps of the trajectory are finished (pg2d:641-643). -/
def markAll (m : Map Submap) : List Id → Option (Map Submap)
  | [] => some m
  | id :: ids => do
    let m ← markFinished m id
    markAll m ids

/-- One turn of the loop of `AddSerializedConstraints` (pg2d:802-826). -/
def addSerialized (s : State P) (c : Constraint P) : Option (State P) := do
  guard (contains s.nodes c.node)
  guard (contains s.submaps c.submap)
  let sm ← at? s.submaps c.submap
  if c.intra then
    guard (c.node ∉ sm.nodeIds)
    let submaps ← assign s.submaps c.submap { sm with nodeIds := setInsert c.node sm.nodeIds }
    some { s with
      submaps := submaps
      constraints := s.constraints ++ [c] }
  else
    some { s with
      constraints := s.constraints ++ [c] }

/-- The loop of `AddSerializedConstraints`. -/
def addSerializedAll (s : State P) : List (Constraint P) → Option (State P)
  | [] => some s
  | c :: cs => do
    let s ← addSerialized s c
    addSerializedAll s cs

/-- Runs a work item (up to the searches of `ComputeConstraintsForNode`). -/
def runItem (s : State P) (poses : List P) : Item P → Option (State P)
  | .computeConstraints node ins newlyFinished => computeConstraints s node ins newlyFinished poses
  | .data t => if canModify s.trajs t then some s else none
  | .finish t => do
    guard (isFinished s.trajs t = false)
    let submaps ← markAll s.submaps (idsOf s.submaps t)
    some { s with
      trajs := setTraj s.trajs t .finished
      submaps := submaps }
  | .freeze t => do
    guard (isFrozen s.trajs t = false)
    some { s with
      trajs := setTraj s.trajs t .frozen }
  | .delete t => do
    let ts ← SMap.get? t s.trajs
    guard (ts.state ≠ .active)
    guard (ts.state ≠ .deleted)
    guard (ts.deletion = .scheduled)
    some { s with
      trajs := setDeletion s.trajs t .waiting }
  | .submapFromProto id => do
    let submaps ← markFinished s.submaps id
    let opt ← insert s.optSubmaps id ()
    some { s with
      submaps := submaps
      optSubmaps := opt }
  | .nodeFromProto id => do
    let _ ← at? s.nodes id
    let opt ← insert s.optNodes id ()
    some { s with
      optNodes := opt }
  | .nodeToSubmap node id =>
    if canModify s.trajs id.1 then do
      let sm ← at? s.submaps id
      let submaps ← assign s.submaps id { sm with nodeIds := setInsert node sm.nodeIds }
      some { s with
        submaps := submaps }
    else none
  | .serialized cs => addSerializedAll s cs
  | .addTrimmer tr => some { s with
      trimmers := s.trimmers ++ [tr] }

/-- The largest of a set of node ids, `*node_ids.rbegin()`. -/
def lastNode : List Id → Option Id
  | [] => none
  | n :: l =>
    match lastNode l with
    | none => some n
    | some m => some (if MapById.idLt m n then n else m)

/-- `GetLatestNodeTime` (pg2d:404-417): whether it gets through. -/
def latestNodeTime (s : State P) (node id : Id) : Option Unit := do
  let _ ← at? s.nodes node
  let sm ← at? s.submaps id
  match lastNode sm.nodeIds with
  | none => some ()
  | some n => at? s.nodes n

/-- What `ComputeConstraint` does with a pair: nothing because the submap is not finished, nothing after
having looked at the times, a search in a local window, or a global one. -/
inductive Search where
  | skip
  | sampledOut
  | locally
  | globally
  deriving DecidableEq, Repr

/-- `ComputeConstraint` (pg2d:261-310); which branch is taken is left open. -/
def computeConstraint (s : State P) (node id : Id) (how : Search) : Option (State P) := do
  let sm ← at? s.submaps id
  guard (sm.finished = true)
  match how with
  | .skip => some s
  | .sampledOut => do
    let _ ← latestNodeTime s node id
    some s
  | .locally => do
    let _ ← latestNodeTime s node id
    let _ ← at? s.optSubmaps id
    let _ ← at? s.optNodes node
    some { s with
      searches := s.searches ++ [(node, id)] }
  | .globally => do
    let _ ← latestNodeTime s node id
    some { s with
      searches := s.searches ++ [(node, id)] }

/-! ### Trimming -/

/-- `nodes_to_retain` (pg2d:1221-1227). -/
def nodesToRetain (m : Map Submap) (id : Id) : List Id :=
  ((flat m).filter (fun e => e.1 ≠ id)).flatMap (fun e => e.2.nodeIds)

/-- `nodes_to_remove` (pg2d:1230-1234). -/
def nodesToRemove (m : Map Submap) (id : Id) (nodeIds : List Id) : List Id :=
  nodeIds.filter (fun n => n ∉ nodesToRetain m id)

/-- Trimming a list of ids out of a map (pg2d:1296-1299). -/
def trimAll {D : Type} (m : Map D) : List Id → Option (Map D)
  | [] => some m
  | id :: ids => do
    let m ← trim m id
    trimAll m ids

/-- The submaps whose scan matchers are deleted (pg2d:1249-1278, 1284). -/
def matchersToDelete (s : State P) (id : Id) : List Id :=
  match at? s.submaps id with
  | none => []
  | some sm =>
    let rm := nodesToRemove s.submaps id sm.nodeIds
    let cs := s.constraints.filter (fun c => c.submap ≠ id)
    let losing := (cs.filter (fun c => c.node ∈ rm)).map (·.submap)
    let left := ((cs.filter (fun c => c.node ∉ rm)).filter (fun c => !c.intra)).map (·.submap)
    losing.filter (fun i => i ∉ left) ++ [id]

/-- `TrimmingHandle::TrimSubmap` (pg2d:1207-1299). -/
def trimSubmap (s : State P) (id : Id) : Option (State P) := do
  let sm ← at? s.submaps id
  guard (sm.finished = true)
  let rm := nodesToRemove s.submaps id sm.nodeIds
  let cs := s.constraints.filter (fun c => c.submap ≠ id)
  let cs := cs.filter (fun c => c.node ∉ rm)
  let submaps ← trim s.submaps id
  let optSubmaps ← trim s.optSubmaps id
  let nodes ← trimAll s.nodes rm
  let optNodes ← trimAll s.optNodes rm
  some { s with
    submaps := submaps
    nodes := nodes
    constraints := cs
    optSubmaps := optSubmaps
    optNodes := optNodes }

/-- Several calls of `TrimSubmap`. -/
def trimSubmaps (s : State P) : List Id → Option (State P)
  | [] => some s
  | id :: ids => do
    let s ← trimSubmap s id
    trimSubmaps s ids

/-- The body of the loop of `DeleteTrajectoriesIfNeeded` (pg2d:429-441). -/
def deleteIfNeeded (s : State P) (t : Int) : Option (State P) :=
  if (trajOf s.trajs t).deletion = .waiting then do
    let s ← trimSubmaps s (idsOf s.optSubmaps t)
    some { s with
      trajs := SMap.put t ⟨.deleted, .normal⟩ s.trajs }
  else some s

/-- `DeleteTrajectoriesIfNeeded` (pg2d:427-442) over the trajectories `ts`. -/
def deleteTrajectories (s : State P) : List Int → Option (State P)
  | [] => some s
  | t :: ts => do
    let s ← deleteIfNeeded s t
    deleteTrajectories s ts

/-- `PureLocalizationTrimmer::Trim` (pose_graph_trimmer.cc:31-47): the new state and members. -/
def pureLocalizationTrim (s : State P) (t : Int) (keep : Nat) (done : Bool) : Option (State P × Trimmer) := do
  let keep := if isFinished s.trajs t then 0 else keep
  let ids := idsOf s.optSubmaps t
  let s ← trimSubmaps s (ids.take (ids.length - keep))
  if keep = 0 then
    some ({ s with
      trajs := setTraj s.trajs t .deleted }, .pureLocalization t keep true)
  else some (s, .pureLocalization t keep done)

/-- `trimmer->Trim(&trimming_handle)`; `choice` is what another trimmer trims. -/
def runTrimmer (s : State P) (choice : List Id) : Trimmer → Option (State P × Trimmer)
  | .pureLocalization t keep done => pureLocalizationTrim s t keep done
  | .other => do
    let s ← trimSubmaps s choice
    some (s, .other)

/-- `IsFinished` of a trimmer (pose_graph_trimmer.cc:49). -/
def trimmerDone : Trimmer → Bool
  | .pureLocalization _ _ done => done
  | .other => false

/-- The loop over the trimmers (pg2d:488-490). -/
def runTrimmers (s : State P) : List Trimmer → List (List Id) → Option (State P × List Trimmer)
  | [], _ => some (s, [])
  | tr :: trs, cs => do
    let (s, tr) ← runTrimmer s (cs.headD []) tr
    let (s, trs) ← runTrimmers s trs cs.tail
    some (s, tr :: trs)

/-- `HandleWorkQueue` up to the callback: the constraints found are added (pg2d:444-451) and
`RunOptimization` writes the poses of all nodes of the optimization problem back (pg2d:875-882). -/
def optimize (s : State P) (result : List (Constraint P)) : Option (State P) :=
  if (flat s.optSubmaps).isEmpty ∨ (flat s.optNodes).all (fun e => (at? s.nodes e.1).isSome) then
    some { s with
      constraints := s.constraints ++ result
      searches := []
      worker := .optimized result }
  else none

/-- The calls of `UpdateTrajectoryConnectivity` (pg2d:483-485). -/
def updateConnectivity (s : State P) : List (Constraint P) → Option Unit
  | [] => some ()
  | c :: cs => do
    let _ ← latestNodeTime s c.node c.submap
    updateConnectivity s cs

/-- The last block of `HandleWorkQueue` (pg2d:481-516). -/
def handleTrimming (s : State P) (result : List (Constraint P)) (choices : List (List Id)) :
    Option (State P) := do
  let _ ← updateConnectivity s result
  let s ← deleteTrajectories s (s.trajs.map (·.1))
  let (s, trs) ← runTrimmers s s.trimmers choices
  some { s with
    trimmers := trs.filter (fun tr => !trimmerDone tr) }

/-! ### The machine -/

/-- The steps: public operations, queueing an item, and the worker. -/
inductive Act (P : Type) where
  | addNode (t : Int) (ins : List Nat) (newlyFinished : Bool)
  | addSubmapFromProto (id : Id) (ptr : Nat)
  | addNodeFromProto (id : Id)
  | deleteTrajectory (t : Int)
  /-- A public function that only adds a work item. -/
  | post (item : Item P)
  /-- `AddWorkItem` for the `k`-th item in flight. -/
  | enqueue (k : Nat)
  /-- The worker runs the first item of the queue. -/
  | run (poses : List P)
  /-- The worker calls `ComputeConstraint` for the next pair. -/
  | search (how : Search)
  /-- The worker leaves `ComputeConstraintsForNode`. -/
  | endSearch
  /-- The constraint builder calls back with its result. -/
  | optimize (result : List (Constraint P))
  /-- The block that trims; `choices` are the choices of other trimmers. -/
  | trim (choices : List (List Id))

/-- Items posted by functions that do nothing else: `AddNode`, `AddSubmapFromProto`, `AddNodeFromProto` and
`DeleteTrajectory` create their items themselves.  A new `PureLocalizationTrimmer` is not finished and keeps at
least two submaps (pose_graph_trimmer.cc:24-29). -/
def Item.free : Item P → Bool
  | .computeConstraints .. => false
  | .submapFromProto .. => false
  | .nodeFromProto .. => false
  | .delete .. => false
  | .addTrimmer (.pureLocalization _ keep done) => decide (2 ≤ keep) && !done
  | _ => true

/-- When a step is possible.  A result consists of constraints found by the searches that were started. -/
def Enabled (s : State P) : Act P → Prop
  | .addNode _ ins _ => ins ≠ []
  | .addSubmapFromProto .. => True
  | .addNodeFromProto .. => True
  | .deleteTrajectory .. => True
  | .post item => item.free = true
  | .enqueue k => k < s.inflight.length
  | .run _ => s.worker = .idle ∧ s.queue ≠ []
  | .search _ => ∃ p todo, s.worker = .searching (p :: todo)
  | .endSearch => s.worker = .searching []
  | .optimize result => s.worker = .idle ∧ ∀ c ∈ result, c.intra = false ∧ (c.node, c.submap) ∈ s.searches
  | .trim _ => ∃ result, s.worker = .optimized result

/-- The effect of a step. -/
def exec (s : State P) : Act P → Option (State P)
  | .addNode t ins nf => addNode s t ins nf
  | .addSubmapFromProto id ptr => addSubmapFromProto s id ptr
  | .addNodeFromProto id => addNodeFromProto s id
  | .deleteTrajectory t => some (deleteTrajectory s t)
  | .post item => some { s with
      inflight := s.inflight ++ [item] }
  | .enqueue k =>
    match s.inflight[k]? with
    | none => none
    | some item => some { s with
        queue := s.queue ++ [item]
        inflight := s.inflight.eraseIdx k }
  | .run poses =>
    match s.queue with
    | [] => none
    | item :: queue => runItem { s with
        queue := queue } poses item
  | .search how =>
    match s.worker with
    | .searching ((node, id) :: todo) => computeConstraint { s with
        worker := .searching todo } node id how
    | _ => none
  | .endSearch => some { s with
      worker := .idle }
  | .optimize result => optimize s result
  | .trim choices =>
    match s.worker with
    | .optimized result => handleTrimming { s with
        worker := .idle } result choices
    | _ => none

/-- Executions that do not abort. -/
inductive Exec : State P → List (Act P) → State P → Prop where
  | nil {s} : Exec s [] s
  | snoc {s as t a t'} : Exec s as t → Enabled t a → exec t a = some t' → Exec s (as ++ [a]) t'

/-! ### Serialization -/

/-- What `ToProto` writes about one trajectory (pose_graph.proto, trajectory.proto): the submap indices and
the node indices. -/
structure TrajectoryProto where
  id : Int
  submaps : List Int := []
  nodes : List Int := []
  deriving DecidableEq, Repr

/-- The serialized pose graph. -/
structure Proto (P : Type) where
  trajectories : List TrajectoryProto := []
  constraints : List (Constraint P) := []

/-- `trajectory(t)` of `ToProto` (pose_graph.cc:139-147): adds an entry for the trajectory unless there is one. -/
def protoTrajectory (l : List TrajectoryProto) (t : Int) : List TrajectoryProto :=
  if t ∈ l.map (·.id) then l else l ++ [{ id := t }]

/-- Changes the entry of a trajectory. -/
def protoModify (l : List TrajectoryProto) (t : Int) (f : TrajectoryProto → TrajectoryProto) :
    List TrajectoryProto :=
  (protoTrajectory l t).map (fun e => if e.id = t then f e else e)

/-- The loop over the submaps (pose_graph.cc:150-165): the trajectories and the unfinished submaps.
`fin` is `submap->insertion_finished()`. -/
def protoSubmaps (includeUnfinished : Bool) (fin : Nat → Bool) :
    List (Id × Submap) → List TrajectoryProto → List Id → List TrajectoryProto × List Id
  | [], l, u => (l, u)
  | e :: es, l, u =>
    if includeUnfinished = false ∧ fin e.2.ptr = false then
      protoSubmaps includeUnfinished fin es (protoTrajectory l e.1.1) (e.1 :: u)
    else
      protoSubmaps includeUnfinished fin es
        (protoModify l e.1.1 (fun p => { p with submaps := p.submaps ++ [e.1.2] })) u

/-- The loop over the nodes (pose_graph.cc:194-204). -/
def protoNodes : List (Id × Unit) → List TrajectoryProto → List TrajectoryProto
  | [], l => l
  | e :: es, l => protoNodes es (protoModify l e.1.1 (fun p => { p with nodes := p.nodes ++ [e.1.2] }))

/-- `PoseGraph::ToProto` (pose_graph.cc:135-210).  It reads the submaps, the constraints and the nodes under
the lock one after the other; the state may have changed in between. -/
def toProto (includeUnfinished : Bool) (fin : Nat → Bool) (s₁ s₂ s₃ : State P) : Proto P :=
  let (l, u) := protoSubmaps includeUnfinished fin (flat s₁.submaps) [] []
  { trajectories := protoNodes (flat s₃.nodes) l
    constraints := s₂.constraints.filter
      (fun c => !(includeUnfinished == false && decide (c.submap ∈ u))) }

end Verif.PoseGraph
