import Mathlib.Logic.Function.Basic

/-!
# Accesses to shared data of the pose graph

Model of which thread touches which member of `PoseGraph2D`, of its optimization problem and of its constraint builder, and of
what it holds while doing so (`mapping/internal/2d/pose_graph_2d.{h,cc}`, `mapping/internal/optimization/optimization_problem_2d.cc`,
`mapping/internal/constraints/constraint_builder_2d.cc`; line numbers without file are those of `pose_graph_2d.cc`).  The 3D classes have
the same structure; where they access more, the union is taken.

Every function becomes the program of its lock operations and accesses.  Conditions may go either way, loops run any number of times,
accesses inside a section come in any order (`touch`).  Values are dropped except those that steer which threads run: whether `work_queue_`
is null, the callback kept by the constraint builder, and the flag `notification` of `WaitForAllComputations`.

Simplifications:
* A member is one location, whatever its size.
* `absl::Mutex::AwaitWithTimeout` gives the lock back and takes it again at any later time.
* A task given to the thread pool is a new thread that starts at any time (see C01 for the order given by dependencies; the result slots
  written by the constraint tasks and the scan matchers are ordered by dependencies only and are left out here).
* The worker runs any work items, not only those that were added.
* `mode` of a thread is a history variable: it never decides what a thread does.
-/

namespace Verif.Races

/-- The mutexes. -/
inductive Lock where
  /-- `PoseGraph2D::mutex_` -/
  | poseGraph
  /-- `PoseGraph2D::work_queue_mutex_` -/
  | workQueue
  /-- `ConstraintBuilder2D::mutex_` -/
  | builder
  deriving DecidableEq, Repr

/-- The shared members. -/
inductive Loc where
  /-- `work_queue_` -/
  | workQueue
  /-- `data_.trajectories_state` -/
  | trajectoriesState
  /-- `data_.submap_data` -/
  | submapData
  /-- `data_.global_submap_poses_2d` -/
  | globalSubmapPoses
  /-- `data_.trajectory_nodes` -/
  | trajectoryNodes
  /-- `data_.num_trajectory_nodes` -/
  | numTrajectoryNodes
  /-- `data_.landmark_nodes` -/
  | landmarkNodes
  /-- `data_.constraints` -/
  | constraints
  /-- `data_.trajectory_connectivity_state` -/
  | connectivity
  /-- `data_.initial_trajectory_poses` -/
  | initialPoses
  /-- `global_localization_samplers_` -/
  | samplers
  /-- `num_nodes_since_last_loop_closure_` -/
  | nodesSinceLoopClosure
  /-- `trimmers_` -/
  | trimmers
  /-- `conversion_tables_` -/
  | conversionTables
  /-- `global_slam_optimization_callback_` -/
  | callback
  /-- `optimization_problem_->submap_data_` -/
  | optSubmaps
  /-- `optimization_problem_->node_data_` -/
  | optNodes
  /-- `optimization_problem_->imu_data_` -/
  | optImu
  /-- `optimization_problem_->odometry_data_` -/
  | optOdometry
  /-- `optimization_problem_->fixed_frame_pose_data_` -/
  | optFixedFrame
  /-- `optimization_problem_->trajectory_data_` -/
  | optTrajectoryData
  /-- `optimization_problem_->landmark_data_` -/
  | optLandmarks
  /-- `optimization_problem_->options_` -/
  | optOptions
  /-- the members of `ConstraintBuilder2D` under its mutex -/
  | builderState
  /-- `ConstraintBuilder2D::per_submap_sampler_` -/
  | builderSamplers
  /-- the local variable `notification` of `WaitForAllComputations`, shared with its callback -/
  | notification
  /-- number of range data, grid and `insertion_finished_` of the submaps that local SLAM is filling -/
  | activeSubmaps
  deriving DecidableEq, Repr

/-- The callbacks given to `ConstraintBuilder2D::WhenDone`: `HandleWorkQueue` (line 540) and the one of `WaitForAllComputations`
(line 589). -/
inductive Callback where
  | handle
  | notify
  deriving DecidableEq, Repr

/-- Programs. -/
inductive Prog where
  | skip
  | seq (p q : Prog)
  /-- one of countably many programs -/
  | any (f : Nat → Prog)
  /-- any number of repetitions -/
  | loop (p : Prog)
  /-- `absl::MutexLock locker(&l); p` in a scope -/
  | lock (l : Lock) (p : Prog)
  /-- `l.AwaitWithTimeout(...)` -/
  | await (l : Lock)
  /-- reads (`false`) or writes (`true`) a location -/
  | acc (w : Bool) (x : Loc)
  /-- `if (work_queue_ == nullptr)` make one and schedule a task that drains it (lines 177-182) -/
  | spawnWorker
  /-- `work_queue_.reset()` (line 527) -/
  | endWork
  /-- goes on only if `work_queue_ == nullptr` (lines 574-583) -/
  | whenNull
  /-- `when_done_ = callback` and a task that will run it (constraint_builder_2d.cc:154-163); aborts if there is one -/
  | whenDone (c : Callback)
  /-- goes on only if the own `notification` is true (lines 598-604) -/
  | seen
  /-- `notification = true` for the thread that asked for it (line 596) -/
  | notify

/-- What is left to do: a program, or the end of a scope that gives a lock back. -/
inductive Frame where
  | run (p : Prog)
  | unlock (l : Lock)

/-- History: what a thread is allowed to do with the work queue. -/
inductive Mode where
  /-- a thread of the application -/
  | client
  /-- has seen that there is no work queue, inside `WaitForAllComputations` -/
  | null
  /-- has asked for the notification -/
  | lent
  /-- runs the work queue: from its creation to its end, through `HandleWorkQueue` -/
  | worker
  /-- runs the callback of `WaitForAllComputations`, before the notification -/
  | notifier
  /-- has ended or handed over its work -/
  | done
  deriving DecidableEq, Repr

/-- A thread: the locks it holds, latest first, whether it is inside `Await`, the frames left, and the thread to notify. -/
structure Thread where
  held : List Lock
  wait : Option Lock
  stack : List Frame
  owner : Nat
  mode : Mode

/-- The state.  `queue` tells whether `work_queue_` exists, `slot` is `when_done_` with the thread that registered it, `flags` are the
variables `notification`. -/
structure State where
  threads : List Thread
  queue : Bool
  slot : Option (Callback × Nat)
  flags : Nat → Bool

/-- What a step of a thread does to the rest of the state. -/
inductive Effect where
  | none
  | spawn
  | endWork
  | whenDone (c : Callback)
  | notify

/-- What a thread sees of the rest of the state. -/
structure Env where
  free : Lock → Bool
  queue : Bool
  pending : Bool
  seen : Bool

/-- A step of a program; `n` resolves choices. -/
def pstep (e : Env) (n : Nat) (t : Thread) (k : List Frame) : Prog → Option (Thread × Effect)
  | .skip => some ({ t with stack := k }, .none)
  | .seq p q => some ({ t with stack := .run p :: .run q :: k }, .none)
  | .any f => some ({ t with stack := .run (f n) :: k }, .none)
  | .loop p => some ({ t with stack := if n = 0 then k else .run p :: .run (.loop p) :: k }, .none)
  | .lock l p => if e.free l then some ({ t with held := l :: t.held, stack := .run p :: .unlock l :: k }, .none) else none
  | .await l => some ({ t with held := t.held.erase l, wait := some l, stack := k }, .none)
  | .acc _ _ => some ({ t with stack := k }, .none)
  | .spawnWorker => some ({ t with stack := k }, if e.queue then .none else .spawn)
  | .endWork => some ({ t with stack := k, mode := .done }, .endWork)
  | .whenNull => if e.queue then none else some ({ t with stack := k, mode := .null }, .none)
  | .whenDone c =>
    if e.pending then none else some ({ t with stack := k, mode := if c = .handle then .done else .lent }, .whenDone c)
  | .seen => if e.seen then some ({ t with stack := k, mode := .client }, .none) else none
  | .notify => some ({ t with stack := k, mode := .done }, .notify)

/-- A step of a thread. -/
def tstep (e : Env) (n : Nat) (t : Thread) : Option (Thread × Effect) :=
  match t.wait with
  | some l => if e.free l then some ({ t with held := l :: t.held, wait := none }, .none) else none
  | none =>
    match t.stack with
    | [] => none
    | .unlock l :: k => some ({ t with held := t.held.erase l, stack := k }, .none)
    | .run p :: k => pstep e n t k p

/-- No thread holds `l`. -/
def State.free (s : State) (l : Lock) : Bool := s.threads.all fun t => !decide (l ∈ t.held)

/-- What thread `i` sees. -/
def State.env (s : State) (i : Nat) : Env := ⟨s.free, s.queue, s.slot.isSome, s.flags i⟩

/-- A new thread. -/
def start (p : Prog) (owner : Nat) (mode : Mode) : Thread := ⟨[], none, [.run p], owner, mode⟩

/-! ## The programs -/

/-- A sequence. -/
def block : List Prog → Prog
  | [] => .skip
  | p :: ps => .seq p (block ps)

/-- Choice between listed programs. -/
def oneOf (ps : List Prog) : Prog := .any fun i => ps.getD (i % ps.length) .skip

/-- `if (...) p`. -/
def opt (p : Prog) : Prog := oneOf [p, .skip]

/-- Any reads of `rs` and writes of `ws`, in any order. -/
def touch (rs ws : List Loc) : Prog := .loop (oneOf (rs.map (.acc false) ++ ws.map (.acc true)))

/-! ### constraint_builder_2d.cc -/

/-- `MaybeAddConstraint` (77-112) and `MaybeAddGlobalConstraint` (114-137): the sampler is used before the lock is taken. -/
def maybeAddConstraint : Prog :=
  .seq (opt (touch [] [.builderSamplers])) (opt (.lock .builder (touch [] [.builderState])))

/-- `NotifyEndOfNode` (139-152). -/
def notifyEndOfNode : Prog := .lock .builder (touch [] [.builderState])

/-- `WhenDone` (154-163). -/
def whenDone (c : Callback) : Prog := .lock .builder (.seq (touch [] [.builderState]) (.whenDone c))

/-- `GetNumFinishedNodes` (299-302). -/
def getNumFinishedNodes : Prog := .lock .builder (touch [.builderState] [])

/-- `DeleteScanMatcher` (304-313). -/
def deleteScanMatcher : Prog := .lock .builder (touch [] [.builderState, .builderSamplers])

/-- `RunWhenDoneCallback` (277-297): the callback is called without the lock. -/
def runWhenDoneCallback (p : Prog) : Prog := .seq (.lock .builder (touch [] [.builderState])) p

/-- The tasks of the builder: `ComputeConstraint` (189-275) locks for the histogram, the end of a node (142-145) for the count. -/
def builderTask : Prog := .lock .builder (touch [] [.builderState])

/-! ### pose_graph_2d.cc -/

/-- Read by `ComputeLocalToGlobalTransform` (1109-1132) with `GetInterpolatedGlobalTrajectoryPose` (1050-1070). -/
def localToGlobalReads : List Loc := [.globalSubmapPoses, .initialPoses, .trajectoryNodes, .submapData]

/-- Written by `AddTrajectoryIfNeeded` (194-209). -/
def trajectoryWrites : List Loc := [.trajectoriesState, .connectivity, .samplers]

/-- `AddWorkItem` (174-192). -/
def addWorkItem : Prog := .lock .workQueue (block [touch [.workQueue] [], .spawnWorker, touch [] [.workQueue]])

/-- The work items that only lock `mutex_` and work on the data. -/
inductive Item where
  | addImuData
  | addOdometryData
  | addFixedFramePoseData
  | addLandmarkData
  | deleteTrajectory
  | finishTrajectory
  | freezeTrajectory
  | addSubmapFromProto
  | addNodeFromProto
  | setTrajectoryDataFromProto
  | addNodeToSubmap
  | addSerializedConstraints
  | addTrimmer
  | setMaxNumIterations
  | setLandmarkPose
  deriving DecidableEq, Repr

/-- What a work item reads. -/
def Item.reads : Item → List Loc
  | .addImuData | .addOdometryData | .addFixedFramePoseData | .addLandmarkData | .setTrajectoryDataFromProto | .addNodeToSubmap =>
    [.trajectoriesState]
  | .addNodeFromProto | .addSerializedConstraints => [.trajectoryNodes]
  | _ => []

/-- What a work item writes: lines 211-218, 220-228, 230-241, 243-259, 621-632, 636-645, 660-680, 723-728, 747-760, 774-782, 788-793,
799-826, 833-837, 843-855, 988-993. -/
def Item.writes : Item → List Loc
  | .addImuData => [.optImu]
  | .addOdometryData => [.optOdometry]
  | .addFixedFramePoseData => [.optFixedFrame]
  | .addLandmarkData => [.landmarkNodes]
  | .deleteTrajectory => [.trajectoriesState]
  | .finishTrajectory => [.trajectoriesState, .submapData]
  | .freezeTrajectory => [.trajectoriesState, .connectivity]
  | .addSubmapFromProto => [.submapData, .optSubmaps]
  | .addNodeFromProto => [.optNodes, .optTrajectoryData]
  | .setTrajectoryDataFromProto => [.optTrajectoryData]
  | .addNodeToSubmap => [.submapData]
  | .addSerializedConstraints => [.submapData, .connectivity, .constraints]
  | .addTrimmer => [.trimmers]
  | .setMaxNumIterations => [.optOptions]
  | .setLandmarkPose => [.landmarkNodes]

/-- A work item. -/
def item (i : Item) : Prog := .lock .poseGraph (touch i.reads i.writes)

/-- `ComputeConstraint` (261-310): the poses are read without the lock. -/
def computeConstraint : Prog := block [
  .lock .poseGraph (touch [.submapData, .activeSubmaps, .trajectoryNodes, .connectivity] [.samplers]),
  touch [.optSubmaps, .optNodes] [],
  maybeAddConstraint]

/-- `ComputeConstraintsForNode` (312-404) with `InitializeGlobalSubmapPoses` (75-124); also a work item. -/
def computeConstraintsForNode : Prog := block [
  .lock .poseGraph (touch localToGlobalReads
    [.connectivity, .optSubmaps, .optNodes, .optTrajectoryData, .submapData, .constraints]),
  .loop computeConstraint,
  .loop (.seq (touch [.optNodes] []) computeConstraint),
  notifyEndOfNode,
  .lock .poseGraph (touch [] [.nodesSinceLoopClosure])]

/-- Any work item. -/
def anyItem : Prog := oneOf [
  computeConstraintsForNode, item .addImuData, item .addOdometryData, item .addFixedFramePoseData, item .addLandmarkData,
  item .deleteTrajectory, item .finishTrajectory, item .freezeTrajectory, item .addSubmapFromProto, item .addNodeFromProto,
  item .setTrajectoryDataFromProto, item .addNodeToSubmap, item .addSerializedConstraints, item .addTrimmer,
  item .setMaxNumIterations, item .setLandmarkPose]

/-- `DrainWorkQueue` (519-544). -/
def drainWorkQueue : Prog := block [
  .loop (.seq (.lock .workQueue (touch [] [.workQueue])) anyItem),
  oneOf [.lock .workQueue (.seq (touch [] [.workQueue]) .endWork), whenDone .handle]]

/-- `OptimizationProblem2D::Solve` (optimization_problem_2d.cc:241-428), called without a lock. -/
def solve : Prog :=
  touch [.constraints, .landmarkNodes, .optImu, .optOdometry, .optFixedFrame, .optOptions]
    [.optSubmaps, .optNodes, .optTrajectoryData, .optLandmarks]

/-- `RunOptimization` (861-909): `GetTrajectoryStates` locks by itself. -/
def runOptimization : Prog := .seq (touch [.optSubmaps] []) (opt (block [
  .lock .poseGraph (touch [.trajectoriesState] []),
  solve,
  .lock .poseGraph (touch ([.optSubmaps, .optNodes, .optLandmarks, .constraints] ++ localToGlobalReads)
    [.trajectoryNodes, .landmarkNodes, .globalSubmapPoses])]))

/-- The trimmers and `DeleteTrajectoriesIfNeeded` (426-442, 475-514, 1150-1300), under `mutex_`. -/
def trim : Prog := .loop (oneOf [
  touch [.globalSubmapPoses, .trajectoryNodes] [.connectivity, .trajectoriesState, .constraints, .submapData, .trajectoryNodes, .optSubmaps,
    .optNodes, .optImu, .optOdometry, .optFixedFrame, .optTrajectoryData, .trimmers, .nodesSinceLoopClosure],
  deleteScanMatcher])

/-- `HandleWorkQueue` (444-517); `user` is the callback of the application. -/
def handleWorkQueue (user : Prog) : Prog := block [
  .lock .poseGraph (touch [] [.constraints]),
  runOptimization,
  touch [.callback] [],
  opt (.seq (.lock .poseGraph (touch [.optSubmaps, .optNodes] [])) user),
  .lock .poseGraph trim,
  drainWorkQueue]

/-- The callback of `WaitForAllComputations` (590-597). -/
def notification : Prog := .lock .poseGraph (.seq (touch [] [.constraints, .notification]) .notify)

/-- `report_progress` (556-569). -/
def reportProgress : Prog := opt getNumFinishedNodes

/-- `WaitForAllComputations` (546-606). -/
def waitForAllComputations : Prog := block [
  .lock .poseGraph (touch [.numTrajectoryNodes] []),
  getNumFinishedNodes,
  .lock .workQueue (block [.loop (.seq (.await .workQueue) reportProgress), touch [.workQueue] [], .whenNull]),
  .lock .poseGraph (block [
    touch [] [.notification],
    whenDone .notify,
    .loop (.seq (.await .poseGraph) reportProgress),
    touch [.notification] [],
    .seen,
    getNumFinishedNodes])]

/-! ### The calls of the application -/

/-- The public functions. -/
inductive Op where
  /-- `AddNode` (155-172) with `AppendNode` (126-153) -/
  | addNode
  /-- the functions that only add a work item: `AddImuData`, `AddOdometryData`, `AddFixedFramePoseData`, `AddLandmarkData`,
  `FinishTrajectory`, `SetTrajectoryDataFromProto`, `AddNodeToSubmap`, `AddSerializedConstraints`, `AddTrimmer`, `SetLandmarkPose` -/
  | addItem
  /-- `DeleteTrajectory` (608-633) -/
  | deleteTrajectory
  /-- `FreezeTrajectory` (655-681) -/
  | freezeTrajectory
  /-- `AddSubmapFromProto` (689-729): `IsTrajectoryFrozen` is called after the lock was given back (line 716) -/
  | addSubmapFromProto
  /-- `AddNodeFromProto` (731-761) -/
  | addNodeFromProto
  /-- `RunFinalOptimization` (841-859) -/
  | runFinalOptimization
  /-- the getters not listed separately (937-1000, 1005-1040, 1071-1094) -/
  | getData
  /-- `GetTrajectoryData` (1012-1016) -/
  | getTrajectoryData
  /-- `GetAllSubmapPoses` (1095-1107): reads `num_range_data` of all submaps -/
  | getAllSubmapPoses
  /-- `MapBuilder::SubmapToProto` (map_builder.cc:183-203): draws the submap after `GetSubmapData` -/
  | submapToProto
  /-- `IsTrajectoryFinished` (648-652), `IsTrajectoryFrozen` (683-687): no lock -/
  | isTrajectoryFinished
  /-- `SetInitialTrajectoryPose` (1041-1048) -/
  | setInitialTrajectoryPose
  /-- `SetGlobalSlamOptimizationCallback` (1313-1316): no lock -/
  | setCallback
  /-- `ActiveSubmaps2D::InsertRangeData` (mapping/2d/submap_2d.cc:160-175) by local SLAM: no lock -/
  | insertRangeData
  deriving DecidableEq, Repr

/-- The program of a call. -/
def call : Op → Prog
  | .addNode => block [
    .lock .poseGraph (touch localToGlobalReads []),
    .lock .poseGraph (touch [] (trajectoryWrites ++ [.trajectoryNodes, .numTrajectoryNodes, .submapData])),
    touch [.activeSubmaps] [],
    addWorkItem]
  | .addItem => addWorkItem
  | .deleteTrajectory => .seq (.lock .poseGraph (touch [] [.trajectoriesState])) (opt addWorkItem)
  | .freezeTrajectory => .seq (.lock .poseGraph (touch [] [.connectivity])) addWorkItem
  | .addSubmapFromProto => block [
    .lock .poseGraph (touch [] (trajectoryWrites ++ [.submapData, .globalSubmapPoses, .conversionTables])),
    touch [.trajectoriesState] [],
    addWorkItem]
  | .addNodeFromProto => .seq (.lock .poseGraph (touch [] (trajectoryWrites ++ [.trajectoryNodes]))) (opt addWorkItem)
  | .runFinalOptimization => block [addWorkItem, addWorkItem, waitForAllComputations]
  | .getData => .lock .poseGraph (touch ([.trajectoriesState, .landmarkNodes, .constraints, .connectivity, .optImu, .optOdometry,
    .optFixedFrame] ++ localToGlobalReads) [])
  | .getTrajectoryData => .lock .poseGraph (touch [.optTrajectoryData] [])
  | .getAllSubmapPoses => .lock .poseGraph (touch (.activeSubmaps :: localToGlobalReads) [])
  | .submapToProto => .seq (.lock .poseGraph (touch localToGlobalReads [])) (touch [.activeSubmaps] [])
  | .isTrajectoryFinished => touch [.trajectoriesState] []
  | .setInitialTrajectoryPose => .lock .poseGraph (touch [] [.initialPoses])
  | .setCallback => touch [] [.callback]
  | .insertRangeData => touch [] [.activeSubmaps]

/-- Any calls out of a list, in any order. -/
def calls (ops : List Op) : Prog := .loop (oneOf (ops.map call))

/-- What the callback of the application may call: it runs on the thread that runs the work queue, so it must not wait for it. -/
def callbackOps : List Op := [.addItem, .getData, .setInitialTrajectoryPose]

/-- The program of a callback of the constraint builder. -/
def code : Callback → Prog
  | .handle => runWhenDoneCallback (handleWorkQueue (calls callbackOps))
  | .notify => runWhenDoneCallback notification

/-- The mode of the thread that runs a callback. -/
def modeOf : Callback → Mode
  | .handle => .worker
  | .notify => .notifier

/-! ## Executions -/

/-- The new state after thread `i` became `t` with an effect. -/
def State.apply (s : State) (i : Nat) (t : Thread) : Effect → State
  | .none => { s with threads := s.threads.set i t }
  | .spawn => { s with threads := s.threads.set i t ++ [start drainWorkQueue 0 .worker], queue := true }
  | .endWork => { s with threads := s.threads.set i t, queue := false }
  | .whenDone c => { s with threads := s.threads.set i t, slot := some (c, i), flags := Function.update s.flags i false }
  | .notify => { s with threads := s.threads.set i t, flags := Function.update s.flags t.owner true }

/-- Actions: a step of a thread, or the start of the task that runs the callback of the constraint builder. -/
inductive Act where
  | thread (i n : Nat)
  | fire

/-- One step. -/
def step (s : State) : Act → Option State
  | .thread i n =>
    match s.threads[i]? with
    | none => none
    | some t =>
      match tstep (s.env i) n t with
      | none => none
      | some (t', e) => some (s.apply i t' e)
  | .fire =>
    match s.slot with
    | none => none
    | some (c, i) => some { s with threads := s.threads ++ [start (code c) i (modeOf c)], slot := none }

/-- A run. -/
def run (s : State) : List Act → Option State
  | [] => some s
  | a :: as =>
    match step s a with
    | none => none
    | some s' => run s' as

/-- The threads of the application, each with the functions it calls, and `n` tasks of the constraint builder. -/
def init (ops : List (List Op)) (n : Nat) : State :=
  { threads := (ops.map fun o => start (calls o) 0 .client) ++ List.replicate n (start (.loop builderTask) 0 .client)
    queue := false
    slot := none
    flags := fun _ => false }

end Verif.Races
