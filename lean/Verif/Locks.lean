import Mathlib.Logic.Relation

/-!
# The mutexes of the pose graph, the constraint builder, the tasks, the thread
pool and the server

Only the locking is modelled: every function of the code becomes the program of
its lock operations, everything else is dropped, every condition may go either
way and every loop may run any number of times.  A thread is a continuation
stack together with the locks it holds.

Simplifications:
* `absl::MutexLock` is the scoped program `lock l p`; the lock is given back when
  `p` ends (early returns are contained as choices inside `p`).
* `absl::Mutex` is not reentrant: a thread that asks for a lock it holds waits
  for ever.
* `Mutex::Await` and `Mutex::AwaitWithTimeout` give the lock back, and take it
  again at some later moment when it is free (condition true or time out).
* The metrics (atomic values) and the wrapper maps of
  `cloud/metrics/prometheus/family_factory.cc:36-49` (a lock that is taken and
  given back without calling anything) are left out.
* gRPC's writers called by the subscription callbacks are external.
-/

namespace Verif.Locks

/-- Lock programs. -/
inductive Prog (L : Type) where
  | skip : Prog L
  | seq : Prog L → Prog L → Prog L
  /-- Nondeterministic choice of one of countably many programs. -/
  | any : (Nat → Prog L) → Prog L
  /-- Any number of repetitions. -/
  | loop : Prog L → Prog L
  /-- `absl::MutexLock locker(&l); p` in a scope. -/
  | lock : L → Prog L → Prog L
  /-- `l.Await(...)`. -/
  | await : L → Prog L

/-- What is left to do: a program, or the end of a scope that gives a lock back. -/
inductive Frame (L : Type) where
  | run : Prog L → Frame L
  | unlock : L → Frame L

/-- A thread: the locks it holds, latest first, whether it is inside `Await` of a
lock, and the frames left. -/
structure Thread (L : Type) where
  held : List L
  wait : Option L
  stack : List (Frame L)

/-- A thread that starts with program `p`. -/
def start {L : Type} (p : Prog L) : Thread L := ⟨[], none, [.run p]⟩

/-- No thread holds `l`. -/
def Free {L : Type} (s : List (Thread L)) (l : L) : Prop := ∀ t ∈ s, l ∉ t.held

/-- One step of one thread; `free` tells which locks nobody holds. -/
inductive TStep {L : Type} [DecidableEq L] (free : L → Prop) : Thread L → Thread L → Prop
  | skip {h k} : TStep free ⟨h, none, .run .skip :: k⟩ ⟨h, none, k⟩
  | seq {h k p q} :
      TStep free ⟨h, none, .run (.seq p q) :: k⟩ ⟨h, none, .run p :: .run q :: k⟩
  | any {h k f} (i : Nat) : TStep free ⟨h, none, .run (.any f) :: k⟩ ⟨h, none, .run (f i) :: k⟩
  | again {h k p} :
      TStep free ⟨h, none, .run (.loop p) :: k⟩ ⟨h, none, .run p :: .run (.loop p) :: k⟩
  | leave {h k p} : TStep free ⟨h, none, .run (.loop p) :: k⟩ ⟨h, none, k⟩
  | lock {h k l p} : free l →
      TStep free ⟨h, none, .run (.lock l p) :: k⟩ ⟨l :: h, none, .run p :: .unlock l :: k⟩
  | unlock {h k l} : TStep free ⟨h, none, .unlock l :: k⟩ ⟨h.erase l, none, k⟩
  | await {h k l} : TStep free ⟨h, none, .run (.await l) :: k⟩ ⟨h.erase l, some l, k⟩
  | wake {h k l} : free l → TStep free ⟨h, some l, k⟩ ⟨l :: h, none, k⟩

/-- One step of the system: one of the threads makes a step. -/
def Step {L : Type} [DecidableEq L] (s s' : List (Thread L)) : Prop :=
  ∃ (i : Nat) (t t' : Thread L), s[i]? = some t ∧ TStep (Free s) t t' ∧ s' = s.set i t'

/-- States reachable when the threads start with the programs `ps`. -/
def Reachable {L : Type} [DecidableEq L] (ps : List (Prog L)) (s : List (Thread L)) : Prop :=
  Relation.ReflTransGen Step (ps.map start) s

/-! ## The locks -/

/-- The mutexes. -/
inductive Lock where
  /-- `MapBuilderServer::subscriptions_lock_`, cloud/internal/map_builder_server.h. -/
  | subscriptions
  /-- `PoseGraph2D::mutex_`, mapping/internal/2d/pose_graph_2d.h. -/
  | poseGraph
  /-- `PoseGraph2D::work_queue_mutex_`. -/
  | workQueue
  /-- `ConstraintBuilder2D::mutex_`. -/
  | builder
  /-- `ConnectedComponents::lock_`. -/
  | components
  /-- `Task::mutex_` of one task. -/
  | task (t : Nat)
  /-- `ThreadPool::mutex_`. -/
  | pool
  deriving DecidableEq

/-- Choice between listed programs. -/
def oneOf {L : Type} (ps : List (Prog L)) : Prog L := .any fun i => ps.getD i .skip

/-- `if (...) p`. -/
def opt {L : Type} (p : Prog L) : Prog L := oneOf [p, .skip]

/-- A sequence. -/
def block {L : Type} : List (Prog L) → Prog L
  | [] => .skip
  | p :: ps => .seq p (block ps)

section
variable (dep : Nat → Nat → Bool)

/-! ### common/task.cc, common/thread_pool.cc
`dep t d`: task `d` depends on task `t`. -/

/-- `ThreadPool::NotifyDependenciesCompleted`, common/thread_pool.cc:58-64. -/
def notifyDependenciesCompleted : Prog Lock := .lock .pool .skip

/-- `Task::GetState`, common/task.cc:29-32. -/
def getState (t : Nat) : Prog Lock := .lock (.task t) .skip

/-- `Task::SetWorkItem`, common/task.cc:34-38. -/
def setWorkItem (t : Nat) : Prog Lock := .lock (.task t) .skip

/-- `Task::OnDependenyCompleted`, common/task.cc:76-85. -/
def onDependencyCompleted (d : Nat) : Prog Lock :=
  .lock (.task d) (opt notifyDependenciesCompleted)

/-- `Task::AddDependentTask`, common/task.cc:66-74: the dependent is told at once
when this task has completed. -/
def addDependentTask (t d : Nat) : Prog Lock :=
  .lock (.task t) (opt (onDependencyCompleted d))

/-- `Task::AddDependency`, common/task.cc:40-52, of task `d` with dependency `t`. -/
def addDependency (d t : Nat) : Prog Lock :=
  .seq (.lock (.task d) .skip)
    (if dep t d then opt (addDependentTask t d) else .skip)

/-- `Task::SetThreadPool`, common/task.cc:54-64. -/
def setThreadPool (t : Nat) : Prog Lock :=
  .lock (.task t) (opt notifyDependenciesCompleted)

/-- `ThreadPool::Schedule`, common/thread_pool.cc:66-77. -/
def schedule (t : Nat) : Prog Lock :=
  .seq (.lock .pool .skip) (setThreadPool t)

/-- `Task::Execute`, common/task.cc:87-104, with the given work item: the work
item runs without the lock of the task, the dependents are told under it. -/
def execute (t : Nat) (work : Prog Lock) : Prog Lock :=
  block [
    .lock (.task t) .skip,
    work,
    .lock (.task t)
      (.loop (.any fun d => if dep t d then onDependencyCompleted d else .skip))]

/-- `ThreadPool::DoWork`, common/thread_pool.cc:79-107. -/
def doWork (work : Prog Lock) : Prog Lock :=
  .loop (.seq (.lock .pool (.await .pool)) (opt (.any fun t =>
    .seq (getState t) (execute dep t work))))

/-- Constructor and destructor of the pool, common/thread_pool.cc:39-56. -/
def poolSetup : Prog Lock := .lock .pool .skip

/-! ### mapping/internal/constraints/constraint_builder_2d.cc -/

/-- `DispatchScanMatcherConstruction`, constraint_builder_2d.cc:165-187; called
with the lock held. -/
def dispatchScanMatcherConstruction : Prog Lock :=
  opt (.any fun m => .seq (setWorkItem m) (schedule m))

/-- `MaybeAddConstraint` (constraint_builder_2d.cc:77-112) and
`MaybeAddGlobalConstraint` (114-137): constraint task `c`, scan matcher task `m`,
task `f` that ends the node. -/
def maybeAddConstraint : Prog Lock :=
  opt (.lock .builder (.seq dispatchScanMatcherConstruction
    (.any fun c => .any fun m => .any fun f => block [
      setWorkItem c,
      addDependency dep c m,
      schedule c,
      addDependency dep f c])))

/-- `NotifyEndOfNode`, constraint_builder_2d.cc:139-152. -/
def notifyEndOfNode : Prog Lock :=
  .lock .builder (.any fun f => .any fun w => block [
    setWorkItem f,
    schedule f,
    addDependency dep w f])

/-- `WhenDone`, constraint_builder_2d.cc:154-163. -/
def whenDone : Prog Lock :=
  .lock .builder (.any fun w => .seq (setWorkItem w) (schedule w))

/-- `GetNumFinishedNodes`, constraint_builder_2d.cc:299-302. -/
def getNumFinishedNodes : Prog Lock := .lock .builder .skip

/-- `DeleteScanMatcher`, constraint_builder_2d.cc:304-313. -/
def deleteScanMatcher : Prog Lock := .lock .builder .skip

/-- The destructor, constraint_builder_2d.cc:68-75. -/
def destroyBuilder : Prog Lock :=
  .lock .builder (.any fun f => .any fun w => .seq (getState f) (getState w))

/-- Work item of a constraint task: `ComputeConstraint`,
constraint_builder_2d.cc:189-275; the lock is taken for the histogram only. -/
def computeConstraintItem : Prog Lock := opt (.lock .builder .skip)

/-- Work item of the task that ends a node, constraint_builder_2d.cc:142-145. -/
def finishNodeItem : Prog Lock := .lock .builder .skip

/-- `RunWhenDoneCallback`, constraint_builder_2d.cc:277-297: the callback is called
after the lock is given back. -/
def runWhenDoneCallback (callback : Prog Lock) : Prog Lock :=
  .seq (.lock .builder .skip) callback

/-! ### mapping/internal/2d/pose_graph_2d.cc -/

/-- Functions that read or write the connectivity,
mapping/internal/trajectory_connectivity_state.cc:22-72 with
mapping/internal/connected_components.cc:30-115: each takes and gives back the lock
of the components any number of times. -/
def connectivity : Prog Lock := .loop (.lock .components .skip)

/-- A section under `mutex_` that reads or writes the data of the graph, and the
connectivity, without calling anything else that locks:
`AppendNode` (pose_graph_2d.cc:126-153), the getters (920-1108),
`SetInitialTrajectoryPose`, and the work items that only work on the data. -/
def underMutex : Prog Lock := .lock .poseGraph connectivity

/-- `AddWorkItem`, pose_graph_2d.cc:174-192: schedules a task under the lock of the
work queue. -/
def addWorkItem : Prog Lock :=
  .lock .workQueue (opt (.any fun t => .seq (setWorkItem t) (schedule t)))

/-- The functions that work on the data and then add a work item: `AddNode`
(pose_graph_2d.cc:155-172), `DeleteTrajectory` (608-633), `FreezeTrajectory`
(655-681), `AddSubmapFromProto`, `AddNodeFromProto` … -/
def dataThenWorkItem : Prog Lock := .seq (.loop underMutex) (opt addWorkItem)

/-- `PoseGraph2D::ComputeConstraint`, pose_graph_2d.cc:261-310. -/
def computeConstraint : Prog Lock :=
  .seq (.lock .poseGraph connectivity) (opt (maybeAddConstraint dep))

/-- `ComputeConstraintsForNode`, pose_graph_2d.cc:312-404. -/
def computeConstraintsForNode : Prog Lock := block [
  .lock .poseGraph connectivity,
  .loop (computeConstraint dep),
  .loop (computeConstraint dep),
  notifyEndOfNode dep,
  .lock .poseGraph .skip]

/-- The work items given to `AddWorkItem`. -/
def graphWorkItem : Prog Lock := oneOf [underMutex, computeConstraintsForNode dep]

/-- `DrainWorkQueue`, pose_graph_2d.cc:519-544: the work items run without a lock. -/
def drainWorkQueue : Prog Lock :=
  .seq (.loop (.seq (.lock .workQueue .skip) (graphWorkItem dep))) (opt whenDone)

/-- `RunOptimization`, pose_graph_2d.cc:861-907: `GetTrajectoryStates` takes
`mutex_` before the solver runs without it. -/
def runOptimization : Prog Lock :=
  opt (.seq (.lock .poseGraph .skip) (.lock .poseGraph .skip))

/-- `TrimmingHandle::TrimSubmap`, pose_graph_2d.cc:1186-1279, called with `mutex_`
held. -/
def trimSubmap : Prog Lock := .loop deleteScanMatcher

/-- `HandleWorkQueue`, pose_graph_2d.cc:450-517: the callback for the global
optimization is called without a lock. -/
def handleWorkQueue (callback : Prog Lock) : Prog Lock := block [
  .lock .poseGraph .skip,
  runOptimization,
  opt (.seq (.lock .poseGraph .skip) callback),
  .lock .poseGraph (.seq connectivity (.loop trimSubmap)),
  drainWorkQueue dep]

/-- Callback given to `WhenDone` by `WaitForAllComputations`,
pose_graph_2d.cc:590-597. -/
def notification : Prog Lock := .lock .poseGraph .skip

/-- `report_progress`, pose_graph_2d.cc:556-569. -/
def reportProgress : Prog Lock := opt getNumFinishedNodes

/-- `WaitForAllComputations`, pose_graph_2d.cc:546-606. -/
def waitForAllComputations : Prog Lock := block [
  .lock .poseGraph .skip,
  getNumFinishedNodes,
  .lock .workQueue
    (.seq (.await .workQueue) (.loop (.seq reportProgress (.await .workQueue)))),
  .lock .poseGraph (block [
    whenDone,
    .await .poseGraph,
    .loop (.seq reportProgress (.await .poseGraph)),
    getNumFinishedNodes])]

/-- The destructor, pose_graph_2d.cc:69-73. -/
def destroyGraph : Prog Lock := .seq waitForAllComputations (.lock .workQueue .skip)

/-- `RunFinalOptimization`, pose_graph_2d.cc:841-859. -/
def runFinalOptimization : Prog Lock := block [addWorkItem, addWorkItem, waitForAllComputations]

/-! ### cloud/internal/map_builder_server.cc -/

/-- `OnLocalSlamResult`, `OnGlobalSlamOptimizations`, `(Un)Subscribe…`,
`NotifyFinishTrajectory`, map_builder_server.cc:208-281: the subscribers are called
with the lock held; they only hand the result to a writer of gRPC. -/
def subscriptions : Prog Lock := .lock .subscriptions .skip

/-! ### The threads -/

/-- A call from outside: any public function. -/
def clientCall : Prog Lock := oneOf [
  underMutex, addWorkItem, dataThenWorkItem, waitForAllComputations,
  runFinalOptimization, subscriptions]

/-- What a thread of the application does: any calls in any order, and at the end
the destructors. -/
def client : Prog Lock :=
  .seq (.loop clientCall) (opt (block [destroyGraph, destroyBuilder, poolSetup]))

/-- The callback for global optimizations: any calls to the public functions. -/
def userCallback : Prog Lock := .loop clientCall

/-- Work items of all tasks: construction of a scan matcher (no lock),
`ComputeConstraint`, the end of a node, `RunWhenDoneCallback` with one of the two
callbacks, `DrainWorkQueue`. -/
def taskWorkItem : Prog Lock := oneOf [
  .skip,
  computeConstraintItem,
  finishNodeItem,
  runWhenDoneCallback (handleWorkQueue dep userCallback),
  runWhenDoneCallback notification,
  drainWorkQueue dep]

/-- A thread of the pool. -/
def worker : Prog Lock := doWork dep (taskWorkItem dep)

end

/-! ## Which tasks depend on which

The operations on tasks of the constraint builder and the pose graph. -/

/-- Tasks that were given to the pool, and the dependencies: `(t, d)` means that
`d` depends on `t`. -/
structure Tasks where
  scheduled : List Nat
  edges : List (Nat × Nat)

/-- Operations on tasks. -/
inductive TaskOp where
  /-- `d->AddDependency(handle of t)`, common/task.cc:40-52. -/
  | addDependency (d t : Nat)
  /-- `thread_pool->Schedule(t)`, common/thread_pool.cc:66-77. -/
  | schedule (t : Nat)

/-- One operation.  `AddDependency` aborts when the task is not `NEW`
(common/task.cc:44); the handle is the one returned by `Schedule`
(constraint_builder_2d.cc:108-111, 133-136, 146-150, 183-184), so its task was
scheduled.  `Schedule` aborts when the task is not `NEW` (common/task.cc:56). -/
def taskStep (σ : Tasks) : TaskOp → Option Tasks
  | .addDependency d t =>
    if d ∈ σ.scheduled then none
    else if t ∈ σ.scheduled then some { σ with edges := (t, d) :: σ.edges }
    else none
  | .schedule t =>
    if t ∈ σ.scheduled then none
    else some { σ with scheduled := t :: σ.scheduled }

/-- A sequence of operations. -/
def taskRun (σ : Tasks) : List TaskOp → Option Tasks
  | [] => some σ
  | op :: ops => (taskStep σ op).bind fun σ' => taskRun σ' ops

/-- The dependencies as a predicate. -/
def Tasks.dep (σ : Tasks) (t d : Nat) : Bool := (t, d) ∈ σ.edges

end Verif.Locks
