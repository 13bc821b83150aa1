import Verif.MapByIdLemmas
import Mathlib.Algebra.Group.Hom.Defs

/-!
# Global poses in the pose graph

Model of what `PoseGraph2D` (pose_graph_2d.cc, abbreviated pg2d) does with the poses of nodes and submaps: the poses shown to
callers (`data_`), the poses of the optimization problem (optimization_problem_2d.cc, abbreviated op2d), and how the result of
an optimization is transferred.  `PoseGraph3D` is the same with the identity for `Embed3D` and `Project2D` and without gravity
alignment, except that the first submap may be rotated about horizontal axes (op3d:294-307).

Which trajectories may be modified, constraints and trimming are modelled in `Verif.PoseGraph` and left out here; so are
landmarks, and deletion.  Rigid transforms are exact.
-/

namespace Verif.GlobalPoses

open MapById

/-- The transforms of the optimization problem (`Rigid2d`), those shown (`Rigid3d`), `Embed3D` and `Project2D`
(transform.h:102-116).  Angles are not unique, so `Project2D` inverts `Embed3D` up to a multiple of `2 * π`.  Elements of `G`
are motions: the quaternions `q` and `-q` are the same rotation. -/
structure Geometry (O G : Type) [Group O] [Group G] where
  emb : O →* G
  proj : G → O
  emb_proj : ∀ o, emb (proj (emb o)) = emb o

/-- `TrajectoryNode` (trajectory_node.h:40-63): `constant_data` (time, local pose, gravity alignment as a transform) and
`global_pose`. -/
structure Node (G : Type) where
  time : Int
  localPose : G
  gravity : G
  global : G
deriving DecidableEq

/-- `NodeSpec2D` (optimization_problem_2d.h:43-48). -/
structure OptNode (O : Type) where
  localPose : O
  global : O
deriving DecidableEq

/-- `InitialTrajectoryPose` (pose_graph.h:49-53). -/
structure Initial (G : Type) where
  toTrajectory : Int
  relative : G
  time : Int

/-- A work item. -/
inductive Item (O G : Type) where
  /-- `ComputeConstraintsForNode` (pg2d:167-170) with the insertion submaps. -/
  | node (id : Id) (ins : List Nat)
  /-- `FreezeTrajectory` (pg2d:660-681). -/
  | freeze (t : Int)
  /-- `AddSubmapFromProto` (pg2d:721-728). -/
  | submap (id : Id) (pose : O)
  /-- `AddNodeFromProto` (pg2d:746-762). -/
  | loaded (id : Id) (pose : G)

/-- The trajectory an item is about. -/
def Item.traj {O G : Type} : Item O G → Int
  | .node id _ => id.1
  | .freeze t => t
  | .submap id _ => id.1
  | .loaded id _ => id.1

/-- Submaps are identified by a number (the pointer).  `reads` are the calls of `AddNode` that have computed
`GetLocalToGlobalTransform` but have not called `AppendNode` yet (pg2d:158-162), `pending` the work items that have not run. -/
structure State (O G : Type) where
  /-- `data_.submap_data`. -/
  submaps : Map Nat := []
  /-- `data_.trajectory_nodes`. -/
  nodes : Map (Node G) := []
  /-- `data_.global_submap_poses_2d`. -/
  poses : Map O := []
  /-- `data_.initial_trajectory_poses`. -/
  initial : List (Int × Initial G) := []
  /-- The trajectories in state `FROZEN`. -/
  frozen : List Int := []
  /-- `optimization_problem_->submap_data()`. -/
  optSubmaps : Map O := []
  /-- `optimization_problem_->node_data()`. -/
  optNodes : Map (OptNode O) := []
  reads : List (Int × G) := []
  pending : List (Item O G) := []

/-- What the model depends on: the transforms, `transform::Interpolate` (timestamped_transform.cc:24-39) and
`Submap::local_pose`, which is constant. -/
structure Setup (O G : Type) [Group O] [Group G] extends Geometry O G where
  lerp : Int → G → Int → G → Int → G
  localPose : Nat → G

variable {O G : Type} [Group O] [Group G] (S : Setup O G)

/-- `ComputeSubmapPose` (constraint_builder_2d.cc:55-57). -/
def submapPose (p : Nat) : O := S.proj (S.localPose p)

/-- The elements of a trajectory. -/
def dataOf {D : Type} (m : Map D) (t : Int) : List (Int × D) := (SMap.get? t m).elim [] (·.data)

/-- The elements before and after the first node that is not before `time` (`lower_bound`, see C10). -/
def splitAt (l : List (Node G)) (time : Int) : List (Node G) × List (Node G) :=
  (l.takeWhile (fun n => n.time < time), l.dropWhile (fun n => n.time < time))

/-- `GetInterpolatedGlobalTrajectoryPose` (pg2d:1050-1069); `none` is the failing `CHECK_GT`. -/
def interpolated (nodes : Map (Node G)) (t : Int) (time : Int) : Option G :=
  match splitAt ((dataOf nodes t).map (·.2)) time with
  | ([], []) => none
  | ([], n :: _) => some n.global
  | (b :: bs, []) => some ((b :: bs).getLast (by simp)).global
  | (b :: bs, n :: _) =>
    let p := (b :: bs).getLast (by simp)
    some (S.lerp p.time p.global n.time n.global time)

/-- `ComputeLocalToGlobalTransform` (pg2d:1109-1132); `none` is a failing `CHECK` or the exception of `at`. -/
def localToGlobal (submaps : Map Nat) (nodes : Map (Node G)) (initial : List (Int × Initial G)) (poses : Map O) (t : Int) :
    Option G :=
  match (dataOf poses t).getLast? with
  | none =>
    match SMap.get? t initial with
    | some i => (interpolated S nodes i.toTrajectory i.time).map (· * i.relative)
    | none => some 1
  | some (i, o) => (at? submaps (t, i)).map (fun p => S.emb o * (S.localPose p)⁻¹)

/-- `GetLocalToGlobalTransform` (pg2d:1071-1076). -/
def State.localToGlobal (s : State O G) (t : Int) : Option G :=
  GlobalPoses.localToGlobal S s.submaps s.nodes s.initial s.poses t

/-! ### Adding nodes -/

/-- `AppendNode` (pg2d:126-152) with the node's constant data; `pose` is `GetLocalToGlobalTransform` as read before. -/
def appendNode (s : State O G) (t : Int) (pose : G) (time : Int) (localPose gravity : G) (ins : List Nat) :
    Option (State O G) := do
  let (nodes, id) ← append s.nodes t ⟨time, localPose, gravity, pose * localPose⟩
  let back ← ins.getLast?
  let submaps ← if (dataOf s.submaps t).getLast?.map (·.2) = some back then some s.submaps
    else (append s.submaps t back).map (·.1)
  some { s with
    nodes := nodes
    submaps := submaps
    pending := s.pending ++ [.node id ins] }

/-- `InitializeGlobalSubmapPoses` (pg2d:75-124): the submaps of the optimization problem and the id of the first insertion
submap. -/
def initializePoses (s : State O G) (t : Int) : List Nat → Option (Map O × Id)
  | [p] => do
    let opt ← if sizeOfTrajectoryOrZero s.optSubmaps t = 0 then do
        let l ← s.localToGlobal S t
        (append s.optSubmaps t (S.proj (l * S.localPose p))).map (·.1)
      else some s.optSubmaps
    guard (sizeOfTrajectoryOrZero opt t = 1)
    guard (at? s.submaps (t, 0) = some p)
    some (opt, (t, 0))
  | [p, q] => do
    let (i, pose) ← (dataOf s.optSubmaps t).getLast?
    let last ← at? s.submaps (t, i)
    if last = p then
      let (opt, _) ← append s.optSubmaps t (pose * (submapPose S p)⁻¹ * submapPose S q)
      some (opt, (t, i))
    else
      guard (last = q)
      guard (at? s.submaps (t, i - 1) = some p)
      some (s.optSubmaps, (t, i - 1))
  | _ => none

/-- `ComputeConstraintsForNode`, as far as it concerns poses (pg2d:319-340). -/
def processNode (s : State O G) (id : Id) (ins : List Nat) : Option (State O G) := do
  let n ← at? s.nodes id
  let (opt, matching) ← initializePoses S s id.1 ins
  let front ← ins.head?
  let local2 := S.proj (n.localPose * n.gravity⁻¹)
  let pose ← at? opt matching
  let (optNodes, _) ← append s.optNodes matching.1 ⟨local2, pose * (submapPose S front)⁻¹ * local2⟩
  some { s with
    optSubmaps := opt
    optNodes := optNodes }

/-! ### Loading -/

/-- `AddSubmapFromProto` (pg2d:689-728); the submap is shown at once. -/
def loadSubmap (s : State O G) (id : Id) (ptr : Nat) (pose : G) : Option (State O G) := do
  let submaps ← insert s.submaps id ptr
  let poses ← insert s.poses id (S.proj pose)
  some { s with
    submaps := submaps
    poses := poses
    pending := s.pending ++ [.submap id (S.proj pose)] }

/-- `AddNodeFromProto` (pg2d:731-763). -/
def loadNode (s : State O G) (id : Id) (n : Node G) : Option (State O G) := do
  let nodes ← insert s.nodes id n
  some { s with
    nodes := nodes
    pending := s.pending ++ [.loaded id n.global] }

/-- Runs a work item. -/
def runItem (s : State O G) : Item O G → Option (State O G)
  | .node id ins => processNode S s id ins
  | .freeze t => if t ∈ s.frozen then none else some { s with
      frozen := t :: s.frozen }
  | .submap id pose => do
    let opt ← insert s.optSubmaps id pose
    some { s with
      optSubmaps := opt }
  | .loaded id pose => do
    let n ← at? s.nodes id
    let opt ← insert s.optNodes id ⟨S.proj (n.localPose * n.gravity⁻¹), S.proj (pose * n.gravity⁻¹)⟩
    some { s with
      optNodes := opt }

/-! ### Optimization -/

/-- Changes the elements of a map. -/
def mapAll {D : Type} (f : Id → D → D) (m : Map D) : Map D :=
  m.map (fun e => (e.1, { e.2 with data := e.2.data.map (fun x => (x.1, f (e.1, x.1) x.2)) }))

/-- Changes the elements of one trajectory. -/
def mapTraj {D : Type} (t : Int) (f : Int → D → D) (m : Map D) : Map D :=
  mapAll (fun id d => if id.1 = t then f id.2 d else d) m

/-- The new poses found by the solver (`Solve` after `ceres::Solve`, op2d:412-420). -/
structure Solution (O : Type) where
  submap : Id → O
  node : Id → O

/-- What is assumed of the solver: the parameter blocks set constant keep their values, that is, the first submap, and the
submaps and nodes of frozen trajectories (op2d:265-287); without nodes nothing is solved (op2d:245-248).  Angles may change by
a multiple of `2 * π` (`FromPose`, `ToPose`). -/
structure Admissible (s : State O G) (sol : Solution O) : Prop where
  first : ∀ id o, (flat s.optSubmaps).head? = some (id, o) → S.emb (sol.submap id) = S.emb o
  submap : ∀ id o, at? s.optSubmaps id = some o → id.1 ∈ s.frozen → S.emb (sol.submap id) = S.emb o
  node : ∀ id n, at? s.optNodes id = some n → id.1 ∈ s.frozen → S.emb (sol.node id) = S.emb n.global
  nothing : s.optNodes = [] → ∀ id o, at? s.optSubmaps id = some o → sol.submap id = o

/-- The pose of a node of the optimization problem is transferred (pg2d:877-883). -/
def placed (o : Option (OptNode O)) (n : Node G) : Node G :=
  match o with
  | some o => { n with global := S.emb o.global * n.gravity }
  | none => n

/-- A node is moved (pg2d:900-902). -/
def moved (g : G) (n : Node G) : Node G := { n with global := g * n.global }

/-- The body of the loop in `RunOptimization` for one trajectory (pg2d:877-903): the nodes of the optimization problem get
their new poses, those after the last one are moved along. -/
def transfer (submaps : Map Nat) (initial : List (Int × Initial G)) (oldPoses newPoses : Map O) (optNodes : Map (OptNode O))
    (t : Int) (nodes : Map (Node G)) : Option (Map (Node G)) := do
  guard ((dataOf optNodes t).all (fun e => (at? nodes (t, e.1)).isSome))
  let nodes := mapTraj t (fun i n => placed S (at? optNodes (t, i)) n) nodes
  let new ← localToGlobal S submaps nodes initial newPoses t
  let old ← localToGlobal S submaps nodes initial oldPoses t
  let (last, _) ← (dataOf optNodes t).getLast?
  some (mapTraj t (fun i n => if last < i then moved (new * old⁻¹) n else n) nodes)

/-- The loop (pg2d:876-904). -/
def transferAll (submaps : Map Nat) (initial : List (Int × Initial G)) (oldPoses newPoses : Map O) (optNodes : Map (OptNode O)) :
    List Int → Map (Node G) → Option (Map (Node G))
  | [], nodes => some nodes
  | t :: ts, nodes => do
    let nodes ← transfer S submaps initial oldPoses newPoses optNodes t nodes
    transferAll submaps initial oldPoses newPoses optNodes ts nodes

/-- `RunOptimization` (pg2d:861-909) with the solution found. -/
def runOptimization (s : State O G) (sol : Solution O) : Option (State O G) :=
  if flat s.optSubmaps = [] then some s
  else do
    let optSubmaps := mapAll (fun id _ => sol.submap id) s.optSubmaps
    let optNodes := mapAll (fun id n => { n with global := sol.node id }) s.optNodes
    let nodes ← transferAll S s.submaps s.initial s.poses optSubmaps optNodes (trajectoryIds optNodes) s.nodes
    some { s with
      optSubmaps := optSubmaps
      optNodes := optNodes
      nodes := nodes
      poses := optSubmaps }

/-! ### Executions -/

/-- One step: the first and the second half of `AddNode`, the other callers, and the worker. -/
inductive Act (O G : Type) where
  | read (t : Int)
  | append (k : Nat) (time : Int) (localPose gravity : G) (ins : List Nat)
  | setInitial (t : Int) (i : Initial G)
  | freeze (t : Int)
  | loadSubmap (id : Id) (ptr : Nat) (pose : G)
  | loadNode (id : Id) (n : Node G)
  | run (k : Nat)
  | optimize (sol : Solution O)

/-- The effect of a step. -/
def exec (s : State O G) : Act O G → Option (State O G)
  | .read t => (s.localToGlobal S t).map (fun g => { s with reads := s.reads ++ [(t, g)] })
  | .append k time localPose gravity ins => do
    let (t, pose) ← s.reads[k]?
    let s' ← appendNode s t pose time localPose gravity ins
    some { s' with
      reads := s.reads.eraseIdx k }
  | .setInitial t i => some { s with
      initial := SMap.put t i s.initial }
  | .freeze t => some { s with
      pending := s.pending ++ [.freeze t] }
  | .loadSubmap id ptr pose => loadSubmap S s id ptr pose
  | .loadNode id n => loadNode s id n
  | .run k => do
    let item ← s.pending[k]?
    let s' ← runItem S s item
    some { s' with
      pending := s'.pending.eraseIdx k }
  | .optimize sol => runOptimization S s sol

/-- Which steps are possible.  The items of one trajectory run in the order in which they were added (they are put into the
queue by the thread that works for the trajectory); for different trajectories the order is left open. -/
def Enabled (s : State O G) : Act O G → Prop
  | .append k .. => k < s.reads.length
  | .run k => ∃ item, s.pending[k]? = some item ∧ ∀ j < k, ∀ x, s.pending[j]? = some x → x.traj ≠ item.traj
  | .optimize sol => Admissible S s sol
  | _ => True

/-- Executions with the steps taken, all of which satisfy `P`. -/
inductive Exec (P : State O G → Act O G → Prop) : State O G → List (Act O G) → State O G → Prop where
  | nil {s} : Exec P s [] s
  | snoc {s as s' a s''} : Exec P s as s' → Enabled S s' a → P s' a → exec S s' a = some s'' → Exec P s (as ++ [a]) s''

end Verif.GlobalPoses
