import Verif.MapByIdLemmas
import Verif.MapByTime
import Verif.GlobalPoses
import Mathlib.Algebra.Group.Defs

/-!
# The optimization problem of the 2D pose graph

/repo/cartographer/mapping/internal/optimization/optimization_problem_2d.cc ("op2d"), with the iterators of `MapById`
(/repo/cartographer/mapping/id.h, `Verif.MapById`) and the sensor data of `MapByTime`
(/repo/cartographer/sensor/map_by_time.h, `Verif.MapByTime`).

Modelled: which residual blocks and constant parameter blocks `Solve` hands to Ceres, how the result is stored, and
`TrimTrajectoryNode`.  The loops are modelled with the iterators the code uses; they are given fuel, and running out of
fuel is an abort, so that a result also means that the loops end.

Simplifications: `Rigid2d` and `Rigid3d` are groups `O` and `G` with functions `emb` and `proj` between them; the
interpolation between two timestamped poses is a function `lerp`; weights and the parameters of the loss functions are
left out; the Ceres solver is a function choosing the values of the parameters; conversions from and to arrays of
`double` are the identity.  The map `C_nodes` has the ids of `node_data_` and `C_submaps` those of `submap_data_`
(op2d:266-287), so that `at` in one is `at` in the other.
-/

namespace Verif.OptProblem

open MapById

/-- `Embed3D`, `Project2D` and the interpolation between timestamped poses
(/repo/cartographer/transform/timestamped_transform.cc:24-39, whose two `CHECK`s hold by the choice of the two elements). -/
structure Setup (T O G : Type) where
  emb : O → G
  proj : G → O
  lerp : T → G → T → G → T → G

/-- `NodeSpec2D` (optimization_problem_2d.h:43-48); `gravity` is the gravity alignment as a `Rigid3d`. -/
structure Node (T O G : Type) where
  time : T
  localPose : O
  globalPose : O
  gravity : G
deriving DecidableEq

/-- `OdometryData` and `FixedFramePoseData`: a time with a pose or an optional pose. -/
structure Reading (T P : Type) where
  time : T
  pose : P
deriving DecidableEq

/-- `Constraint` (pose_graph_interface.h:36-53) without weights; `inter` is `tag == INTER_SUBMAP`. -/
structure Constraint (G : Type) where
  submap : Id
  node : Id
  pose : G
  inter : Bool
deriving DecidableEq

/-- `LandmarkObservation` (pose_graph_interface.h:56-62) without weights. -/
structure Observation (T G : Type) where
  trajectory : Int
  time : T
  pose : G
deriving DecidableEq

/-- `LandmarkNode` (pose_graph_interface.h:55-66) with its name; whether it has a pose only affects the starting point. -/
structure Landmark (T G : Type) where
  name : String
  observations : List (Observation T G)
  frozen : Bool
deriving DecidableEq

/-- The members of `OptimizationProblem2D` (optimization_problem_2d.h:127-134); of `TrajectoryData` only
`fixed_frame_origin_in_map` is used in 2D. -/
structure Problem (T O G : Type) where
  nodes : Map (Node T O G) := []
  submaps : Map O := []
  odometry : MapByTime.Map T (Reading T G) := []
  fixedFrame : MapByTime.Map T (Reading T (Option G)) := []
  trajectoryData : List (Int × Option G) := []

/-- A call of `AddResidualBlock`: the parameter blocks it connects and the constant pose it uses. -/
inductive Block (T G : Type) where
  | constraint (submap node : Id) (pose : G) (robust : Bool)
  | landmark (name : String) (obs : Observation T G) (prev next : Id)
  | odometry (first second : Id) (pose : G)
  | localSlam (first second : Id) (pose : G)
  | fixedFrame (trajectory : Int) (node : Id) (pose : G)
deriving DecidableEq

/-- What has been handed to Ceres: constant parameter blocks, residual blocks and the starting points of fixed frames. -/
structure Built (T O G : Type) where
  constSubmaps : List Id
  constNodes : List Id
  constLandmarks : List String
  blocks : List (Block T G)
  origins : List (Int × O)
deriving DecidableEq

variable {T O G : Type} [LinearOrder T] [Group O] [Group G]

/-! ### Interpolation -/

/-- The first element not before `time` and the last one before it (`lower_bound` and `std::prev`,
map_by_time.h:110-140, 201-204). -/
def around {D : Type} (tr : List (T × D)) (time : T) : Option (T × D) × Option (T × D) :=
  ((tr.dropWhile (fun e => e.1 < time)).head?, (tr.takeWhile (fun e => e.1 < time)).getLast?)

variable (S : Setup T O G)

/-- `InterpolateOdometry` (op2d:430-447) in the data of the trajectory; `none` is `nullptr`. -/
def interpolateOdometry (tr : List (T × Reading T G)) (time : T) : Option G :=
  match around tr time with
  | (none, _) => none
  | (some it, none) => if it.2.time = time then some it.2.pose else none
  | (some it, some prev) => some (S.lerp prev.2.time prev.2.pose it.2.time it.2.pose time)

/-- `Interpolate` for fixed frame poses (op2d:48-73) in the data of the trajectory; `none` is `nullptr`. -/
def interpolateFixedFrame (tr : List (T × Reading T (Option G))) (time : T) : Option G :=
  match around tr time with
  | (none, _) => none
  | (some it, before) =>
    match it.2.pose with
    | none => none
    | some pose =>
      match before with
      | none => if it.2.time = time then some pose else none
      | some prev =>
        match prev.2.pose with
        | some prevPose => some (S.lerp prev.2.time prevPose it.2.time pose time)
        | none => none

/-- `CalculateOdometryBetweenNodes` (op2d:449-469); `none` is `nullptr`. -/
def odometryBetween (odometry : MapByTime.Map T (Reading T G)) (t : Int) (a b : Node T O G) : Option G :=
  match SMap.get? t odometry with
  | none => none
  | some tr =>
    match interpolateOdometry S tr a.time, interpolateOdometry S tr b.time with
    | some x, some y => some (a.gravity * x⁻¹ * y * b.gravity⁻¹)
    | _, _ => none

/-! ### Landmarks -/

/-- The nodes an observation is attached to (op2d:118-137): the outer `none` is a failing `CHECK` of an iterator or
undefined behaviour, `some none` is `continue`. -/
def landmarkNodes (nodes : Map (Node T O G)) (o : Observation T G) : Option (Option (Id × Id)) := do
  let begin_ := beginOfTrajectory nodes o.trajectory
  let first ← begin_.deref
  if o.time < first.2.time then some none
  else
    let next ← lowerBound (fun n : Node T O G => n.time) nodes o.trajectory o.time
    if next.eq (endOfTrajectory nodes o.trajectory) then some none
    else
      let next ← if next.eq begin_ then next.next else some next
      let prev ← next.prev
      let p ← prev.deref
      let n ← next.deref
      some (some (p.1, n.1))

/-- The loop over the observations of a landmark (op2d:116-164). -/
def observationLoop (nodes : Map (Node T O G)) (name : String) : List (Observation T G) → Option (List (Block T G))
  | [] => some []
  | o :: os => do
    let used ← landmarkNodes nodes o
    let rest ← observationLoop nodes name os
    match used with
    | none => some rest
    | some (p, n) => some (.landmark name o p n :: rest)

/-- `AddLandmarkCostFunctions` (op2d:109-166): the residual blocks and the landmarks set constant. -/
def addLandmarks (nodes : Map (Node T O G)) : List (Landmark T G) → Option (List (Block T G) × List String)
  | [] => some ([], [])
  | l :: ls => do
    let bs ← observationLoop nodes l.name l.observations
    let (rest, consts) ← addLandmarks nodes ls
    some (bs ++ rest, if l.frozen && !bs.isEmpty then l.name :: consts else consts)

/-! ### Consecutive nodes -/

/-- The blocks for two consecutive nodes (op2d:324-347). -/
def pairBlocks (odometry : MapByTime.Map T (Reading T G)) (a b : Id × Node T O G) : List (Block T G) :=
  (match odometryBetween S odometry a.1.1 a.2 b.2 with
    | some pose => [.odometry a.1 b.1 pose]
    | none => []) ++ [.localSlam a.1 b.1 (S.emb (a.2.localPose⁻¹ * b.2.localPose))]

/-- The inner loop (op2d:312-348) up to `trajectory_end`; also returns where `node_it` ends up. -/
def innerLoop (odometry : MapByTime.Map T (Reading T G)) (stop : Iter (Node T O G)) :
    Nat → Iter (Node T O G) → Iter (Node T O G) → Option (List (Block T G) × Iter (Node T O G))
  | 0, _, _ => none
  | fuel + 1, prev, it =>
    if it.eq stop then some ([], it)
    else do
      let a ← prev.deref
      let b ← it.deref
      let next ← it.next
      let (rest, last) ← innerLoop odometry stop fuel it next
      some ((if b.1.2 = a.1.2 + 1 then pairBlocks S odometry a b else []) ++ rest, last)

/-- The loop over all nodes (op2d:304-349). -/
def nodeLoop (p : Problem T O G) (frozen : List Int) : Nat → Iter (Node T O G) → Option (List (Block T G))
  | 0, _ => none
  | fuel + 1, it =>
    if it.eq (end_ p.nodes) then some []
    else do
      let x ← it.deref
      let stop := endOfTrajectory p.nodes x.1.1
      if x.1.1 ∈ frozen then nodeLoop p frozen fuel stop
      else
        let next ← it.next
        let (blocks, last) ← innerLoop S p.odometry stop fuel it next
        let rest ← nodeLoop p frozen fuel last
        some (blocks ++ rest)

/-! ### Fixed frames -/

/-- The starting point of the fixed frame (op2d:375-385). -/
def startOrigin (origin : Option G) (node : Node T O G) (pose : G) : O :=
  match origin with
  | some g => S.proj g
  | none => node.globalPose * (S.proj pose)⁻¹

/-- The loop over the nodes of a trajectory with fixed frame data (op2d:361-400); `start` is the starting point if
`fixed_frame_pose_initialized`. -/
def fixedFrameInner (tr : List (T × Reading T (Option G))) (origin : Option G) (stop : Iter (Node T O G)) :
    Nat → Iter (Node T O G) → Option O → Option (List (Block T G) × Option O × Iter (Node T O G))
  | 0, _, _ => none
  | fuel + 1, it, start =>
    if it.eq stop then some ([], start, it)
    else do
      let x ← it.deref
      let next ← it.next
      match interpolateFixedFrame S tr x.2.time with
      | none => fixedFrameInner tr origin stop fuel next start
      | some pose =>
        let o := start.getD (startOrigin S origin x.2 pose)
        let (rest, start', last) ← fixedFrameInner tr origin stop fuel next (some o)
        some (.fixedFrame x.1.1 x.1 pose :: rest, start', last)

/-- The loop over the trajectories for fixed frames (op2d:351-401); `none` is also the exception of
`trajectory_data_.at`. -/
def fixedFrameLoop (p : Problem T O G) : Nat → Iter (Node T O G) → Option (List (Block T G) × List (Int × O))
  | 0, _ => none
  | fuel + 1, it =>
    if it.eq (end_ p.nodes) then some ([], [])
    else do
      let x ← it.deref
      let stop := endOfTrajectory p.nodes x.1.1
      match SMap.get? x.1.1 p.fixedFrame with
      | none => fixedFrameLoop p fuel stop
      | some tr =>
        let origin ← SMap.get? x.1.1 p.trajectoryData
        let (blocks, start, last) ← fixedFrameInner S tr origin stop fuel it none
        let (rest, origins) ← fixedFrameLoop p fuel last
        some (blocks ++ rest, match start with
          | some o => (x.1.1, o) :: origins
          | none => origins)

/-! ### Building and solving -/

/-- The loop over the submaps (op2d:265-278): the ids set constant. -/
def constSubmaps (frozen : List Int) : List (Id × O) → Bool → List Id
  | [], _ => []
  | (id, _) :: rest, first =>
    if first || id.1 ∈ frozen then id :: constSubmaps frozen rest false else constSubmaps frozen rest first

/-- The loop over the constraints (op2d:289-298); `none` is the exception of `at`. -/
def constraintBlocks (p : Problem T O G) : List (Constraint G) → Option (List (Block T G))
  | [] => some []
  | c :: cs => do
    let _ ← at? p.submaps c.submap
    let _ ← at? p.nodes c.node
    let rest ← constraintBlocks p cs
    some (.constraint c.submap c.node c.pose c.inter :: rest)

/-- `Solve` up to calling Ceres (op2d:240-401); `some none`: nothing to optimize. -/
def build (p : Problem T O G) (constraints : List (Constraint G)) (frozen : List Int) (landmarks : List (Landmark T G)) :
    Option (Option (Built T O G)) :=
  if empty p.nodes then some none
  else do
    let cs ← constraintBlocks p constraints
    let (ls, constLandmarks) ← addLandmarks p.nodes landmarks
    let ns ← nodeLoop S p frozen (size p.nodes + 1) (begin_ p.nodes)
    let (fs, origins) ← fixedFrameLoop S p (size p.nodes + 2) (begin_ p.nodes)
    some (some {
      constSubmaps := constSubmaps frozen (flat p.submaps) true
      constNodes := ((flat p.nodes).filter (fun x => x.1.1 ∈ frozen)).map (·.1)
      constLandmarks := constLandmarks
      blocks := cs ++ ls ++ ns ++ fs
      origins := origins })

/-- The values Ceres finds for the parameter blocks. -/
structure Solution (O : Type) where
  node : Id → O
  submap : Id → O
  origin : Int → O

/-- Storing the fixed frame origins (op2d:421-424); `none` is the exception of `at`. -/
def storeOrigins (sol : Solution O) : List (Int × O) → List (Int × Option G) → Option (List (Int × Option G))
  | [], td => some td
  | (t, _) :: rest, td => do
    let _ ← SMap.get? t td
    storeOrigins sol rest (SMap.put t (some (S.emb (sol.origin t))) td)

/-- `Solve` (op2d:240-428); the landmark poses it also stores are not used by the rest of the class. -/
def solve (p : Problem T O G) (constraints : List (Constraint G)) (frozen : List Int) (landmarks : List (Landmark T G))
    (sol : Solution O) : Option (Problem T O G) := do
  match ← build S p constraints frozen landmarks with
  | none => some p
  | some b =>
    let td ← storeOrigins S sol b.origins p.trajectoryData
    some { p with
      nodes := GlobalPoses.mapAll (fun id n => { n with globalPose := sol.node id }) p.nodes
      submaps := GlobalPoses.mapAll (fun id _ => sol.submap id) p.submaps
      trajectoryData := td }

/-! ### The other functions of the class -/

/-- `trajectory_data_[trajectory_id];` (op2d:196, 207). -/
def touch (td : List (Int × Option G)) (t : Int) : List (Int × Option G) :=
  match SMap.get? t td with
  | some _ => td
  | none => SMap.put t none td

variable [BoundedOrder T]

/-- `TrimTrajectoryNode` (op2d:210-218); `empty_imu_data_` has no data. -/
def trimNode (p : Problem T O G) (id : Id) : Option (Problem T O G) := do
  let odometry ← MapByTime.trim (fun n : Node T O G => n.time) p.nodes id p.odometry
  let fixedFrame ← MapByTime.trim (fun n : Node T O G => n.time) p.nodes id p.fixedFrame
  let nodes ← trim p.nodes id
  some { p with
    nodes := nodes, odometry := odometry, fixedFrame := fixedFrame,
    trajectoryData := if sizeOfTrajectoryOrZero nodes id.1 = 0 then SMap.erase id.1 p.trajectoryData else p.trajectoryData }

/-- The calls that change the problem. -/
inductive Call (T O G : Type) where
  | addOdometry (t : Int) (r : Reading T G)
  | addFixedFrame (t : Int) (r : Reading T (Option G))
  | addNode (t : Int) (n : Node T O G)
  | setTrajectoryData (t : Int) (origin : Option G)
  | insertNode (id : Id) (n : Node T O G)
  | trimNode (id : Id)
  | addSubmap (t : Int) (o : O)
  | insertSubmap (id : Id) (o : O)
  | trimSubmap (id : Id)
  | solve (constraints : List (Constraint G)) (frozen : List Int) (landmarks : List (Landmark T G)) (sol : Solution O)

/-- `AddOdometryData` (op2d:182-185), `AddFixedFramePoseData` (op2d:187-191), `AddTrajectoryNode` (op2d:193-197),
`SetTrajectoryData` (op2d:199-202), `InsertTrajectoryNode` (op2d:204-208), `TrimTrajectoryNode`, `AddSubmap`
(op2d:220-223), `InsertSubmap` (op2d:225-228), `TrimSubmap` (op2d:230-232) and `Solve`. -/
def exec (p : Problem T O G) : Call T O G → Option (Problem T O G)
  | .addOdometry t r => (MapByTime.append (·.time) p.odometry t r).map (fun m => { p with odometry := m })
  | .addFixedFrame t r => (MapByTime.append (·.time) p.fixedFrame t r).map (fun m => { p with fixedFrame := m })
  | .addNode t n =>
    (append p.nodes t n).map (fun r => { p with nodes := r.1, trajectoryData := touch p.trajectoryData t })
  | .setTrajectoryData t origin => some { p with trajectoryData := SMap.put t origin p.trajectoryData }
  | .insertNode id n =>
    (insert p.nodes id n).map (fun m => { p with nodes := m, trajectoryData := touch p.trajectoryData id.1 })
  | .trimNode id => trimNode p id
  | .addSubmap t o => (append p.submaps t o).map (fun r => { p with submaps := r.1 })
  | .insertSubmap id o => (insert p.submaps id o).map (fun m => { p with submaps := m })
  | .trimSubmap id => (trim p.submaps id).map (fun m => { p with submaps := m })
  | .solve cs frozen ls sol => solve S p cs frozen ls sol

/-- Executions. -/
inductive Exec : Problem T O G → List (Call T O G) → Problem T O G → Prop where
  | nil (p) : Exec p [] p
  | snoc {p p' p'' : Problem T O G} {cs : List (Call T O G)} {c : Call T O G} :
      Exec p cs p' → exec S p' c = some p'' → Exec p (cs ++ [c]) p''

end Verif.OptProblem
