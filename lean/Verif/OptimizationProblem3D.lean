import Verif.OptimizationProblem
import Verif.ImuIntegration

/-!
# The optimization problem of the 3D pose graph

/repo/cartographer/mapping/internal/optimization/optimization_problem_3d.cc ("op3d").

Modelled: which residual blocks, constant parameter blocks and bounds `Solve` hands to Ceres, how the result is stored, and the functions
that change the problem.  What is the same as in 2D (constraints, landmarks, interpolation) is taken from `Verif.OptProblem`, with `Rigid3d`
for both kinds of poses; the gravity alignment of its nodes is not used.  `IntegrateImu` is that of `Verif.Imu`.

Simplifications: as in 2D.  The loops over nodes are recursions over the lists of nodes of the trajectories; `Verif.OptProblem` shows for the
same loops that the iterators visit these.  `SetParameterLowerBound` of Ceres aborts if the parameter block has not been added to the
problem (`LOG(FATAL)` in its problem_impl.cc; not in /repo).
-/

namespace Verif.OptProblem3

open MapById Rigid

/-- `NodeSpec3D` (optimization_problem_3d.h:44-48). -/
abbrev Node (T G : Type) := OptProblem.Node T G G

/-- `ImuData` (sensor/imu_data.h:27-31). -/
structure ImuReading (T : Type) where
  time : T
  acceleration : V3
  gyro : V3

/-- The interpolation of poses, the rotation about the vertical axis only (op3d:541-547), times as numbers of ticks, and the number of ticks
in a second. -/
structure Setup (T G : Type) where
  lerp : T → G → T → G → T → G
  yaw : G → G
  tick : T → Int
  ticks : ℝ

/-- The options used here: `fix_z_in_3d` and `use_online_imu_extrinsics_in_3d`. -/
structure Options where
  fixZ : Bool
  online : Bool

/-- The members (optimization_problem_3d.h:125-132). -/
structure Problem (T G : Type) extends OptProblem.Problem T G G where
  imu : MapByTime.Map T (ImuReading T) := []

/-- A call of `AddResidualBlock`: one as in 2D, or one for inertial measurements, with the durations in ticks. -/
inductive Block (T G : Type) where
  | two (b : OptProblem.Block T G)
  | rotation (first second : Id) (q : Quat) (duration : Int)
  | acceleration (first second third : Id) (v : V3) (firstDuration secondDuration : Int)

/-- What has been handed to Ceres.  `constYaw`: submaps whose rotation keeps its yaw; `constCalibration`: trajectories with a constant
calibration of the IMU; `positive`: trajectories with a lower bound for gravity. -/
structure Built (T G : Type) where
  constTranslation : List Id
  constRotation : List Id
  constYaw : List Id
  constNodes : List Id
  constLandmarks : List String
  constCalibration : List Int
  positive : List Int
  blocks : List (Block T G)
  origins : List (Int × G)

variable {T G : Type} [LinearOrder T] [Group G] (S : Setup T G)

/-- The functions shared with 2D. -/
def Setup.two : OptProblem.Setup T G G := ⟨id, id, S.lerp⟩

/-! ### Inertial measurements -/

/-- A reading with its time in ticks. -/
def Setup.data (r : ImuReading T) : Imu.Data := ⟨S.tick r.time, r.acceleration, r.gyro⟩

/-- The block for three consecutive nodes (op3d:399-435): `r` is what was integrated from `a` to `b`, `it` is `imu_it2`. -/
noncomputable def accelerationBlock (data : List Imu.Data) (t : Int) (a b : Int × Node T G) (r : Imu.Result) (it : Nat) :
    List (Int × Node T G) → Option (List (Block T G))
  | [] => some []
  | c :: _ =>
    if c.1 = b.1 + 1 then do
      let t1 := S.tick a.2.time
      let t2 := S.tick b.2.time
      let t3 := S.tick c.2.time
      let c1 := t1 + (t2 - t1).tdiv 2
      let c2 := t2 + (t3 - t2).tdiv 2
      let first ← Imu.integrate id id S.ticks data t1 c1 it
      let between ← Imu.integrate id id S.ticks data c1 c2 first.2
      some [.acceleration (t, a.1) (t, b.1) (t, c.1)
        (((Imu.inverseQuat r.rotation).mul first.1.rotation).rotate between.1.velocity) (t2 - t1) (t3 - t2)]
    else some []

/-- The loop over the nodes of a trajectory (op3d:373-443); `it` is `imu_it`. -/
noncomputable def imuLoop (data : List Imu.Data) (t : Int) : Int × Node T G → List (Int × Node T G) → Nat → Option (List (Block T G))
  | _, [], _ => some []
  | a, b :: rest, it =>
    if b.1 ≠ a.1 + 1 then imuLoop data t b rest it
    else do
      let it1 := Imu.skip data (S.tick a.2.time) data.length it
      let r ← Imu.integrate id id S.ticks data (S.tick a.2.time) (S.tick b.2.time) it1
      let acc ← accelerationBlock S data t a b r.1 it1 rest
      let more ← imuLoop data t b rest r.2
      some (acc ++ .rotation (t, a.1) (t, b.1) r.1.rotation (S.tick b.2.time - S.tick a.2.time) :: more)

/-- The block uses the gravity constant of the trajectory. -/
def Block.usesGravity : Block T G → Bool
  | .acceleration .. => true
  | _ => false

/-- `SetParameterLowerBound` for the gravity constant (op3d:446): it is a parameter of the problem only if a block uses it. -/
def boundGravity (bs : List (Block T G)) : Option (List (Block T G)) := if bs.any Block.usesGravity then some bs else none

/-- The body of the loop over trajectories (op3d:355-447). -/
noncomputable def imuTrajectory (p : Problem T G) (t : Int) : List (Int × Node T G) → Option (List (Block T G))
  | [] => some []
  | x :: xs => do
    let _ ← SMap.get? t p.trajectoryData
    let imu ← SMap.get? t p.imu
    if imu.isEmpty then none
    else do
      let bs ← imuLoop S (imu.map fun e => S.data e.2) t x xs 0
      boundGravity bs

/-- The loop over all nodes (op3d:352-448). -/
noncomputable def imuPart (p : Problem T G) (frozen : List Int) : Map (Node T G) → Option (List (Block T G))
  | [] => some []
  | (t, tr) :: m =>
    if t ∈ frozen then imuPart p frozen m
    else do
      let bs ← imuTrajectory S p t tr.data
      let rest ← imuPart p frozen m
      some (bs ++ rest)

/-! ### Consecutive nodes -/

/-- `CalculateOdometryBetweenNodes` (op3d:612-630). -/
def odometryBetween (odometry : MapByTime.Map T (OptProblem.Reading T G)) (t : Int) (a b : Node T G) : Option G :=
  match SMap.get? t odometry with
  | none => none
  | some tr =>
    match OptProblem.interpolateOdometry S.two tr a.time, OptProblem.interpolateOdometry S.two tr b.time with
    | some x, some y => some (x⁻¹ * y)
    | _, _ => none

/-- The loop over the nodes of a trajectory with `fix_z_in_3d` (op3d:462-496). -/
def pairLoop (odometry : MapByTime.Map T (OptProblem.Reading T G)) (t : Int) :
    Int × Node T G → List (Int × Node T G) → List (Block T G)
  | _, [] => []
  | a, b :: rest =>
    if b.1 ≠ a.1 + 1 then pairLoop odometry t b rest
    else
      (match odometryBetween S odometry t a.2 b.2 with
        | some pose => [.two (.odometry (t, a.1) (t, b.1) pose)]
        | none => []) ++ .two (.localSlam (t, a.1) (t, b.1) (a.2.localPose⁻¹ * b.2.localPose)) :: pairLoop odometry t b rest

/-- The loop over all nodes (op3d:453-497). -/
def pairPart (p : Problem T G) (frozen : List Int) : Map (Node T G) → List (Block T G)
  | [] => []
  | (t, tr) :: m =>
    if t ∈ frozen then pairPart p frozen m
    else
      match tr.data with
      | [] => pairPart p frozen m
      | x :: xs => pairLoop S p.odometry t x xs ++ pairPart p frozen m

/-! ### Fixed frames -/

/-- The loop over the nodes of a trajectory with fixed frame data (op3d:513-564); `start` is the starting point if
`fixed_frame_pose_initialized`. -/
def frameLoop (tr : List (T × OptProblem.Reading T (Option G))) (origin : Option G) (t : Int) :
    List (Int × Node T G) → Option G → List (Block T G) × Option G
  | [], start => ([], start)
  | x :: xs, start =>
    match OptProblem.interpolateFixedFrame S.two tr x.2.time with
    | none => frameLoop tr origin t xs start
    | some pose =>
      let r := frameLoop tr origin t xs (some (start.getD (S.yaw (origin.getD (x.2.globalPose * pose⁻¹)))))
      (.two (.fixedFrame t (t, x.1) pose) :: r.1, r.2)

/-- The loop over the trajectories (op3d:500-565); `none` is the exception of `trajectory_data_.at`. -/
def framePart (p : Problem T G) : Map (Node T G) → Option (List (Block T G) × List (Int × G))
  | [] => some ([], [])
  | (t, tr) :: m =>
    match SMap.get? t p.fixedFrame with
    | none => framePart p m
    | some data => do
      let origin ← SMap.get? t p.trajectoryData
      let rest ← framePart p m
      let r := frameLoop S data origin t tr.data none
      some (r.1 ++ rest.1, (r.2.map fun o => (t, o)).toList ++ rest.2)

/-! ### Building and solving -/

/-- `Solve` up to calling Ceres (op3d:241-565); `some none`: nothing to optimize. -/
noncomputable def build (o : Options) (p : Problem T G) (constraints : List (OptProblem.Constraint G)) (frozen : List Int)
    (landmarks : List (OptProblem.Landmark T G)) : Option (Option (Built T G)) :=
  if empty p.nodes then some none
  else if empty p.submaps then none
  else do
    let cs ← OptProblem.constraintBlocks p.toProblem constraints
    let ls ← OptProblem.addLandmarks p.nodes landmarks
    let imu ← if o.fixZ then some [] else imuPart S p frozen p.nodes
    let fs ← framePart S p p.nodes
    let free := p.nodes.filterMap fun e => if e.1 ∈ frozen then none else some e.1
    some (some {
      constTranslation := (flat p.submaps).head?.toList.map (·.1) ++ ((flat p.submaps).filter (fun x => x.1.1 ∈ frozen)).map (·.1)
      constRotation := ((flat p.submaps).filter (fun x => x.1.1 ∈ frozen)).map (·.1)
      constYaw := (flat p.submaps).head?.toList.map (·.1)
      constNodes := ((flat p.nodes).filter (fun x => x.1.1 ∈ frozen)).map (·.1)
      constLandmarks := ls.2
      constCalibration := if o.fixZ || o.online then [] else free
      positive := if o.fixZ then [] else free
      blocks := cs.map .two ++ ls.1.map .two ++ imu ++ (if o.fixZ then pairPart S p frozen p.nodes else []) ++ fs.1
      origins := fs.2 })

/-- `Solve` (op3d:241-610). -/
noncomputable def solve (o : Options) (p : Problem T G) (constraints : List (OptProblem.Constraint G)) (frozen : List Int)
    (landmarks : List (OptProblem.Landmark T G)) (sol : OptProblem.Solution G) : Option (Problem T G) := do
  match ← build S o p constraints frozen landmarks with
  | none => some p
  | some b =>
    let td ← OptProblem.storeOrigins S.two sol b.origins p.trajectoryData
    some { p with
      nodes := GlobalPoses.mapAll (fun id n => { n with globalPose := sol.node id }) p.nodes
      submaps := GlobalPoses.mapAll (fun id _ => sol.submap id) p.submaps
      trajectoryData := td }

variable [BoundedOrder T]

/-- `TrimTrajectoryNode` (op3d:228-236). -/
def trimNode (p : Problem T G) (id : Id) : Option (Problem T G) := do
  let imu ← MapByTime.trim (fun n : Node T G => n.time) p.nodes id p.imu
  let two ← OptProblem.trimNode p.toProblem id
  some { toProblem := two, imu := imu }

/-- The calls that change the problem. -/
inductive Call (T G : Type) where
  | addImu (t : Int) (r : ImuReading T)
  | addOdometry (t : Int) (r : OptProblem.Reading T G)
  | addFixedFrame (t : Int) (r : OptProblem.Reading T (Option G))
  | addNode (t : Int) (n : Node T G)
  | setTrajectoryData (t : Int) (origin : Option G)
  | insertNode (id : Id) (n : Node T G)
  | trimNode (id : Id)
  | addSubmap (t : Int) (o : G)
  | insertSubmap (id : Id) (o : G)
  | trimSubmap (id : Id)
  | solve (constraints : List (OptProblem.Constraint G)) (frozen : List Int) (landmarks : List (OptProblem.Landmark T G))
      (sol : OptProblem.Solution G)

/-- A call as in 2D, on the members that both classes have. -/
def exec2 (p : Problem T G) (c : OptProblem.Call T G G) : Option (Problem T G) :=
  (OptProblem.exec S.two p.toProblem c).map fun q => { p with toProblem := q }

/-- op3d:193-260. -/
noncomputable def exec (o : Options) (p : Problem T G) : Call T G → Option (Problem T G)
  | .addImu t r => (MapByTime.append (·.time) p.imu t r).map fun m => { p with imu := m }
  | .addOdometry t r => exec2 S p (.addOdometry t r)
  | .addFixedFrame t r => exec2 S p (.addFixedFrame t r)
  | .addNode t n => exec2 S p (.addNode t n)
  | .setTrajectoryData t origin => exec2 S p (.setTrajectoryData t origin)
  | .insertNode id n => exec2 S p (.insertNode id n)
  | .trimNode id => trimNode p id
  | .addSubmap t g => exec2 S p (.addSubmap t g)
  | .insertSubmap id g => exec2 S p (.insertSubmap id g)
  | .trimSubmap id => exec2 S p (.trimSubmap id)
  | .solve cs frozen ls sol => solve S o p cs frozen ls sol

/-- Executions. -/
inductive Exec (o : Options) : Problem T G → List (Call T G) → Problem T G → Prop where
  | nil (p) : Exec o p [] p
  | snoc {p p' p'' : Problem T G} {cs : List (Call T G)} {c : Call T G} :
      Exec o p cs p' → exec S o p' c = some p'' → Exec o p (cs ++ [c]) p''

end Verif.OptProblem3
