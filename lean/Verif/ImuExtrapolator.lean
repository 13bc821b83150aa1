import Verif.ImuIntegration
import Verif.InterpolationBuffer

/-!
# The pose extrapolator based on inertial measurements

Model of mapping/internal/imu_based_pose_extrapolator.cc (abbreviated ibe). Times are ticks of 100 ns, floating point numbers are reals. `none` is a
failing `CHECK`, undefined behaviour (`back()` of an empty queue), or a division by zero, with which the code continues with values that are not
numbers. The solver is an argument: what it makes of the optimization problem is not specified by the code.
-/

namespace Verif.ImuExtrapolator

open Verif.Rigid Verif.Imu
open InterpolationBuffer (Stamped)

/-- `ImuBasedPoseExtrapolatorOptions` (mapping/proto/pose_extrapolator_options.proto); the duration as the `FromSeconds` of ibe 90. -/
structure Options where
  duration : Int
  gravity : ℝ
  poseTranslation : ℝ
  poseRotation : ℝ
  acceleration : ℝ
  rotation : ℝ
  odometryTranslation : ℝ
  odometryRotation : ℝ

/-- The members (imu_based_pose_extrapolator.h 82-96) without the histogram. `Time::min()` is `none`. -/
structure State where
  poses : List Stamped := []
  previous : List Stamped := []
  imu : List Data := []
  odometry : List Stamped := []
  last : Option Int := none
  gravityFromLocal : Rigid3 := Rigid3.identity

/-- Ticks per second. -/
noncomputable def ticks : ℝ := 10000000

/-- `TrimDequeData` (ibe 389-395) for a queue of poses that begins at `front`. -/
def trim {α : Type} (time : α → Int) (front : Int) : List α → List α
  | a :: b :: l => if time b ≤ front then trim time front (b :: l) else a :: b :: l
  | l => l

/-- `TrimDequeData` (ibe 389-395): nothing is removed while there are no poses. -/
def trimTo {α : Type} (time : α → Int) (poses : List Stamped) (l : List α) : List α :=
  match poses with
  | [] => l
  | p :: _ => trim time p.time l

/-- The loop of `AddPose` (ibe 88-96): the poses and the previous solution that are left. -/
def pop (limit : Int) : List Stamped → List Stamped → Option (List Stamped × List Stamped)
  | a :: b :: c :: d :: l, previous =>
    if b.time ≤ limit then
      match previous with
      | [] => pop limit (b :: c :: d :: l) []
      | e :: r => if a.time = e.time then pop limit (b :: c :: d :: l) r else none
    else some (a :: b :: c :: d :: l, previous)
  | l, previous => some (l, previous)

/-- `AddPose` (ibe 85-98). -/
def addPose (o : Options) (s : State) (p : Stamped) : Option State :=
  (pop (p.time - o.duration) (s.poses ++ [p]) s.previous).map fun r =>
    { s with poses := r.1, previous := r.2, imu := trimTo Data.time r.1 s.imu }

/-- The `CHECK` of ibe 101-102 and 109-110. -/
def notBefore (s : State) (time : Int) : Bool :=
  match s.poses.getLast? with
  | none => true
  | some p => decide (p.time ≤ time)

/-- `AddImuData` (ibe 100-105). -/
def addImu (s : State) (d : Data) : Option State :=
  if notBefore s d.time then some { s with imu := trimTo Data.time s.poses (s.imu ++ [d]) } else none

/-- `AddOdometryData` (ibe 107-113). -/
def addOdometry (s : State) (d : Stamped) : Option State :=
  if notBefore s d.time then some { s with odometry := trimTo Stamped.time s.poses (s.odometry ++ [d]) } else none

/-- Several poses one after the other. -/
def addPoses (o : Options) (s : State) : List Stamped → Option State
  | [] => some s
  | p :: l => (addPose o s p).bind fun s' => addPoses o s' l

/-- `InitializeWithImu` (ibe 49-72); `align` is `FromTwoVectors(acceleration, UnitZ)`. -/
def create (o : Options) (align : V3 → Quat) (data : List Data) (initial : List Stamped) : Option State :=
  match data.head?, data.getLast? with
  | some first, some last =>
    match initial with
    | [] => addPose o { imu := data } ⟨last.time, ⟨⟨0, 0, 0⟩, align last.acceleration⟩⟩
    | p :: l => addPoses o { imu := data } ((p :: l).filter fun e => decide (first.time < e.time))
  | _, _ => none

/-! ### The optimization problem -/

/-- A residual block; nodes are numbered. -/
inductive Term where
  /-- The pose of a node, seen from the local frame (ibe 207-218). -/
  | pose (node : Nat) (measured : Rigid3)
  /-- The change of velocity around a node, and the durations before and after (ibe 242-272). -/
  | acceleration (node : Nat) (delta : V3) (before after : Int)
  /-- The rotation from the node before (ibe 279-283). -/
  | rotation (node : Nat) (delta : Quat)
  /-- The movement from the node before by odometry (ibe 285-312). -/
  | odometry (node : Nat) (relative : Rigid3)

/-- What is given to the solver: initial values and residuals. The gravity constant is optimized if it is not fixed. -/
structure Problem where
  gravityFromLocal : Rigid3
  nodes : List Rigid3
  gravity : ℝ
  fixed : Bool
  terms : List Term

/-- What the solver returns. -/
structure Solution where
  gravityFromLocal : Rigid3
  nodes : List Rigid3

/-- The initial value of a node (ibe 145-162). -/
noncomputable def initialNode (s : State) (i : Nat) (p : Stamped) : Option Rigid3 :=
  if s.previous ≠ [] ∧ i + 1 ≠ s.poses.length then
    match s.previous[i]? with
    | none => none
    | some e => if p.time = e.time then some e.transform else none
  else some (s.gravityFromLocal.mul p.transform)

/-- The loop of ibe 145-174. -/
noncomputable def initialNodes (s : State) : Nat → List Stamped → Option (List Rigid3)
  | _, [] => some []
  | i, p :: l => do
    let n ← initialNode s i p
    let ns ← initialNodes s (i + 1) l
    some (n :: ns)

/-- `gravity_constant` (ibe 176-181). -/
noncomputable def gravityOf (o : Options) : ℝ := if 0 < o.gravity then o.gravity else 98 / 10

/-- The initial value of the node that is extrapolated (ibe 183-205), from the nodes of the last two poses. With poses at the same time the velocity is not
a number. -/
noncomputable def estimate (o : Options) (s : State) (before : Rigid3) (timeBefore : Int) (newest : Rigid3) (newestTime time : Int) : Option Rigid3 :=
  if s.imu = [] ∨ newestTime = timeBefore then none
  else (extrapolate ticks s.imu newest (trackingVelocity ticks newest newestTime before timeBefore) ⟨0, 0, gravityOf o⟩ newestTime time
    (skip s.imu newestTime s.imu.length 0)).map fun r => r.1.1

/-- `HasOdometryDataForTime` (ibe 406-414). -/
def hasOdometry (l : List Stamped) (time : Int) : Bool :=
  decide (2 ≤ l.length) &&
    match l.head?, l.getLast? with
    | some first, some last => decide (first.time < time) && decide (time < last.time)
    | _, _ => false

/-- `InterpolateOdometry` (ibe 416-430); `upper_bound` finds the first item after `time` if they are in order. -/
noncomputable def odometryAt (eps : ℝ) (l : List Stamped) (time : Int) : Option Rigid3 :=
  if hasOdometry l time then
    match (l.takeWhile fun e => decide (e.time ≤ time)).getLast?, (l.dropWhile fun e => decide (e.time ≤ time)).head? with
    | some first, some second => (InterpolationBuffer.interpolate eps first second time).map Stamped.transform
    | _, _ => none
  else none

/-- The pose of the odometry at the first of two nodes: remembered from the nodes before if that was computed (ibe 288-294; the time is taken to be none before). -/
noncomputable def startOdometry (eps : ℝ) (l : List Stamped) (known : Option (Int × Rigid3)) (time : Int) : Option Rigid3 :=
  match known with
  | some (t, r) => if t = time then some r else odometryAt eps l time
  | none => odometryAt eps l time

/-- The term for odometry (ibe 285-312) with what is remembered for the next nodes. -/
noncomputable def odometryTerm (eps : ℝ) (l : List Stamped) (known : Option (Int × Rigid3)) (i : Nat) (t1 t2 : Int) :
    Option (List Term × Option (Int × Rigid3)) :=
  if hasOdometry l t1 && hasOdometry l t2 then do
    let a ← startOdometry eps l known t1
    let b ← odometryAt eps l t2
    some ([.odometry i (a.inverse.mul b)], some (t2, b))
  else some ([], known)

/-- The term for the acceleration at a node with a next one (ibe 240-278); `r` is the integral between the first two. -/
noncomputable def accelerationTerm (data : List Data) (it : Nat) (r : Result) (i : Nat) (t1 t2 : Int) : List Int → Option (List Term)
  | [] => some []
  | t3 :: _ => do
    let c1 := t1 + (t2 - t1).tdiv 2
    let c2 := t2 + (t3 - t2).tdiv 2
    let (toFirst, it2) ← integrate id id ticks data t1 c1 it
    let (between, _) ← integrate id id ticks data c1 c2 it2
    some [.acceleration i (((inverseQuat r.rotation).mul toFirst.rotation).rotate between.velocity) (t2 - t1) (t3 - t2)]

/-- The loop over the nodes (ibe 236-313), for the times of the nodes from `i - 1`. -/
noncomputable def imuTerms (eps : ℝ) (data : List Data) (odometry : List Stamped) : Nat → Nat → Option (Int × Rigid3) → List Int → Option (List Term)
  | i, it, known, t1 :: t2 :: l => do
    let (r, it') ← integrate id id ticks data t1 t2 it
    let a ← accelerationTerm data it r i t1 t2 l
    let (b, known') ← odometryTerm eps odometry known i t1 t2
    let more ← imuTerms eps data odometry (i + 1) it' known' (t2 :: l)
    some (a ++ [.rotation i r.rotation] ++ b ++ more)
  | _, _, _, _ => some []

/-- The terms for the poses (ibe 207-218). -/
def poseTerms (poses : List Stamped) : List Term := poses.mapIdx fun i p => .pose i p.transform

/-- The `CHECK`s of ibe 220-221 and 230-231: the first measurement is the last one that is not after the first pose. -/
def covered (imu : List Data) (front : Int) : Bool :=
  match imu with
  | [] => false
  | [a] => decide (a.time ≤ front)
  | a :: b :: _ => decide (a.time ≤ front) && decide (front < b.time)

/-- The problem for the time `time` (ibe 133-313). -/
noncomputable def problem (eps : ℝ) (o : Options) (s : State) (time : Int) : Option Problem := do
  let nodes ← initialNodes s 0 s.poses
  let newest ← s.poses.getLast?
  let before ← s.poses.dropLast.getLast?
  let newestNode ← nodes.getLast?
  let beforeNode ← nodes.dropLast.getLast?
  let e ← estimate o s beforeNode before.time newestNode newest.time time
  let front ← s.poses.head?
  guard (covered s.imu front.time)
  let terms ← imuTerms eps s.imu s.odometry 1 0 none (s.poses.map Stamped.time ++ [time])
  some ⟨s.gravityFromLocal, nodes ++ [e], gravityOf o, decide (0 < o.gravity), poseTerms s.poses ++ terms⟩

/-! ### Extrapolation -/

/-- `ExtrapolationResult` (pose_extrapolator_interface.h 42-51). -/
structure Extrapolated where
  previous : List Rigid3
  current : Rigid3
  velocity : V3
  gravity : Quat

/-- One pose of `InterpolatePoses` (ibe 354-373). -/
noncomputable def interpolatePose (eps : ℝ) (start stop : Stamped) (time : Int) : Option Rigid3 :=
  let factor : ℝ := ((time - start.time : Int) / ticks) * (1 / ((stop.time - start.time : Int) / ticks))
  (InterpolationBuffer.slerp eps start.transform.rotation factor stop.transform.rotation).map fun rotation =>
    ⟨⟨start.transform.translation.x + (stop.transform.translation.x - start.transform.translation.x) * factor,
      start.transform.translation.y + (stop.transform.translation.y - start.transform.translation.y) * factor,
      start.transform.translation.z + (stop.transform.translation.z - start.transform.translation.z) * factor⟩, rotation⟩

/-- `InterpolatePoses` (ibe 349-375). -/
noncomputable def interpolatePoses (eps : ℝ) (start stop : Stamped) (times : List Int) : Option (List Rigid3) := times.mapM (interpolatePose eps start stop)

/-- Whether nothing is extrapolated (ibe 124-125): fewer than three poses, or less than a microsecond after the newest one. -/
def early (s : State) (newest time : Int) : Bool := decide (s.poses.length < 3) || decide (time - newest < 10)

/-- After solving (ibe 320-346); the solver has changed all nodes. -/
noncomputable def finish (eps : ℝ) (s : State) (newest : Stamped) (times : List Int) (time : Int) (sol : Solution) : Option (Extrapolated × State) := do
  let node ← sol.nodes.getLast?
  let newestNode ← sol.nodes.dropLast.getLast?
  let current := (newest.transform.mul newestNode.inverse).mul node
  let before ← interpolatePoses eps newest ⟨time, current⟩ times.dropLast
  let dt : ℝ := (time - newest.time : Int) / ticks
  some (⟨before, current, scale (1 / dt) ⟨current.translation.x - newest.transform.translation.x, current.translation.y - newest.transform.translation.y,
      current.translation.z - newest.transform.translation.z⟩, node.rotation⟩,
    { s with
      last := some time
      gravityFromLocal := sol.gravityFromLocal
      previous := List.zipWith Stamped.mk (s.poses.map Stamped.time ++ [time]) sol.nodes })

/-- `ExtrapolatePosesWithGravity` (ibe 115-347). -/
noncomputable def extrapolatePoses (eps : ℝ) (o : Options) (solve : Problem → Solution) (s : State) (times : List Int) : Option (Extrapolated × State) := do
  let time ← times.getLast?
  let newest ← s.poses.getLast?
  guard (newest.time ≤ time)
  if early s newest.time time then
    some (⟨List.replicate (times.length - 1) newest.transform, newest.transform, ⟨0, 0, 0⟩, newest.transform.rotation⟩, { s with last := some time })
  else do
    let p ← problem eps o s time
    finish eps s newest times time (solve p)

end Verif.ImuExtrapolator
