import Mathlib.Analysis.SpecialFunctions.Exp
import Verif.Rigid

/-!
# The pose extrapolator

Model of `cartographer/mapping/imu_tracker.cc` (abbreviated it) and `cartographer/mapping/pose_extrapolator.cc` (pe).
Floating point numbers are reals, times are ticks of 100 ns (`common/time.h`). `Time::min()`, which both classes use for
"never", is `none`. A failing `CHECK` is an `Abort`; so are the undefined behaviours of the code (`back()` of an empty
queue, a null tracker) and a division by zero, which in the code gives a velocity that is not a number.
-/

namespace Verif.Extrapolator

open Verif.Rigid

/-- Why a call does not return normally. -/
inductive Abort where
  /-- A `CHECK` that compares times. -/
  | time
  /-- One of the two `CHECK`s on the estimated gravity direction (it 67-68). -/
  | gravity
  /-- A velocity is divided by a duration of zero; the code continues with a value that is not a number. -/
  | division
  /-- Undefined behaviour. -/
  | ub
  deriving DecidableEq

/-- `common::ToSeconds` (common/time.cc 33-36). -/
noncomputable def toSeconds (d : Int) : ℝ := (d : ℝ) / 10 ^ 7

/-- Scalar times vector. -/
def smul (c : ℝ) (v : V3) : V3 := ⟨c * v.x, c * v.y, c * v.z⟩

/-- Sum of vectors. -/
def vadd (v w : V3) : V3 := ⟨v.x + w.x, v.y + w.y, v.z + w.z⟩

/-- Vector divided by a number. -/
noncomputable def vdiv (v : V3) (c : ℝ) : V3 := ⟨v.x / c, v.y / c, v.z / c⟩

/-- `Eigen::Vector3d::UnitZ()`. -/
def unitZ : V3 := ⟨0, 0, 1⟩

/-- `normalized().z()` of a vector (Eigen `MatrixBase::normalized`). -/
noncomputable def normalizedZ (v : V3) : ℝ := if 0 < v.norm then v.z / v.norm else v.z

/-- `Quaternion::inverse` (Eigen): the conjugate divided by the squared norm, zero if that is zero. -/
noncomputable def inverse (q : Quat) : Quat :=
  if 0 < q.normSq then ⟨q.w / q.normSq, -q.x / q.normSq, -q.y / q.normSq, -q.z / q.normSq⟩ else ⟨0, 0, 0, 0⟩

/-- `ImuTracker` (mapping/imu_tracker.h 28-60). -/
structure Tracker where
  time : Int
  lastAcceleration : Option Int
  orientation : Quat
  gravity : V3
  angularVelocity : V3

/-- The constructor (it 30-37). -/
def Tracker.new (time : Int) : Tracker := ⟨time, none, ⟨1, 0, 0, 0⟩, unitZ, ⟨0, 0, 0⟩⟩

/-- `Advance` (it 39-48). -/
noncomputable def advance (tr : Tracker) (time : Int) : Except Abort Tracker :=
  if tr.time ≤ time then
    let delta := toSeconds (time - tr.time)
    let rotation := fromAngleAxis (smul delta tr.angularVelocity)
    .ok { tr with
      time := time
      orientation := (tr.orientation.mul rotation).normalized
      gravity := rotation.conjugate.rotate tr.gravity }
  else .error .time

/-- What is fixed when an extrapolator is made: `pose_queue_duration_`, `gravity_time_constant_` and
`Quaternion::FromTwoVectors`, which is left open here. -/
structure Params where
  duration : Int
  timeConstant : ℝ
  fromTwoVectors : V3 → V3 → Quat

/-- `alpha` of `AddImuLinearAccelerationObservation` (it 54-59). For the first observation the time since the last one is
infinite and `alpha` is 1. -/
noncomputable def alpha (P : Params) (tr : Tracker) : ℝ :=
  match tr.lastAcceleration with
  | some t => 1 - Real.exp (-toSeconds (tr.time - t) / P.timeConstant)
  | none => 1

/-- The gravity vector after `AddImuLinearAccelerationObservation` (it 60-61). -/
noncomputable def newGravity (P : Params) (tr : Tracker) (acceleration : V3) : V3 :=
  vadd (smul (1 - alpha P tr) tr.gravity) (smul (alpha P tr) acceleration)

/-- `AddImuLinearAccelerationObservation` (it 50-69). -/
noncomputable def observe (P : Params) (tr : Tracker) (acceleration : V3) : Except Abort Tracker :=
  let g := newGravity P tr acceleration
  let rotation := P.fromTwoVectors g (tr.orientation.conjugate.rotate unitZ)
  let orientation := (tr.orientation.mul rotation).normalized
  if (orientation.rotate g).z > 0 ∧ normalizedZ (orientation.rotate g) > 99 / 100 then
    .ok { tr with lastAcceleration := some tr.time, orientation := orientation, gravity := g }
  else .error .gravity

/-- `sensor::ImuData` (sensor/imu_data.h 29-33). -/
structure Imu where
  time : Int
  acceleration : V3
  angularVelocity : V3

/-- `TimedPose` and `sensor::OdometryData` (pose_extrapolator.h 75-78, sensor/odometry_data.h 28-31). -/
structure TimedPose where
  time : Int
  pose : Rigid3

/-- `PoseExtrapolator` (pose_extrapolator.h 74-93). `imu_tracker_`, `odometry_imu_tracker_` and
`extrapolation_imu_tracker_` are `none` while they are null. -/
structure State where
  poses : List TimedPose := []
  linearFromPoses : V3 := ⟨0, 0, 0⟩
  angularFromPoses : V3 := ⟨0, 0, 0⟩
  imu : List Imu := []
  tracker : Option Tracker := none
  odometryTracker : Option Tracker := none
  extrapolationTracker : Option Tracker := none
  cachedTime : Option Int := none
  cachedPose : Rigid3 := Rigid3.identity
  odometry : List TimedPose := []
  linearFromOdometry : V3 := ⟨0, 0, 0⟩
  angularFromOdometry : V3 := ⟨0, 0, 0⟩

/-- `timed_pose_queue_.back()`; `none` if the queue is empty. -/
def newest (s : State) : Option TimedPose := s.poses.getLast?

/-- The pops of `AddPose` (pe 79-82), for `limit = time - pose_queue_duration_`. -/
def trimPoses (limit : Int) : List TimedPose → List TimedPose
  | a :: b :: c :: l => if b.time ≤ limit then trimPoses limit (b :: c :: l) else a :: b :: c :: l
  | l => l

/-- The pops of `TrimImuData` (pe 182-187) when the newest pose has time `limit`. -/
def trimImu (limit : Int) : List Imu → List Imu
  | a :: b :: l => if b.time ≤ limit then trimImu limit (b :: l) else a :: b :: l
  | l => l

/-- `TrimImuData` (pe 182-187). -/
def trimImuData (s : State) : State :=
  match newest s with
  | some p => { s with imu := trimImu p.time s.imu }
  | none => s

/-- `TrimOdometryData` (pe 189-194); its loop is the one of `AddPose`. -/
def trimOdometryData (s : State) : State :=
  match newest s with
  | some p => { s with odometry := trimPoses p.time s.odometry }
  | none => s

/-- `UpdateVelocitiesFromPoses` (pe 156-180). -/
noncomputable def updateVelocities (P : Params) (s : State) : Except Abort State :=
  match s.poses with
  | oldest :: _ :: _ =>
    match newest s with
    | none => .error .ub
    | some new =>
      let delta := toSeconds (new.time - oldest.time)
      if delta < toSeconds P.duration then .ok s
      else if delta = 0 then .error .division
      else .ok { s with
        linearFromPoses := vdiv (vadd new.pose.translation (smul (-1) oldest.pose.translation)) delta
        angularFromPoses := vdiv (toAngleAxis ((inverse oldest.pose.rotation).mul new.pose.rotation)) delta }
  | _ => .ok s

/-- The loop over the IMU data (pe 218-223), followed by the last `Advance` (pe 224). -/
noncomputable def follow (P : Params) (time : Int) : List Imu → Tracker → Except Abort Tracker
  | [], tr => advance tr time
  | d :: l, tr =>
    if d.time < time then do
      let tr ← advance tr d.time
      let tr ← observe P tr d.acceleration
      follow P time l { tr with angularVelocity := d.angularVelocity }
    else advance tr time

/-- The angular velocity that replaces IMU data (pe 205-206). -/
def fakeAngularVelocity (s : State) : V3 :=
  if s.odometry.length < 2 then s.angularFromPoses else s.angularFromOdometry

/-- The first branch of `AdvanceImuTracker` (pe 202-207). -/
noncomputable def advanceWithoutImu (P : Params) (s : State) (time : Int) (tr : Tracker) : Except Abort Tracker := do
  let tr ← advance tr time
  let tr ← observe P tr unitZ
  .ok { tr with angularVelocity := fakeAngularVelocity s }

/-- "Advance to the beginning of `imu_data_`" (pe 209-212). -/
noncomputable def advanceToFront (front : Imu) (tr : Tracker) : Except Abort Tracker :=
  if tr.time < front.time then advance tr front.time else .ok tr

/-- `AdvanceImuTracker` (pe 196-225). The binary search of `lower_bound` is modelled by skipping the earlier entries, which
is the same for data that is sorted by time. -/
noncomputable def advanceImuTracker (P : Params) (s : State) (time : Int) (tr : Tracker) : Except Abort Tracker :=
  if tr.time ≤ time then
    match s.imu with
    | [] => advanceWithoutImu P s time tr
    | front :: l =>
      if time < front.time then advanceWithoutImu P s time tr
      else do
        let tr ← advanceToFront front tr
        follow P time ((front :: l).dropWhile (fun d => decide (d.time < tr.time))) tr
  else .error .time

/-- `ExtrapolateRotation` (pe 227-233), with the given tracker after the call. -/
noncomputable def extrapolateRotation (P : Params) (s : State) (time : Int) (tr : Tracker) :
    Except Abort (Quat × Tracker) :=
  match s.tracker with
  | none => .error .ub
  | some base => do
    let tr ← advanceImuTracker P s time tr
    .ok ((inverse base.orientation).mul tr.orientation, tr)

/-- The tracker at the beginning of `AddPose` (pe 70-77). -/
def startTracker (s : State) (time : Int) : Tracker :=
  match s.tracker with
  | some tr => tr
  | none => Tracker.new (match s.imu with | [] => time | d :: _ => min time d.time)

/-- `AddPose` (pe 68-89). -/
noncomputable def addPose (P : Params) (s : State) (time : Int) (pose : Rigid3) : Except Abort State := do
  let s1 ← updateVelocities P { s with poses := trimPoses (time - P.duration) (s.poses ++ [⟨time, pose⟩]) }
  let tr ← advanceImuTracker P s1 time (startTracker s time)
  let s2 := trimOdometryData (trimImuData { s1 with tracker := some tr })
  .ok { s2 with odometryTracker := some tr, extrapolationTracker := some tr }

/-- The first `CHECK` of `AddImuData` and `AddOdometryData` (pe 92-93, 100-101). -/
def notBefore (s : State) (time : Int) : Bool :=
  match newest s with
  | none => true
  | some p => decide (p.time ≤ time)

/-- `AddImuData` (pe 91-96). -/
def addImu (s : State) (d : Imu) : Except Abort State :=
  if notBefore s d.time then .ok (trimImuData { s with imu := s.imu ++ [d] })
  else .error .time

/-- `AddOdometryData` from line 109 on: the velocities. -/
noncomputable def odometryVelocities (P : Params) (s : State) (oldest new : TimedPose) : Except Abort State :=
  let delta := toSeconds (oldest.time - new.time)
  let d := new.pose.inverse.mul oldest.pose
  if delta = 0 then .error .division
  else
    let s1 := { s with angularFromOdometry := vdiv (toAngleAxis d.rotation) delta }
    match newest s1, s1.odometryTracker with
    | none, _ => .ok s1
    | some _, none => .error .ub
    | some p, some tr => do
      let r ← extrapolateRotation P s1 new.time tr
      .ok { s1 with
        odometryTracker := some r.2
        linearFromOdometry := (p.pose.rotation.mul r.1).rotate (vdiv d.translation delta) }

/-- `AddOdometryData` (pe 98-132). -/
noncomputable def addOdometry (P : Params) (s : State) (d : TimedPose) : Except Abort State :=
  if notBefore s d.time then
    let s1 := trimOdometryData { s with odometry := s.odometry ++ [d] }
    match s1.odometry with
    | oldest :: _ :: _ =>
      match s1.odometry.getLast? with
      | none => .error .ub
      | some new => odometryVelocities P s1 oldest new
    | _ => .ok s1
  else .error .time

/-- `ExtrapolateTranslation` (pe 235-243). -/
noncomputable def extrapolateTranslation (s : State) (p : TimedPose) (time : Int) : V3 :=
  smul (toSeconds (time - p.time)) (if s.odometry.length < 2 then s.linearFromPoses else s.linearFromOdometry)

/-- `ExtrapolatePose` (pe 134-147). -/
noncomputable def extrapolatePose (P : Params) (s : State) (time : Int) : Except Abort (Rigid3 × State) :=
  match newest s with
  | none => .error .ub
  | some p =>
    if p.time ≤ time then
      if s.cachedTime = some time then .ok (s.cachedPose, s)
      else
        match s.extrapolationTracker with
        | none => .error .ub
        | some tr => do
          let r ← extrapolateRotation P s time tr
          let pose : Rigid3 := ⟨vadd (extrapolateTranslation s p time) p.pose.translation, p.pose.rotation.mul r.1⟩
          .ok (pose, { s with extrapolationTracker := some r.2, cachedTime := some time, cachedPose := pose })
    else .error .time

/-- `EstimateGravityOrientation` (pe 149-154). -/
noncomputable def estimateGravity (P : Params) (s : State) (time : Int) : Except Abort Quat :=
  match s.tracker with
  | none => .error .ub
  | some tr => do
    let tr ← advanceImuTracker P s time tr
    .ok tr.orientation

/-- `InitializeWithImu` (pe 35-52). -/
noncomputable def initializeWithImu (P : Params) (d : Imu) : Except Abort State := do
  let s ← addImu {} d
  let tr ← observe P (Tracker.new d.time) d.acceleration
  let tr ← advance { tr with angularVelocity := d.angularVelocity } d.time
  addPose P { s with tracker := some tr } d.time ⟨⟨0, 0, 0⟩, tr.orientation⟩

/-- The calls that change an extrapolator. `ExtrapolatePosesWithGravity` (pe 245-259) is a sequence of `extrapolate` calls. -/
inductive Call where
  | pose (time : Int) (pose : Rigid3)
  | imu (d : Imu)
  | odometry (d : TimedPose)
  | extrapolate (time : Int)

/-- One call. -/
noncomputable def call (P : Params) (s : State) : Call → Except Abort State
  | .pose time pose => addPose P s time pose
  | .imu d => addImu s d
  | .odometry d => addOdometry P s d
  | .extrapolate time => do
    let r ← extrapolatePose P s time
    .ok r.2

/-- A sequence of calls that all return. -/
inductive Run (P : Params) : State → List Call → State → Prop where
  | nil (s : State) : Run P s [] s
  | cons {s s1 t : State} {c : Call} {cs : List Call} : call P s c = .ok s1 → Run P s1 cs t → Run P s (c :: cs) t

end Verif.Extrapolator
