import Verif.CostFunctions

/-!
# Integration of inertial measurements

Model of mapping/internal/3d/imu_integration.h and of its use in `OptimizationProblem3D::Solve`
(mapping/internal/optimization/optimization_problem_3d.cc:376-443).  Vectors and rotations are over the real numbers, times are
ticks.  `none` is a failing `CHECK` or an iterator that is dereferenced at the end.
-/

namespace Verif.Imu

open Verif.Rigid Verif.Cost

/-- `sensor::ImuData` (sensor/imu_data.h:27-31). -/
structure Data where
  time : Int
  acceleration : V3
  gyro : V3

/-- `IntegrateImuResult` (imu_integration.h:34-39). -/
structure Result where
  velocity : V3
  translation : V3
  rotation : Quat

/-- Nothing integrated (imu_integration.h:58-60). -/
def Result.zero : Result := ⟨⟨0, 0, 0⟩, ⟨0, 0, 0⟩, ⟨1, 0, 0, 0⟩⟩

/-- A vector times a number. -/
def scale (t : ℝ) (v : V3) : V3 := ⟨t * v.x, t * v.y, t * v.z⟩

/-- The sum of two vectors. -/
def add (v w : V3) : V3 := ⟨v.x + w.x, v.y + w.y, v.z + w.z⟩

/-- The body of the loop of `IntegrateImu` (imu_integration.h:69-79) for a measurement that is used for `dt` seconds; `ca` and `cg` are
the calibrations. -/
noncomputable def Result.step (ca cg : V3 → V3) (r : Result) (d : Data) (dt : ℝ) : Result :=
  let rotation := r.rotation.mul (fromAngleAxis (scale dt (cg d.gyro)))
  let velocity := add r.velocity (rotation.rotate (scale dt (ca d.acceleration)))
  ⟨velocity, add r.translation (scale dt velocity), rotation⟩

/-- The loop of `IntegrateImu` (imu_integration.h:61-84): `it` is the position of the iterator.  Without a next measurement
`next_imu_data` is `Time::max()`, taken to be after `stop`.  The first argument is fuel. -/
noncomputable def loop (ca cg : V3 → V3) (ticks : ℝ) (data : List Data) (stop : Int) : Nat → Int → Nat → Result → Option (Result × Nat)
  | 0, _, _, _ => none
  | fuel + 1, current, it, r =>
    if current < stop then do
      let d ← data[it]?
      match data[it + 1]? with
      | none => loop ca cg ticks data stop fuel stop it (r.step ca cg d ((stop - current : Int) / ticks))
      | some n =>
        let next := min n.time stop
        loop ca cg ticks data stop fuel next (if next = n.time then it + 1 else it) (r.step ca cg d ((next - current : Int) / ticks))
    else some (r, it)

/-- `IntegrateImu` (imu_integration.h:41-86): the result and the new position of the iterator. -/
noncomputable def integrate (ca cg : V3 → V3) (ticks : ℝ) (data : List Data) (start stop : Int) (it : Nat) : Option (Result × Nat) := do
  if stop < start then none
  else do
    let d ← data[it]?
    if start < d.time then none
    else match data[it + 1]? with
      | none => loop ca cg ticks data stop (data.length + 2) start it .zero
      | some n => if n.time ≤ start then none else loop ca cg ticks data stop (data.length + 2) start it .zero

/-- `ExtrapolatePoseWithImu` (imu_integration.h:105-134) with the position of the iterator: pose, velocity. -/
noncomputable def extrapolate (ticks : ℝ) (data : List Data) (pose : Rigid3) (velocity gravity : V3) (previous time : Int) (it : Nat) :
    Option ((Rigid3 × V3) × Nat) := do
  let (r, it') ← integrate id id ticks data previous time it
  let dt : ℝ := (time - previous : Int) / ticks
  let translation := add (add pose.translation (pose.rotation.rotate (add (scale dt velocity) r.translation)))
    (scale (-(1 / 2 * dt * dt)) gravity)
  let rotation := pose.rotation.mul r.rotation
  some ((⟨translation, rotation⟩, add (pose.rotation.rotate (add velocity r.velocity)) (scale (-dt) gravity)), it')

/-- The velocity of `ExtrapolatePoseWithImu` for two poses (imu_integration.h:148-154). -/
noncomputable def trackingVelocity (ticks : ℝ) (pose : Rigid3) (time : Int) (before : Rigid3) (timeBefore : Int) : V3 :=
  scale (1 / ((time - timeBefore : Int) / ticks)) (pose.inverse.rotation.rotate ⟨pose.translation.x - before.translation.x,
    pose.translation.y - before.translation.y, pose.translation.z - before.translation.z⟩)

/-- Skipping measurements before a node (optimization_problem_3d.cc:388-392). -/
def skip (data : List Data) (time : Int) : Nat → Nat → Nat
  | 0, it => it
  | fuel + 1, it => match data[it + 1]? with
    | none => it
    | some n => if n.time ≤ time then skip data time fuel (it + 1) else it

/-- `Quaternion::inverse` of Eigen. -/
noncomputable def inverseQuat (q : Quat) : Quat := ⟨q.w / q.normSq, -q.x / q.normSq, -q.y / q.normSq, -q.z / q.normSq⟩

/-- What is computed for three consecutive nodes (optimization_problem_3d.cc:387-421): the measured rotation from the first to the second node
and the change of velocity from the centre of the first to the centre of the second interval, in the frame of the second node; and the
new position of the iterator.  Durations are divided as integers. -/
noncomputable def measure (ticks : ℝ) (data : List Data) (t1 t2 t3 : Int) (it : Nat) : Option (Quat × V3 × Nat) := do
  let it1 := skip data t1 data.length it
  let (r, it2) ← integrate id id ticks data t1 t2 it1
  let c1 := t1 + (t2 - t1).tdiv 2
  let c2 := t2 + (t3 - t2).tdiv 2
  let (toFirst, it3) ← integrate id id ticks data t1 c1 it1
  let (between, _) ← integrate id id ticks data c1 c2 it3
  some (r.rotation, ((inverseQuat r.rotation).mul toFirst.rotation).rotate between.velocity, it2)

end Verif.Imu
