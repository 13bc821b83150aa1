import Verif.Rigid
import Mathlib.Analysis.SpecialFunctions.Trigonometric.Inverse

/-!
# Cost functions of the pose graph optimization

Model of mapping/internal/optimization/cost_functions (cost_helpers_impl.h, spa_cost_function_2d.cc, spa_cost_function_3d.h,
landmark_cost_function_2d.h, landmark_cost_function_3d.h, rotation_cost_function_3d.h, acceleration_cost_function_3d.h) over the real
numbers.  A block of three parameters of a pose in the plane is a `Rigid2`, the two blocks of a pose in space are a `Rigid3`.
-/

namespace Verif.Cost

open Verif.Rigid

/-! ### Helpers -/

/-- `while (difference > kPi) difference -= 2. * kPi` (common/math.h:64) with fuel. -/
noncomputable def loopDown : Nat → ℝ → ℝ
  | 0, d => d
  | n + 1, d => if Real.pi < d then loopDown n (d - 2 * Real.pi) else d

/-- `while (difference < -kPi) difference += 2. * kPi` (common/math.h:65) with fuel. -/
noncomputable def loopUp : Nat → ℝ → ℝ
  | 0, d => d
  | n + 1, d => if d < -Real.pi then loopUp n (d + 2 * Real.pi) else d

/-- `NormalizeAngleDifference` (common/math.h:61-67); the fuel is enough (`normalize_range`). -/
noncomputable def normalizeAngle (d : ℝ) : ℝ := loopUp ⌈|d|⌉₊ (loopDown ⌈|d|⌉₊ d)

/-- `ComputeUnscaledError` in the plane (cost_helpers_impl.h:28-43). -/
noncomputable def unscaledError2 (relative start «end» : Rigid2) : V3 :=
  let c := Real.cos start.angle
  let s := Real.sin start.angle
  let dx := «end».translation.x - start.translation.x
  let dy := «end».translation.y - start.translation.y
  ⟨relative.translation.x - (c * dx + s * dy), relative.translation.y - (-s * dx + c * dy),
    normalizeAngle (relative.angle - («end».angle - start.angle))⟩

/-- `ScaleError` in the plane (cost_helpers_impl.h:45-55). -/
def scaleError2 (e : V3) (tw rw : ℝ) : V3 := ⟨e.x * tw, e.y * tw, e.z * rw⟩

/-- `ComputeUnscaledError` in space (cost_helpers_impl.h:57-86): residuals of the translation and of the rotation. -/
noncomputable def unscaledError3 (relative start «end» : Rigid3) : V3 × V3 :=
  let inv : Quat := ⟨start.rotation.w, -start.rotation.x, -start.rotation.y, -start.rotation.z⟩
  let delta : V3 := ⟨«end».translation.x - start.translation.x, «end».translation.y - start.translation.y,
    «end».translation.z - start.translation.z⟩
  let h := inv.rotate delta
  let hInv := (Quat.mk «end».rotation.w (-«end».rotation.x) (-«end».rotation.y) (-«end».rotation.z)).mul start.rotation
  (⟨relative.translation.x - h.x, relative.translation.y - h.y, relative.translation.z - h.z⟩, toAngleAxis (hInv.mul relative.rotation))

/-- `ScaleError` in space (cost_helpers_impl.h:88-101). -/
def scaleError3 (e : V3 × V3) (tw rw : ℝ) : V3 × V3 :=
  (⟨e.1.x * tw, e.1.y * tw, e.1.z * tw⟩, ⟨e.2.x * rw, e.2.y * rw, e.2.z * rw⟩)

/-- The dot product of two quaternions. -/
def dot (a b : Quat) : ℝ := a.w * b.w + a.x * b.x + a.y * b.y + a.z * b.z

/-- `SlerpQuaternions` (cost_helpers_impl.h:103-131). -/
noncomputable def slerpQuaternions (start «end» : Quat) (factor : ℝ) : Quat :=
  let c := dot start «end»
  let theta := Real.arccos |c|
  let scales : ℝ × ℝ := if |c| < 1 - 1 / 100000 then
      (Real.sin ((1 - factor) * theta) / Real.sin theta, Real.sin (factor * theta) / Real.sin theta)
    else (1 - factor, factor)
  let next := if c < 0 then -scales.2 else scales.2
  ⟨scales.1 * start.w + next * «end».w, scales.1 * start.x + next * «end».x, scales.1 * start.y + next * «end».y,
    scales.1 * start.z + next * «end».z⟩

/-- `InterpolateNodes3D` (cost_helpers_impl.h:133-153). -/
noncomputable def interpolateNodes3 (prev next : Rigid3) (t : ℝ) : Rigid3 where
  translation := ⟨prev.translation.x + t * (next.translation.x - prev.translation.x),
    prev.translation.y + t * (next.translation.y - prev.translation.y),
    prev.translation.z + t * (next.translation.z - prev.translation.z)⟩
  rotation := slerpQuaternions prev.rotation next.rotation t

/-- `InterpolateNodes2D` (cost_helpers_impl.h:155-191). -/
noncomputable def interpolateNodes2 (prev : Rigid2) (prevGravity : Quat) (next : Rigid2) (nextGravity : Quat) (t : ℝ) : Rigid3 where
  translation := ⟨prev.translation.x + t * (next.translation.x - prev.translation.x),
    prev.translation.y + t * (next.translation.y - prev.translation.y), 0⟩
  rotation := slerpQuaternions ((aroundZ prev.angle).mul prevGravity).normalized ((aroundZ next.angle).mul nextGravity).normalized t

/-! ### Cost functions -/

/-- `SpaCostFunction2D::operator()` (spa_cost_function_2d.cc:40-51); `zbar` is the projected relative pose. -/
noncomputable def spa2 (zbar : Rigid2) (tw rw : ℝ) (start «end» : Rigid2) : V3 := scaleError2 (unscaledError2 zbar start «end») tw rw

/-- The residuals of `AnalyticalSpaCostFunction2D::Evaluate` (spa_cost_function_2d.cc:69-91). -/
noncomputable def analytical2 (zbar : Rigid2) (tw rw : ℝ) (start «end» : Rigid2) : V3 :=
  let c := Real.cos start.angle
  let s := Real.sin start.angle
  let dx := «end».translation.x - start.translation.x
  let dy := «end».translation.y - start.translation.y
  ⟨tw * (zbar.translation.x - (c * dx + s * dy)), tw * (zbar.translation.y - (-s * dx + c * dy)),
    rw * normalizeAngle (zbar.angle - («end».angle - start.angle))⟩

/-- `jacobians[0]` (spa_cost_function_2d.cc:93-112): three rows. -/
noncomputable def jacobianStart (tw rw : ℝ) (start «end» : Rigid2) : V3 × V3 × V3 :=
  let wc := tw * Real.cos start.angle
  let ws := tw * Real.sin start.angle
  let dx := «end».translation.x - start.translation.x
  let dy := «end».translation.y - start.translation.y
  (⟨wc, ws, ws * dx - wc * dy⟩, ⟨-ws, wc, wc * dx + ws * dy⟩, ⟨0, 0, rw⟩)

/-- `jacobians[1]` (spa_cost_function_2d.cc:113-123). -/
noncomputable def jacobianEnd (tw rw : ℝ) (start : Rigid2) : V3 × V3 × V3 :=
  let wc := tw * Real.cos start.angle
  let ws := tw * Real.sin start.angle
  (⟨-wc, -ws, 0⟩, ⟨ws, -wc, 0⟩, ⟨0, 0, -rw⟩)

/-- `SpaCostFunction3D::operator()` (spa_cost_function_3d.h:46-56). -/
noncomputable def spa3 (zbar : Rigid3) (tw rw : ℝ) (start «end» : Rigid3) : V3 × V3 := scaleError3 (unscaledError3 zbar start «end») tw rw

/-- `LandmarkCostFunction3D::operator()` (landmark_cost_function_3d.h:55-75). -/
noncomputable def landmark3 (zbar : Rigid3) (tw rw t : ℝ) (prev next landmark : Rigid3) : V3 × V3 :=
  scaleError3 (unscaledError3 zbar (interpolateNodes3 prev next t) landmark) tw rw

/-- `LandmarkCostFunction2D::operator()` (landmark_cost_function_2d.h:53-72). -/
noncomputable def landmark2 (zbar : Rigid3) (tw rw t : ℝ) (prevGravity nextGravity : Quat) (prev next : Rigid2) (landmark : Rigid3) : V3 × V3 :=
  scaleError3 (unscaledError3 zbar (interpolateNodes2 prev prevGravity next nextGravity t) landmark) tw rw

/-- `interpolation_parameter_` (landmark_cost_function_2d.h:82-84, landmark_cost_function_3d.h:85-87) for times in ticks of `ticks` per
second. -/
noncomputable def interpolationParameter (ticks : ℝ) (prev next observation : Int) : ℝ :=
  ((observation - prev : Int) / ticks) / ((next - prev : Int) / ticks)

/-- `RotationCostFunction3D::operator()` (rotation_cost_function_3d.h:39-57). -/
def rotation3 (scaling : ℝ) (delta start «end» calibration : Quat) : V3 :=
  let error := (((«end».conjugate.mul start).mul calibration).mul delta).mul calibration.conjugate
  ⟨scaling * error.x, scaling * error.y, scaling * error.z⟩

/-- `AccelerationCostFunction3D::operator()` (acceleration_cost_function_3d.h:45-72). -/
noncomputable def acceleration3 (scaling : ℝ) (deltaVelocity : V3) (dt1 dt2 : ℝ) (middleRotation : Quat) (start middle «end» : V3)
    (gravity : ℝ) (calibration : Quat) : V3 :=
  let r := (middleRotation.mul calibration).rotate deltaVelocity
  let imu : V3 := ⟨r.x - gravity * 0, r.y - gravity * 0, r.z - gravity * (1 / 2 * (dt1 + dt2))⟩
  let v1 : V3 := ⟨(middle.x - start.x) / dt1, (middle.y - start.y) / dt1, (middle.z - start.z) / dt1⟩
  let v2 : V3 := ⟨(«end».x - middle.x) / dt2, («end».y - middle.y) / dt2, («end».z - middle.z) / dt2⟩
  ⟨scaling * (imu.x - (v2.x - v1.x)), scaling * (imu.y - (v2.y - v1.y)), scaling * (imu.z - (v2.z - v1.z))⟩

end Verif.Cost
