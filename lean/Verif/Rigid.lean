import Mathlib.Analysis.SpecialFunctions.Complex.Arg
import Mathlib.Analysis.SpecialFunctions.Trigonometric.Basic

/-!
# Rigid transforms

Model of `cartographer/transform/rigid_transform.h` (abbreviated rt) and the conversions between two and three dimensions of
`cartographer/transform/transform.h`. Floating point numbers are reals. The operations of Eigen that are used are modelled as
documented there: `Rotation2D` holds an angle, and a quaternion rotates a vector by `v + 2w (u × v) + 2 u × (u × v)`
(`QuaternionBase::_transformVector`), where `u` is the vector part.
-/

namespace Verif.Rigid

/-! ### Two dimensions -/

/-- `Eigen::Vector2d`. -/
@[ext] structure V2 where
  x : ℝ
  y : ℝ

/-- `Rigid2` (rt 34-89); the rotation is `Rotation2D`, which holds the angle. -/
@[ext] structure Rigid2 where
  translation : V2
  angle : ℝ

/-- `Rotation2D * Vector`. -/
noncomputable def rotate2 (angle : ℝ) (v : V2) : V2 :=
  ⟨Real.cos angle * v.x - Real.sin angle * v.y, Real.sin angle * v.x + Real.cos angle * v.y⟩

/-- `Rigid2::Identity` (rt 40, 59). -/
noncomputable def Rigid2.identity : Rigid2 := ⟨⟨0, 0⟩, 0⟩

/-- `Rigid2::inverse` (rt 75-79). -/
noncomputable def Rigid2.inverse (r : Rigid2) : Rigid2 :=
  let angle := -r.angle
  let t := rotate2 angle r.translation
  ⟨⟨-t.x, -t.y⟩, angle⟩

/-- Composition of two `Rigid2` (rt 92-98). -/
noncomputable def Rigid2.mul (a b : Rigid2) : Rigid2 :=
  let t := rotate2 a.angle b.translation
  ⟨⟨t.x + a.translation.x, t.y + a.translation.y⟩, a.angle + b.angle⟩

/-- A `Rigid2` applied to a point (rt 100-105). -/
noncomputable def Rigid2.apply (a : Rigid2) (p : V2) : V2 :=
  let t := rotate2 a.angle p
  ⟨t.x + a.translation.x, t.y + a.translation.y⟩

/-! ### Three dimensions -/

/-- `Eigen::Vector3d`. -/
@[ext] structure V3 where
  x : ℝ
  y : ℝ
  z : ℝ

/-- `Eigen::Quaterniond`. -/
@[ext] structure Quat where
  w : ℝ
  x : ℝ
  y : ℝ
  z : ℝ

/-- `squaredNorm`. -/
def Quat.normSq (q : Quat) : ℝ := q.w * q.w + q.x * q.x + q.y * q.y + q.z * q.z

/-- Product of quaternions (Eigen `quat_product`). -/
def Quat.mul (a b : Quat) : Quat :=
  ⟨a.w * b.w - a.x * b.x - a.y * b.y - a.z * b.z,
   a.w * b.x + a.x * b.w + a.y * b.z - a.z * b.y,
   a.w * b.y + a.y * b.w + a.z * b.x - a.x * b.z,
   a.w * b.z + a.z * b.w + a.x * b.y - a.y * b.x⟩

/-- `conjugate`. -/
def Quat.conjugate (q : Quat) : Quat := ⟨q.w, -q.x, -q.y, -q.z⟩

/-- `normalized` (Eigen `MatrixBase::normalized`): division by the norm, unless it is zero. -/
noncomputable def Quat.normalized (q : Quat) : Quat :=
  if 0 < q.normSq then
    ⟨q.w / √q.normSq, q.x / √q.normSq, q.y / √q.normSq, q.z / √q.normSq⟩
  else q

/-- Cross product. -/
def cross (a b : V3) : V3 := ⟨a.y * b.z - a.z * b.y, a.z * b.x - a.x * b.z, a.x * b.y - a.y * b.x⟩

/-- `Quaternion * Vector` (Eigen `_transformVector`). -/
def Quat.rotate (q : Quat) (v : V3) : V3 :=
  let u : V3 := ⟨q.x, q.y, q.z⟩
  let uv := cross u v
  let uv : V3 := ⟨uv.x + uv.x, uv.y + uv.y, uv.z + uv.z⟩
  let c := cross u uv
  ⟨v.x + q.w * uv.x + c.x, v.y + q.w * uv.y + c.y, v.z + q.w * uv.z + c.z⟩

/-- `Rigid3` (rt 120-180). -/
@[ext] structure Rigid3 where
  translation : V3
  rotation : Quat

/-- `Rigid3::Identity` (rt 126, 156). -/
def Rigid3.identity : Rigid3 := ⟨⟨0, 0, 0⟩, ⟨1, 0, 0, 0⟩⟩

/-- `Rigid3::inverse` (rt 167-171). -/
def Rigid3.inverse (r : Rigid3) : Rigid3 :=
  let rotation := r.rotation.conjugate
  let t := rotation.rotate r.translation
  ⟨⟨-t.x, -t.y, -t.z⟩, rotation⟩

/-- Composition of two `Rigid3` (rt 190-196). -/
noncomputable def Rigid3.mul (a b : Rigid3) : Rigid3 :=
  let t := a.rotation.rotate b.translation
  ⟨⟨t.x + a.translation.x, t.y + a.translation.y, t.z + a.translation.z⟩, (a.rotation.mul b.rotation).normalized⟩

/-- A `Rigid3` applied to a point (rt 198-203). -/
def Rigid3.apply (a : Rigid3) (p : V3) : V3 :=
  let t := a.rotation.rotate p
  ⟨t.x + a.translation.x, t.y + a.translation.y, t.z + a.translation.z⟩

/-! ### Conversions (transform.h) -/

/-- `Eigen::Quaternion(AngleAxis(angle, UnitZ()))`. -/
noncomputable def aroundZ (angle : ℝ) : Quat := ⟨Real.cos (angle / 2), 0, 0, Real.sin (angle / 2)⟩

/-- `Embed3D` (transform.h 110-117). -/
noncomputable def embed3D (r : Rigid2) : Rigid3 := ⟨⟨r.translation.x, r.translation.y, 0⟩, aroundZ r.angle⟩

/-- `GetYaw` (transform.h 41-46); `atan2(y, x)` is the argument of `x + iy`. -/
noncomputable def getYaw (q : Quat) : ℝ :=
  let direction := q.rotate ⟨1, 0, 0⟩
  Complex.arg ⟨direction.x, direction.y⟩

/-- `Project2D` (transform.h 103-107). -/
noncomputable def project2D (r : Rigid3) : Rigid2 := ⟨⟨r.translation.x, r.translation.y⟩, getYaw r.rotation⟩

/-! ### Rotation vectors (transform.h 55-100) -/

/-- `norm()` of a vector. -/
noncomputable def V3.norm (v : V3) : ℝ := √(v.x * v.x + v.y * v.y + v.z * v.z)

/-- `RotationQuaternionToAngleAxisVector` (transform.h 58-82). -/
noncomputable def toAngleAxis (quaternion : Quat) : V3 :=
  let q := quaternion.normalized
  let q : Quat := if q.w < 0 then ⟨-1 * q.w, -1 * q.x, -1 * q.y, -1 * q.z⟩ else q
  let angle := 2 * Complex.arg ⟨q.w, V3.norm ⟨q.x, q.y, q.z⟩⟩
  let scale := if angle < 1 / 10 ^ 7 then 2 else angle / Real.sin (angle / 2)
  ⟨scale * q.x, scale * q.y, scale * q.z⟩

/-- `AngleAxisVectorToRotationQuaternion` (transform.h 86-100). -/
noncomputable def fromAngleAxis (v : V3) : Quat :=
  if v.x * v.x + v.y * v.y + v.z * v.z > 1 / 10 ^ 8 then
    let scale := Real.sin (v.norm / 2) / v.norm
    ⟨Real.cos (v.norm / 2), scale * v.x, scale * v.y, scale * v.z⟩
  else ⟨1, 1 / 2 * v.x, 1 / 2 * v.y, 1 / 2 * v.z⟩

end Verif.Rigid
