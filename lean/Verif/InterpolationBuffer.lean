import Verif.Rigid
import Mathlib.Analysis.SpecialFunctions.Trigonometric.Inverse

/-!
# Interpolation buffer for transforms

Model of `cartographer/transform/transform_interpolation_buffer.cc` (abbreviated tib) and `Interpolate`
(cartographer/transform/timestamped_transform.cc 24-39). Times are ticks. Floating point numbers are reals; a division by zero is
`none`, as is a failing `CHECK`.
-/

namespace Verif.InterpolationBuffer

open Rigid

/-- `TimestampedTransform`. -/
structure Stamped where
  time : Int
  transform : Rigid3

/-- `TransformInterpolationBuffer`; `timestamped_transforms_` and `buffer_size_limit_`. -/
structure Buffer where
  items : List Stamped := []
  limit : Nat

/-- `RemoveOldTransformsIfNeeded` (tib 82-86). -/
def removeOld (limit : Nat) : List Stamped → List Stamped
  | [] => []
  | x :: l => if (x :: l).length > limit then removeOld limit l else x :: l

/-- `Push` (tib 37-44). -/
def push (b : Buffer) (time : Int) (transform : Rigid3) : Option Buffer :=
  match b.items.getLast? with
  | some last =>
    if time ≥ last.time then some { b with items := removeOld b.limit (b.items ++ [⟨time, transform⟩]) } else none
  | none => some { b with items := removeOld b.limit (b.items ++ [⟨time, transform⟩]) }

/-- `SetSizeLimit` (tib 46-50). -/
def setSizeLimit (b : Buffer) (limit : Nat) : Buffer := { items := removeOld limit b.items, limit := limit }

/-- `Clear` (tib 52). -/
def clear (b : Buffer) : Buffer := { b with items := [] }

/-- `Has` (tib 54-59). -/
def has (b : Buffer) (time : Int) : Bool :=
  match b.items.head?, b.items.getLast? with
  | some first, some last => decide (first.time ≤ time) && decide (time ≤ last.time)
  | _, _ => false

/-- `Quaternion::slerp` (Eigen). `eps` is the machine precision. A division by zero is `none`. -/
noncomputable def slerp (eps : ℝ) (a : Quat) (t : ℝ) (b : Quat) : Option Quat :=
  let d := a.w * b.w + a.x * b.x + a.y * b.y + a.z * b.z
  let absD := |d|
  let mix (scale0 scale1 : ℝ) : Quat :=
    let scale1 := if d < 0 then -scale1 else scale1
    ⟨scale0 * a.w + scale1 * b.w, scale0 * a.x + scale1 * b.x, scale0 * a.y + scale1 * b.y, scale0 * a.z + scale1 * b.z⟩
  if absD ≥ 1 - eps then some (mix (1 - t) t)
  else
    let theta := Real.arccos absD
    let sinTheta := Real.sin theta
    if sinTheta = 0 then none
    else some (mix (Real.sin ((1 - t) * theta) / sinTheta) (Real.sin (t * theta) / sinTheta))

/-- `Interpolate` (timestamped_transform.cc 24-39). `ToSeconds` divides by the number of ticks per second. -/
noncomputable def interpolate (eps : ℝ) (start «end» : Stamped) (time : Int) : Option Stamped :=
  if start.time ≤ time then
    if «end».time ≥ time then
      let duration : ℝ := (((«end».time - start.time : Int) : ℝ)) / 10000000
      if duration = 0 then none
      else
        let factor : ℝ := ((time - start.time : Int) : ℝ) / 10000000 / duration
        let a := start.transform.translation
        let b := «end».transform.translation
        let origin : V3 := ⟨a.x + (b.x - a.x) * factor, a.y + (b.y - a.y) * factor, a.z + (b.z - a.z) * factor⟩
        match slerp eps start.transform.rotation factor «end».transform.rotation with
        | none => none
        | some rotation => some ⟨time, ⟨origin, rotation⟩⟩
    else none
  else none

/-- `std::lower_bound` with `prev` (tib 65-75): the element before the first one that is not earlier, if there is one, and the
rest of the buffer. -/
def lowerBound (time : Int) : Option Stamped → List Stamped → Option Stamped × List Stamped
  | prev, [] => (prev, [])
  | prev, x :: l => if x.time < time then lowerBound time (some x) l else (prev, x :: l)

/-- `Lookup` (tib 61-80). Dereferencing `end` or the iterator before `begin` is `none`. -/
noncomputable def lookup (eps : ℝ) (b : Buffer) (time : Int) : Option Rigid3 :=
  if has b time then
    match lowerBound time none b.items with
    | (_, []) => none
    | (start, e :: _) =>
      if e.time = time then some e.transform
      else
        match start with
        | none => none
        | some start => (interpolate eps start e time).map (·.transform)
  else none

/-- The operations that change the buffer. -/
inductive Op where
  | push (time : Int) (transform : Rigid3)
  | setSizeLimit (limit : Nat)
  | clear

/-- One operation. -/
def step (b : Buffer) : Op → Option Buffer
  | .push time transform => push b time transform
  | .setSizeLimit limit => some (setSizeLimit b limit)
  | .clear => some (clear b)

/-- A sequence of operations. -/
def run (b : Buffer) : List Op → Option Buffer
  | [] => some b
  | op :: ops =>
    match step b op with
    | none => none
    | some b' => run b' ops

end Verif.InterpolationBuffer
