import Verif.Rigid
import Mathlib.Analysis.SpecialFunctions.Complex.Arg

/-!
# Normals of scans in two dimensions

Model of mapping/internal/2d/normal_estimation_2d.cc (here ne.cc), which the inserter for signed distance functions uses.  Real numbers for floats.  Normals, whose
third component is zero, are complex numbers; `atan2` is the argument.  `List.getD` stands for the access of a vector; the theorems show that indices are in range.
-/

namespace Verif.NormalEstimation

open Verif.Rigid

/-- A point by its index. -/
def at' (points : List V3) (i : ℕ) : V3 := points.getD i ⟨0, 0, 0⟩

/-- `(a - b).norm()`. -/
noncomputable def distance (a b : V3) : ℝ := V3.norm ⟨a.x - b.x, a.y - b.y, a.z - b.z⟩

/-- The first loop of `EstimateNormals` (ne.cc 88-94): from `b` downwards. -/
noncomputable def windowBegin (points : List V3) (samples : ℕ) (radius : ℝ) (i : ℕ) : ℕ → ℕ
  | 0 => 0
  | b + 1 =>
    open Classical in
    if i - (b + 1) < samples / 2 ∧ distance (at' points i) (at' points b) < radius then windowBegin points samples radius i b else b + 1

/-- The second loop (ne.cc 95-102): from `e` upwards, `n` rounds at most.  `ceil(samples / 2.)` is `(samples + 1) / 2` in whole numbers. -/
noncomputable def windowEnd (points : List V3) (samples : ℕ) (radius : ℝ) (i : ℕ) : ℕ → ℕ → ℕ
  | 0, e => e
  | n + 1, e =>
    open Classical in
    if e < points.length ∧ e - i < (samples + 1) / 2 + 1 ∧ distance (at' points i) (at' points e) < radius then windowEnd points samples radius i n (e + 1) else e

/-- `sample_normal` (ne.cc 47-48): the tangent turned by a right angle. -/
def sampleNormal (estimation sample : V3) : ℂ := ⟨-(estimation.y - sample.y), estimation.x - sample.x⟩

/-- `dot` of a normal with the direction to the sensor. -/
def dot (n : ℂ) (v : V3) : ℝ := n.re * v.x + n.im * v.y

/-- The direction to the sensor (ne.cc 41-42). -/
def toSensor (origin estimation : V3) : V3 := ⟨origin.x - estimation.x, origin.y - estimation.y, origin.z - estimation.z⟩

/-- One sample of the loop (ne.cc 43-59): what is added to the mean. -/
noncomputable def contribution (estimation origin sample : V3) : ℂ :=
  open Classical in
  let n := sampleNormal estimation sample
  if ‖n‖ < 1 / 1000000 then 0
  else
    let n := if dot n (toSensor origin estimation) < 0 then -n else n
    n / ‖n‖

/-- The loop (ne.cc 43-59). -/
noncomputable def meanNormal (points : List V3) (origin : V3) (i b e : ℕ) : ℂ :=
  (List.range' b (e - b)).foldl (fun m j => if j = i then m else m + contribution (at' points i) origin (at' points j)) 0

/-- `EstimateNormal` with `NormalTo2DAngle` (ne.cc 23-61). -/
noncomputable def estimateNormal (points : List V3) (origin : V3) (i b e : ℕ) : ℝ :=
  if e - b < 2 then Complex.arg ⟨(toSensor origin (at' points i)).x, (toSensor origin (at' points i)).y⟩
  else Complex.arg (meanNormal points origin i b e)

/-- `EstimateNormals` (ne.cc 78-109). -/
noncomputable def estimateNormals (points : List V3) (origin : V3) (samples : ℕ) (radius : ℝ) : List ℝ :=
  (List.range points.length).map fun i =>
    estimateNormal points origin i (windowBegin points samples radius i i) (windowEnd points samples radius i points.length i)

/-- `CreateNormalEstimationOptions2D` (ne.cc 64-73): its `CHECK`s. -/
def optionsOk (samples : ℤ) (radius : ℝ) : Prop := 0 < samples ∧ 0 < radius

end Verif.NormalEstimation
