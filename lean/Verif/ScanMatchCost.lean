import Verif.RealTimeCorrelative
import Verif.RangeDataInserter3D
import Mathlib.Analysis.SpecialFunctions.Trigonometric.Inverse

/-!
# Interpolated grids and the cost functions of the Ceres scan matchers

Model of mapping/internal/3d/scan_matching/{interpolated_grid.h, occupied_space_cost_function_3d.h, intensity_cost_function_3d.h,
translation_delta_cost_functor_3d.h, rotation_delta_cost_functor_3d.h, ceres_scan_matcher_3d.cc}, of mapping/internal/3d/
rotation_parameterization.h and of mapping/internal/2d/scan_matching/{occupied_space_cost_function_2d.cc, interpolated_tsdf_2d.h,
tsdf_match_cost_function_2d.cc, translation_delta_cost_functor_2d.h, rotation_delta_cost_functor_2d.h, ceres_scan_matcher_2d.cc}.
Arithmetic is that of the real numbers; only the scalar parts of the dual numbers are modelled, their derivatives are the subject of
theorems.  `none` is a failing `CHECK`, an element after the end of a vector or an index that is no `int`.  The solver is not modelled:
the result of `Match` is any pose that costs no more than the initial one.
-/

namespace Verif.MatchCost

open Verif.Rigid Verif.RealTime Verif.Grid2D Verif.Hybrid

/-! ### Interpolation in space -/

/-- One coordinate of `CenterOfLowerVoxel` (interpolated_grid.h:124-140) from the index of the voxel with the point. -/
noncomputable def lowerCenter (r x : ℝ) (i : Int) : ℝ := if x < i * r then i * r - r else i * r

/-- `CenterOfLowerVoxel` (interpolated_grid.h:124-140); `GetCenterOfCell` is the product with the resolution (hybrid_grid.h:449-451). -/
noncomputable def centerOfLowerVoxel (r : ℝ) (p : V3) : V3 :=
  let i := cellIndex3 r p
  ⟨lowerCenter r p.x i.x, lowerCenter r p.y i.y, lowerCenter r p.z i.z⟩

/-- The scheme of all seven interpolations (interpolated_grid.h:86-103) between `a` and `b`. -/
def cubic (a b t : ℝ) : ℝ := (a - b) * (t * (t * t)) * 2 + (b - a) * (t * t) * 3 + a

/-- `InterpolatedGrid::GetInterpolatedValue` (interpolated_grid.h:51-119) for the values of the voxels of a grid. -/
noncomputable def interpolated (value : I3 → Option ℚ) (r : ℝ) (p : V3) : Option ℝ := do
  let lower := centerOfLowerVoxel r p
  let upper : V3 := ⟨lower.x + r, lower.y + r, lower.z + r⟩
  let index := cellIndex3 r lower
  let q111 ← value index
  let q112 ← value (index.add ⟨0, 0, 1⟩)
  let q121 ← value (index.add ⟨0, 1, 0⟩)
  let q122 ← value (index.add ⟨0, 1, 1⟩)
  let q211 ← value (index.add ⟨1, 0, 0⟩)
  let q212 ← value (index.add ⟨1, 0, 1⟩)
  let q221 ← value (index.add ⟨1, 1, 0⟩)
  let q222 ← value (index.add ⟨1, 1, 1⟩)
  let x := (p.x - lower.x) / (upper.x - lower.x)
  let y := (p.y - lower.y) / (upper.y - lower.y)
  let z := (p.z - lower.z) / (upper.z - lower.z)
  let q11 := cubic q111 q112 z
  let q12 := cubic q121 q122 z
  let q21 := cubic q211 q212 z
  let q22 := cubic q221 q222 z
  let q1 := cubic q11 q12 y
  let q2 := cubic q21 q22 y
  some (cubic q1 q2 x)

/-! ### Cost functions in space -/

/-- `OccupiedSpaceCostFunction3D::Evaluate` (occupied_space_cost_function_3d.h:69-80). -/
noncomputable def occupied3 (scale : ℝ) (points : List V3) (g : HG) (pose : Rigid3) : Option (List ℝ) :=
  points.mapM fun p => (interpolated g.getProbability g.resolution (pose.apply p)).map fun probability => scale * (1 - probability)

/-- `IntensityCostFunction3D::Evaluate` (intensity_cost_function_3d.h:67-85). -/
noncomputable def intensity3 (scale threshold : ℝ) (points : List V3) (intensities : List ℝ) (g : Insert3D.IG) (pose : Rigid3) : Option (List ℝ) :=
  (List.range points.length).mapM fun (i : Nat) => do
    let intensity ← intensities[i]?
    if threshold < intensity then some 0
    else do
      let p ← points[i]?
      let v ← interpolated g.getIntensity g.resolution (pose.apply p)
      some (scale * (v - intensity))

/-- `TranslationDeltaCostFunctor3D` (translation_delta_cost_functor_3d.h:39-45). -/
def translationDelta3 (scale : ℝ) (target t : V3) : List ℝ := [scale * (t.x - target.x), scale * (t.y - target.y), scale * (t.z - target.z)]

/-- `QuaternionProduct` (common/math.h:74-81). -/
def quaternionProduct (z w : Quat) : Quat :=
  ⟨z.w * w.w - z.x * w.x - z.y * w.y - z.z * w.z, z.w * w.x + z.x * w.w + z.y * w.z - z.z * w.y,
    z.w * w.y - z.x * w.z + z.y * w.w + z.z * w.x, z.w * w.z + z.x * w.y - z.y * w.x + z.z * w.w⟩

/-- `RotationDeltaCostFunctor3D` (rotation_delta_cost_functor_3d.h:43-68) for the rotation it is built from. -/
def rotationDelta3 (scale : ℝ) (target q : Quat) : List ℝ :=
  let delta := quaternionProduct ⟨target.w, -target.x, -target.y, -target.z⟩ q
  [scale * delta.x, scale * delta.y, scale * delta.z]

/-- `Clamp` (common/math.h:33-42). -/
noncomputable def clamp (v lo hi : ℝ) : ℝ := if hi < v then hi else if v < lo then lo else v

/-- `YawOnlyQuaternionPlus` (rotation_parameterization.h:27-39); `ceres::QuaternionProduct` is the product of quaternions. -/
noncomputable def yawOnlyPlus (q : Quat) (delta : ℝ) : Quat :=
  let d := clamp delta (-1 / 2) (1 / 2)
  Quat.mul ⟨√(1 - d * d), 0, 0, d⟩ q

/-- `ConstantYawQuaternionPlus` (rotation_parameterization.h:41-62). -/
noncomputable def constantYawPlus (q : Quat) (delta : V2) : Quat :=
  let n := √(delta.x ^ 2 + delta.y ^ 2)
  let s := if n < 1 / 10 ^ 6 then 1 else Real.sin n / n
  Quat.mul q ⟨if n < 1 / 10 ^ 6 then 1 else Real.cos n, s * delta.x, s * delta.y, 0⟩

/-! ### The problem of `CeresScanMatcher3D` -/

/-- `IntensityCostFunctionOptions` (ceres_scan_matcher_options_3d.proto). -/
structure IntensityOptions where
  weight : ℝ
  huberScale : ℝ
  threshold : ℝ

/-- `CeresScanMatcherOptions3D`. -/
structure Options3 where
  occupiedWeights : List ℝ
  intensityOptions : List IntensityOptions
  translationWeight : ℝ
  rotationWeight : ℝ

/-- `PointCloudAndHybridGridsPointers` (ceres_scan_matcher_3d.h:37-41). -/
structure CloudAndGrids where
  points : List V3
  intensities : List ℝ
  grid : HG
  intensityGrid : Option Insert3D.IG

/-- A residual block: the scale of its Huber loss if it has one, and its residuals at a pose. -/
structure Block (Pose : Type) where
  huber : Option ℝ
  residuals : Pose → Option (List ℝ)

/-- The blocks of one point cloud (ceres_scan_matcher_3d.cc:110-140), with the `CHECK` that there are intensities (intensity_cost_function_3d.cc:14). -/
noncomputable def cloudBlocks (o : Options3) (i : Nat) (c : CloudAndGrids) : Option (List (Block Rigid3)) := do
  let w ← o.occupiedWeights[i]?
  if ¬0 < w then none
  else
    let occupied : Block Rigid3 := ⟨none, occupied3 (w / √(c.points.length : ℝ)) c.points c.grid⟩
    match c.intensityGrid with
    | none => some [occupied]
    | some ig => do
      let io ← o.intensityOptions[i]?
      if ¬0 < io.huberScale then none
      else if ¬0 < io.weight then none
      else if ¬0 < io.threshold then none
      else if c.intensities.isEmpty then none
      else some [occupied, ⟨some io.huberScale, intensity3 (io.weight / √(c.points.length : ℝ)) io.threshold c.points c.intensities ig⟩]

/-- The problem that `CeresScanMatcher3D::Match` hands to the solver (ceres_scan_matcher_3d.cc:97-151). -/
noncomputable def problem3 (o : Options3) (target : V3) (initial : Rigid3) (clouds : List CloudAndGrids) : Option (List (Block Rigid3)) := do
  if o.occupiedWeights.length ≠ clouds.length then none
  else do
    let blocks ← (List.range clouds.length).mapM fun (i : Nat) => do
      let c ← clouds[i]?
      cloudBlocks o i c
    if ¬0 < o.translationWeight then none
    else if ¬0 < o.rotationWeight then none
    else some (blocks.flatten ++ [⟨none, fun pose => some (translationDelta3 o.translationWeight target pose.translation)⟩,
      ⟨none, fun pose => some (rotationDelta3 o.rotationWeight initial.rotation pose.rotation)⟩])

/-- `ceres::HuberLoss`, or no loss function, of a squared norm (library). -/
noncomputable def loss (huber : Option ℝ) (s : ℝ) : ℝ :=
  match huber with
  | none => s
  | some a => if a ^ 2 < s then 2 * a * √s - a ^ 2 else s

/-- What a block adds to the cost of a pose (library): half of the loss of the squared norm of the residuals. -/
noncomputable def Block.cost {Pose : Type} (b : Block Pose) (pose : Pose) : Option ℝ :=
  (b.residuals pose).map fun r => loss b.huber ((r.map fun e => e ^ 2).sum) / 2

/-- The cost of a pose (library). -/
noncomputable def cost {Pose : Type} (blocks : List (Block Pose)) (pose : Pose) : Option ℝ :=
  (blocks.mapM fun (b : Block Pose) => b.cost pose).map List.sum

/-! ### Cost functions in the plane -/

/-- `kPadding` (occupied_space_cost_function_2d.cc:69). -/
def padding : Int := 2147483647 / 4

/-- `GridArrayAdapter::GetValue` (occupied_space_cost_function_2d.cc:76-92). -/
def adapterValue (g : Grid) (row column : Int) : Option ℚ :=
  let numRows := g.limits.numY + 2 * padding
  let numCols := g.limits.numX + 2 * padding
  if row < padding ∨ column < padding ∨ numRows - padding ≤ row ∨ numCols - padding ≤ column then some Verif.Prob.maxCost
  else g.getCorrespondenceCost (column - padding, row - padding)

/-- `ceres::CubicHermiteSpline` (library). -/
noncomputable def hermite (p0 p1 p2 p3 x : ℝ) : ℝ :=
  let a := (-p0 + 3 * p1 - 3 * p2 + p3) / 2
  let b := (2 * p0 - 5 * p1 + 4 * p2 - p3) / 2
  let c := (-p0 + p2) / 2
  p1 + x * (c + x * (b + x * a))

/-- Conversion to `int`; other values are undefined behaviour. -/
def toInt (i : Int) : Option Int := if -2147483648 ≤ i ∧ i ≤ 2147483647 then some i else none

/-- One row of `ceres::BiCubicInterpolator::Evaluate` (library). -/
noncomputable def bicubicRow (value : Int → Int → Option ℚ) (row column : Int) (x : ℝ) : Option ℝ := do
  let p0 ← value row (column - 1)
  let p1 ← value row column
  let p2 ← value row (column + 1)
  let p3 ← value row (column + 2)
  some (hermite p0 p1 p2 p3 x)

/-- `ceres::BiCubicInterpolator::Evaluate` (library). -/
noncomputable def bicubic (value : Int → Int → Option ℚ) (r c : ℝ) : Option ℝ := do
  let row ← toInt ⌊r⌋
  let column ← toInt ⌊c⌋
  let f0 ← bicubicRow value (row - 1) column (c - column)
  let f1 ← bicubicRow value row column (c - column)
  let f2 ← bicubicRow value (row + 1) column (c - column)
  let f3 ← bicubicRow value (row + 2) column (c - column)
  some (hermite f0 f1 f2 f3 (r - row))

/-- `OccupiedSpaceCostFunction2D::operator()` (occupied_space_cost_function_2d.cc:39-66). -/
noncomputable def occupied2 (scale : ℝ) (points : List V2) (g : Grid) (pose : Rigid2) : Option (List ℝ) :=
  points.mapM fun p =>
    let world := pose.apply p
    (bicubic (adapterValue g) ((g.limits.maxX - world.x) / g.limits.resolution - 1 / 2 + padding)
      ((g.limits.maxY - world.y) / g.limits.resolution - 1 / 2 + padding)).map fun v => scale * v

/-- `CenterOfLowerPixel` (interpolated_tsdf_2d.h:109-121); `GetCellCenter` is map_limits.h:79-83. -/
noncomputable def centerOfLowerPixel (l : MapLimits) (p : V2) : V2 :=
  let i := cellIndex l p
  let center : V2 := ⟨l.maxX - l.resolution * (i.2 + 1 / 2), l.maxY - l.resolution * (i.1 + 1 / 2)⟩
  ⟨if p.x < center.x then center.x - l.resolution else center.x, if p.y < center.y then center.y - l.resolution else center.y⟩

/-- `InterpolateBilinear` (interpolated_tsdf_2d.h:95-104). -/
noncomputable def bilinear (p p1 p2 : V2) (q11 q12 q21 q22 : ℝ) : ℝ :=
  let x := (p.x - p1.x) / (p2.x - p1.x)
  let y := (p.y - p1.y) / (p2.y - p1.y)
  let q1 := (q12 - q11) * y + q11
  let q2 := (q22 - q21) * y + q21
  (q2 - q1) * x + q1

/-- `TSDF2D::GetWeight` (tsdf_2d.cc:79-86). -/
def weight (t : Tsdf.Map) (i : Int × Int) : Option ℚ := (t.getTsdAndWeight i).map Prod.snd

/-- `InterpolatedTSDF2D::GetWeight` (interpolated_tsdf_2d.h:68-82). -/
noncomputable def tsdfWeight (t : Tsdf.Map) (p : V2) : Option ℝ := do
  let p1 := centerOfLowerPixel t.grid.limits p
  let p2 : V2 := ⟨p1.x + t.grid.limits.resolution, p1.y + t.grid.limits.resolution⟩
  let index := cellIndex t.grid.limits p1
  let q11 ← weight t index
  let q12 ← weight t (index.1 + -1, index.2)
  let q21 ← weight t (index.1, index.2 + -1)
  let q22 ← weight t (index.1 + -1, index.2 + -1)
  some (bilinear p p1 p2 q11 q12 q21 q22)

/-- `InterpolatedTSDF2D::GetCorrespondenceCost` (interpolated_tsdf_2d.h:38-66). -/
noncomputable def tsdfCost (t : Tsdf.Map) (p : V2) : Option ℝ := do
  let p1 := centerOfLowerPixel t.grid.limits p
  let p2 : V2 := ⟨p1.x + t.grid.limits.resolution, p1.y + t.grid.limits.resolution⟩
  let index := cellIndex t.grid.limits p1
  let w11 ← weight t index
  let w12 ← weight t (index.1 + -1, index.2)
  let w21 ← weight t (index.1, index.2 + -1)
  let w22 ← weight t (index.1 + -1, index.2 + -1)
  if w11 = 0 ∨ w12 = 0 ∨ w21 = 0 ∨ w22 = 0 then some t.grid.maxCost
  else do
    let q11 ← t.grid.getCorrespondenceCost index
    let q12 ← t.grid.getCorrespondenceCost (index.1 + -1, index.2)
    let q21 ← t.grid.getCorrespondenceCost (index.1, index.2 + -1)
    let q22 ← t.grid.getCorrespondenceCost (index.1 + -1, index.2 + -1)
    some (bilinear p p1 p2 q11 q12 q21 q22)

/-- The loop of `TSDFMatchCostFunction2D::operator()` (tsdf_match_cost_function_2d.cc:47-60): residuals and sum of the weights. -/
noncomputable def tsdfLoop (scale : ℝ) (n : Nat) (t : Tsdf.Map) (pose : Rigid2) : List V2 → Option (List ℝ × ℝ)
  | [] => some ([], 0)
  | p :: ps => do
    let w ← tsdfWeight t (pose.apply p)
    let c ← tsdfCost t (pose.apply p)
    let (residuals, sum) ← tsdfLoop scale n t pose ps
    some ((n * scale * c * w) :: residuals, w + sum)

/-- `TSDFMatchCostFunction2D::operator()` (tsdf_match_cost_function_2d.cc:39-66); `some none` is the result `false`. -/
noncomputable def tsdfMatch (scale : ℝ) (points : List V2) (t : Tsdf.Map) (pose : Rigid2) : Option (Option (List ℝ)) := do
  let (residuals, sum) ← tsdfLoop scale points.length t pose points
  if sum = 0 then some none else some (some (residuals.map fun e => e / sum))

/-- `TranslationDeltaCostFunctor2D` (translation_delta_cost_functor_2d.h:39-44). -/
def translationDelta2 (scale : ℝ) (target : V2) (pose : Rigid2) : List ℝ :=
  [scale * (pose.translation.x - target.x), scale * (pose.translation.y - target.y)]

/-- `RotationDeltaCostFunctor2D` (rotation_delta_cost_functor_2d.h:38-42). -/
def rotationDelta2 (scale target : ℝ) (pose : Rigid2) : List ℝ := [scale * (pose.angle - target)]

/-- `CeresScanMatcherOptions2D`. -/
structure Options2 where
  occupiedWeight : ℝ
  translationWeight : ℝ
  rotationWeight : ℝ

/-- The problem that `CeresScanMatcher2D::Match` hands to the solver (ceres_scan_matcher_2d.cc:69-101) for a probability grid. -/
noncomputable def problem2 (o : Options2) (target : V2) (initial : Rigid2) (points : List V2) (g : Grid) : Option (List (Block Rigid2)) :=
  if ¬0 < o.occupiedWeight then none
  else if ¬0 < o.translationWeight then none
  else if ¬0 < o.rotationWeight then none
  else some [⟨none, occupied2 (o.occupiedWeight / √(points.length : ℝ)) points g⟩,
    ⟨none, fun pose => some (translationDelta2 o.translationWeight target pose)⟩,
    ⟨none, fun pose => some (rotationDelta2 o.rotationWeight initial.angle pose)⟩]

/-- The same for a truncated signed distance field; a block that returns `false` makes the solver stop. -/
noncomputable def problem2Tsdf (o : Options2) (target : V2) (initial : Rigid2) (points : List V2) (t : Tsdf.Map) : Option (List (Block Rigid2)) :=
  if ¬0 < o.occupiedWeight then none
  else if ¬0 < o.translationWeight then none
  else if ¬0 < o.rotationWeight then none
  else some [⟨none, fun pose => (tsdfMatch (o.occupiedWeight / √(points.length : ℝ)) points t pose).join⟩,
    ⟨none, fun pose => some (translationDelta2 o.translationWeight target pose)⟩,
    ⟨none, fun pose => some (rotationDelta2 o.rotationWeight initial.angle pose)⟩]

end Verif.MatchCost
