import Verif.Grid2D
import Verif.Tsdf2D
import Verif.HybridGrid
import Verif.Rigid
import Mathlib.Analysis.SpecialFunctions.Log.Basic

/-!
# Submap textures

Model of how submaps are drawn: `DrawToSubmapTexture` of the two kinds of two-dimensional grids (mapping/2d/probability_grid.cc,
mapping/internal/2d/tsdf_2d.cc), the X-ray view of three-dimensional submaps (mapping/3d/submap_3d.cc), and the functions that unpack
textures and paint them (io/submap_painter.cc).  Values of cells are rational numbers, poses real.  `none` is a failing `CHECK`
or undefined behaviour.  A string of bytes is a list of natural numbers; compressing it (`FastGzipString`) and decompressing it is
left out.  Drawing with cairo is a library function, so that the model ends with the slices drawn and the transformation
from the pixels of a slice to the pixels of the image.
-/

namespace Verif.Texture

open Verif.Grid2D Verif.Prob Verif.Rigid

/-- `RoundToInt` (common/port.h:40-42) of a real number. -/
noncomputable def roundReal (x : ℝ) : Int := if 0 ≤ x then ⌊x + 1 / 2⌋ else ⌈x - 1 / 2⌉

/-- `Logit` (submaps.h:36-38). -/
noncomputable def logit (p : ℝ) : ℝ := Real.log (p / (1 - p))

/-- The value computed by `ProbabilityToLogOddsInteger` (submaps.h:46-53) before its two `CHECK`s. -/
noncomputable def logOddsReal (p : ℚ) : Int :=
  roundReal ((logit p - logit minProbability) * 254 / (logit maxProbability - logit minProbability)) + 1

/-- `ProbabilityToLogOddsInteger` (submaps.h:46-53), for any function computing the value. -/
def logOddsInteger (f : ℚ → Int) (p : ℚ) : Option Int := if 1 ≤ f p ∧ f p ≤ 255 then some (f p) else none

/-- Value and alpha of a known cell (probability_grid.cc:129-134, tsdf_2d.cc:161-164, submap_3d.cc:138-141): `alpha` and `value` are
`uint8`. -/
def pixelBytes (delta : Int) : List Nat :=
  let alpha := if 0 < delta then 0 else (-delta % 256).toNat
  let value := if 0 < delta then (delta % 256).toNat else 0
  [value, if value ≠ 0 ∨ alpha ≠ 0 then alpha else 1]

/-- One iteration of the loops of `DrawToSubmapTexture` (probability_grid.cc:117-136, tsdf_2d.cc:143-166). -/
def drawCell (known : Int × Int → Option Bool) (delta : Int × Int → Option Int) (offset i : Int × Int) : Option (List Nat) := do
  let k ← known (addIdx i offset)
  if k then do
    let d ← delta (addIdx i offset)
    some (pixelBytes d)
  else some [0, 0]

/-- The loops of `DrawToSubmapTexture`. -/
def drawCells (known : Int × Int → Option Bool) (delta : Int × Int → Option Int) (offset size : Int × Int) : Option (List Nat) := do
  let is ← xyIndices size.1 size.2
  is.foldlM (fun (cells : List Nat) i => (drawCell known delta offset i).map (cells ++ ·)) []

/-- `proto::SubmapQuery::Response::SubmapTexture` (proto/submap_visualization.proto). -/
structure Texture where
  width : Int
  height : Int
  resolution : ℝ
  cells : List Nat
  slicePose : Rigid3

/-- `Rigid3d::Translation`. -/
def translation (v : V3) : Rigid3 := ⟨v, ⟨1, 0, 0, 0⟩⟩

/-- The end of `DrawToSubmapTexture` (probability_grid.cc:138-149, tsdf_2d.cc:168-179). -/
noncomputable def texture2D (g : Grid) (localPose : Rigid3) (cells : List Nat) : Texture where
  width := g.croppedLimits.2.1
  height := g.croppedLimits.2.2
  resolution := g.limits.resolution
  cells := cells
  slicePose := localPose.inverse.mul (translation ⟨g.limits.maxX - g.limits.resolution * g.croppedLimits.1.2,
    g.limits.maxY - g.limits.resolution * g.croppedLimits.1.1, 0⟩)

/-- The value drawn for a cell of a probability grid (probability_grid.cc:129-130). -/
def probabilityDelta (f : ℚ → Int) (g : Grid) (i : Int × Int) : Option Int := do
  let p ← g.getProbability i
  let l ← logOddsInteger f p
  some (128 - l)

/-- `ProbabilityGrid::DrawToSubmapTexture` (probability_grid.cc:109-152). -/
noncomputable def drawProbabilityGrid (f : ℚ → Int) (g : Grid) (localPose : Rigid3) : Option Texture := do
  let cells ← drawCells g.isKnown (probabilityDelta f g) g.croppedLimits.1 g.croppedLimits.2
  some (texture2D g localPose cells)

/-- The value drawn for a cell of a signed distance grid (tsdf_2d.cc:155-160); `root` is the square root. -/
def tsdfDelta (root : ℚ → ℚ) (t : Tsdf.Map) (i : Int × Int) : Option Int := do
  let (tsd, weight) ← t.getTsdAndWeight i
  some (roundToInt (weight / t.maxWeight * (root (|tsd| / t.maxTsd) * 255 - 128)))

/-- `TSDF2D::DrawToSubmapTexture` (tsdf_2d.cc:135-182). -/
noncomputable def drawTsdf (root : ℚ → ℚ) (t : Tsdf.Map) (localPose : Rigid3) : Option Texture := do
  let cells ← drawCells t.grid.isKnown (tsdfDelta root t) t.grid.croppedLimits.1 t.grid.croppedLimits.2
  some (texture2D t.grid localPose cells)

/-! ### The X-ray view -/

/-- `PixelData` (submap_3d.cc:31-37). -/
structure PixelData where
  minZ : Int
  maxZ : Int
  count : Nat
  sum : ℚ
  max : ℚ
deriving DecidableEq

/-- `INT_MAX` and `INT_MIN`. -/
def intMax : Int := 2147483647
def intMin : Int := -2147483648

/-- A new `PixelData`. -/
def PixelData.new : PixelData := ⟨intMax, intMin, 0, 0, 1 / 2⟩

/-- The result of arithmetic on `int`: overflow is undefined behaviour. -/
def int32 (x : Int) : Option Int := if intMin ≤ x ∧ x ≤ intMax then some x else none

/-- A voxel of the global map and a probability value. -/
structure Voxel where
  x : Int
  y : Int
  z : Int
  value : Nat
deriving DecidableEq

/-- `ExtractVoxelData` (submap_3d.cc:80-110): `cells` are the cells in the order of the iterator, `index` computes the index of the
rounded position in the global frame.  Also returns `min_index` and `max_index`. -/
def extractVoxels (index : Hybrid.I3 → Hybrid.I3) (cells : List (Hybrid.I3 × Nat)) :
    List Voxel × (Int × Int) × (Int × Int) :=
  cells.foldl (fun a c =>
    if valueToProbability c.2 < 501 / 1000 then a
    else
      let i := index c.1
      (a.1 ++ [⟨i.x, i.y, i.z, c.2⟩], (min a.2.1.1 i.x, min a.2.1.2 i.y), (max a.2.2.1 i.x, max a.2.2.2 i.y)))
    ([], (intMax, intMax), (intMin, intMin))

/-- One voxel added to its pixel (submap_3d.cc:66-72). -/
def PixelData.add (p : PixelData) (v : Voxel) : PixelData where
  minZ := min p.minZ v.z
  maxZ := Max.max p.maxZ v.z
  count := p.count + 1
  sum := p.sum + valueToProbability v.value
  max := Max.max p.max (valueToProbability v.value)

/-- `AccumulatePixelData` (submap_3d.cc:51-75). -/
def accumulate (width height : Int) (mn mx : Int × Int) (vs : List Voxel) : Option (List PixelData) := do
  let n ← int32 (width * height)
  vs.foldlM (fun (acc : List PixelData) v =>
    if v.x < mn.1 ∨ v.y < mn.2 ∨ mx.1 < v.x ∨ mx.2 < v.y then some acc
    else do
      let x := mx.1 - v.x
      let y := mx.2 - v.y
      if x * width + y < 0 then none
      else do
        let p ← acc[(x * width + y).toNat]?
        some (acc.set (x * width + y).toNat (p.add v)))
    (List.replicate n.toNat .new)

/-- `ClampProbability` (probability_values.h:68-70). -/
def clampProbability (p : ℚ) : ℚ := clamp p minProbability maxProbability

/-- One iteration of `ComputePixelValues` (submap_3d.cc:124-141). -/
def pixelValue (f : ℚ → Int) (p : PixelData) : Option (List Nat) := do
  let z ← if 0 < p.count then int32 (p.maxZ - p.minZ) else some 0
  if z < 3 then some [0, 0]
  else do
    let free : ℚ := max ((z : ℚ) - p.count) 0
    let weight : ℚ := 15 / 100 * free
    let average := clampProbability ((p.sum + (1 - p.max) * weight) / (p.count + weight))
    let l ← logOddsInteger f average
    some (pixelBytes (128 - l))

/-- `ComputePixelValues` (submap_3d.cc:114-144). -/
def pixelValues (f : ℚ → Int) (ps : List PixelData) : Option (List Nat) :=
  ps.foldlM (fun (cells : List Nat) p => (pixelValue f p).map (cells ++ ·)) []

/-- The index of the rounded centre of a cell in the global frame (submap_3d.cc:95-101). -/
noncomputable def globalIndex (pose : Rigid3) (resolution : ℝ) (i : Hybrid.I3) : Hybrid.I3 :=
  let c := pose.apply ⟨i.x * resolution, i.y * resolution, i.z * resolution⟩
  ⟨roundReal (c.x * (1 / resolution)), roundReal (c.y * (1 / resolution)), roundReal (c.z * (1 / resolution))⟩

/-- `AddToTextureProto` (submap_3d.cc:146-176) except for the poses. -/
def xray (f : ℚ → Int) (index : Hybrid.I3 → Hybrid.I3) (cells : List (Hybrid.I3 × Nat)) :
    Option ((Int × Int) × (Int × Int) × List Nat) := do
  let (vs, mn, mx) := extractVoxels index cells
  let dy ← int32 (mx.2 - mn.2)
  let width ← int32 (dy + 1)
  let dx ← int32 (mx.1 - mn.1)
  let height ← int32 (dx + 1)
  let acc ← accumulate width height mn mx vs
  let bytes ← pixelValues f acc
  some (mx, (width, height), bytes)

/-- `AddToTextureProto` (submap_3d.cc:146-176). -/
noncomputable def drawHybridGrid (f : ℚ → Int) (resolution : ℝ) (cells : List (Hybrid.I3 × Nat)) (pose : Rigid3) : Option Texture := do
  let (mx, size, bytes) ← xray f (globalIndex pose resolution) cells
  some ⟨size.1, size.2, resolution, bytes,
    pose.inverse.mul (translation ⟨mx.1 * resolution, mx.2 * resolution, pose.translation.z⟩)⟩

/-! ### Painting -/

/-- `UnpackTextureData` (submap_painter.cc:177-193): intensities and alphas. -/
def unpack (cells : List Nat) (width height : Int) : Option (List (Nat × Nat)) :=
  if (cells.length : Int) = 2 * (width * height) then
    (List.range height.toNat).flatMap (fun i => (List.range width.toNat).map (fun j => (i, j))) |>.mapM (fun ij => do
      let a ← cells[(ij.1 * width.toNat + ij.2) * 2]?
      let b ← cells[(ij.1 * width.toNat + ij.2) * 2 + 1]?
      some (a, b))
  else none

/-- The pixels of a cairo surface made by `DrawTexture` (submap_painter.cc:195-223): alpha, red, green, blue in one `uint32`. -/
def surface (pixels : List (Nat × Nat)) : List Nat :=
  pixels.map (fun p =>
    let observed := if p.1 = 0 ∧ p.2 = 0 then 0 else 255
    (p.2 <<< 24) ||| (p.1 <<< 16) ||| (observed <<< 8) ||| 0)

/-- `SubmapSlice` (submap_painter.h:42-59). -/
structure Slice where
  width : Int
  height : Int
  resolution : ℝ
  slicePose : Rigid3
  pose : Rigid3
  surface : Option (List Nat)

/-- `FillSubmapSlice` (submap_painter.cc:120-151), given the texture in the response. -/
def fillSlice (globalPose : Rigid3) (t : Texture) : Option Slice := do
  let pixels ← unpack t.cells t.width t.height
  some ⟨t.width, t.height, t.resolution, t.slicePose, globalPose, some (surface pixels)⟩

/-- A cairo matrix; `apply` is documented by cairo as `x_new = xx * x + xy * y + x0`, `y_new = yx * x + yy * y + y0`. -/
structure Matrix where
  xx : ℝ
  yx : ℝ
  xy : ℝ
  yy : ℝ
  x0 : ℝ
  y0 : ℝ

def Matrix.apply (m : Matrix) (p : ℝ × ℝ) : ℝ × ℝ := (m.xx * p.1 + m.xy * p.2 + m.x0, m.yx * p.1 + m.yy * p.2 + m.y0)

/-- The matrix of `CairoPaintSubmapSlices` (submap_painter.cc:41-48): `homo` has the images of the unit vectors as columns. -/
def sliceMatrix (r : Rigid3) : Matrix where
  xx := (r.rotation.rotate ⟨1, 0, 0⟩).y
  yx := (r.rotation.rotate ⟨1, 0, 0⟩).x
  xy := -(r.rotation.rotate ⟨0, 1, 0⟩).y
  yy := -(r.rotation.rotate ⟨0, 1, 0⟩).x
  x0 := r.translation.x
  y0 := -r.translation.y

/-- From the coordinates of a slice to those of the device, before the translation by `origin` (submap_painter.cc:34-51): later
transformations are applied first. -/
noncomputable def toDevice (scale : ℝ) (s : Slice) (u v : ℝ) : ℝ × ℝ :=
  let p := (sliceMatrix (s.pose.mul s.slicePose)).apply (s.resolution * u, s.resolution * v)
  (scale * p.1, scale * p.2)

/-- The slices for which `CairoPaintSubmapSlices` calls `draw_callback` (submap_painter.cc:36-40): it returns at the first one without
a surface. -/
def drawn : List Slice → List Slice
  | [] => []
  | s :: rest => match s.surface with
    | none => []
    | some _ => s :: drawn rest

/-- The four corners of a slice (submap_painter.cc:88-91). -/
noncomputable def corners (scale : ℝ) (s : Slice) : List (ℝ × ℝ) :=
  [toDevice scale s 0 0, toDevice scale s s.width 0, toDevice scale s 0 s.height, toDevice scale s s.width s.height]

/-- `bounding_box.extend`. -/
noncomputable def extend (b : Option ((ℝ × ℝ) × (ℝ × ℝ))) (p : ℝ × ℝ) : Option ((ℝ × ℝ) × (ℝ × ℝ)) :=
  match b with
  | none => some (p, p)
  | some (lo, hi) => some ((min lo.1 p.1, min lo.2 p.2), (max hi.1 p.1, max hi.2 p.2))

/-- The image of `PaintSubmapSlices` (submap_painter.cc:72-118): its size, its origin and the slices drawn in it; without
slices the bounding box is empty and the size not defined. -/
structure Painting where
  size : Int × Int
  origin : ℝ × ℝ
  slices : List Slice

noncomputable def paint (resolution : ℝ) (slices : List Slice) : Option Painting := do
  let (lo, hi) ← ((drawn slices).flatMap (corners (1 / resolution))).foldl extend none
  some ⟨(⌈hi.1 - lo.1⌉ + 10, ⌈hi.2 - lo.2⌉ + 10), (-lo.1 + 5, -lo.2 + 5), drawn slices⟩

/-- Where a point of a slice is in the image (submap_painter.cc:105-115). -/
noncomputable def Painting.position (P : Painting) (resolution : ℝ) (s : Slice) (u v : ℝ) : ℝ × ℝ :=
  let d := toDevice (1 / resolution) s u v
  (d.1 + P.origin.1, d.2 + P.origin.2)

end Verif.Texture
