import Mathlib.Analysis.SpecialFunctions.Log.Basic
import Mathlib.Algebra.Order.Round

/-!
# X-ray images of point clouds

`XRayPointsProcessor` (cartographer/io/xray_points_processor.{h,cc}, here x.cc) with the
conversion of colors (cartographer/io/color.h) and the images (cartographer/io/image.cc).

Simplifications:
* Colors and the saturation are real numbers instead of `float`, `std::log` is the
  logarithm.
* The grid of voxels is a finite set of indices; that `HybridGridBase` is one is C13-C16.
  Its iterator gives the indices in some order, each once (`cells`).
* A point is given by the index of its voxel (`GetCellIndex(transform_ * point)`,
  x.cc:225-227).
* `PixelDataMatrix` and `Image` are functions of the index of the vector; access outside
  of the vector is `none`.
* The trajectories drawn over the image with cairo, and writing PNG, are left out.
-/

namespace Verif.XRayImage

/-- `Eigen::Array3i`: forward, left, up. -/
structure Cell where
  x : Int
  y : Int
  z : Int
  deriving DecidableEq

/-- The pixel column of a voxel, x.cc:230-231. -/
def Cell.column (c : Cell) : Int × Int := (c.y, c.z)

/-- `FloatColor`, io/color.h:29. -/
structure Color where
  r : ℝ
  g : ℝ
  b : ℝ

/-- `Uint8Color`, io/color.h:28. -/
structure Pixel where
  r : Int
  g : Int
  b : Int

/-- `FloatComponentToUint8`, io/color.h:35-38. -/
noncomputable def toUint8 (c : ℝ) : Int := round (max 0 (min 1 c) * 255)

/-- `ToUint8Color`, io/color.h:42-45. -/
noncomputable def Color.toPixel (c : Color) : Pixel := ⟨toUint8 c.r, toUint8 c.g, toUint8 c.b⟩

/-- `XRayPointsProcessor::ColumnData`, xray_points_processor.h:63-68. -/
structure ColumnData where
  r : ℝ
  g : ℝ
  b : ℝ
  count : Nat

/-- `XRayPointsProcessor::Aggregation`, xray_points_processor.h:70-73. -/
structure Aggregation where
  voxels : List Cell
  columns : Int × Int → Option ColumnData

/-- An aggregation without points. -/
def Aggregation.empty : Aggregation := ⟨[], fun _ => none⟩

/-- `Eigen::AlignedBox3i` that is not empty. -/
structure Box where
  lo : Cell
  hi : Cell

/-- `AlignedBox::extend`. -/
def extend (b : Option Box) (c : Cell) : Option Box :=
  match b with
  | none => some ⟨c, c⟩
  | some b => some ⟨⟨min b.lo.x c.x, min b.lo.y c.y, min b.lo.z c.z⟩,
      ⟨max b.hi.x c.x, max b.hi.y c.y, max b.hi.z c.z⟩⟩

/-- One iteration of the loop x.cc:224-238. -/
noncomputable def insertPoint (s : Aggregation × Option Box) (p : Cell × Color) :
    Aggregation × Option Box :=
  let old := (s.1.columns p.1.column).getD ⟨0, 0, 0, 0⟩
  (⟨if p.1 ∈ s.1.voxels then s.1.voxels else p.1 :: s.1.voxels,
    Function.update s.1.columns p.1.column
      (some ⟨old.r + p.2.r, old.g + p.2.g, old.b + p.2.b, old.count + 1⟩)⟩,
   extend s.2 p.1)

/-- A batch of points: the voxels of its points and the colors. -/
structure Batch where
  startTime : Int
  points : List Cell
  colors : List Color

/-- The points with their colors, x.cc:232-233: black if there are no colors;
`colors.at(i)` throws if there are too few. -/
noncomputable def Batch.colored (b : Batch) : Option (List (Cell × Color)) :=
  if b.colors.length = 0 then some (b.points.map fun p => (p, ⟨0, 0, 0⟩))
  else if b.points.length ≤ b.colors.length then some (b.points.zip b.colors)
  else none

/-- `Insert`, x.cc:221-239. -/
noncomputable def insert (s : Aggregation × Option Box) (b : Batch) :
    Option (Aggregation × Option Box) :=
  b.colored.map fun ps => ps.foldl insertPoint s

/-- `ContainedIn`, x.cc:106-114. -/
def containedIn (t : Int) (spans : List (Int × Int)) : Bool :=
  spans.any fun s => s.1 ≤ t && t ≤ s.2

/-- The processor: one aggregation, or one per floor. -/
structure State where
  aggregations : List Aggregation
  box : Option Box

/-- The constructor, x.cc:118-138; a floor is the list of its time spans. -/
def initial (floors : List (List (Int × Int))) : State :=
  ⟨List.replicate (if floors.length = 0 then 1 else floors.length) .empty, none⟩

/-- The loop over the floors, x.cc:246-251. -/
noncomputable def insertFloors (b : Batch) :
    List (List (Int × Int)) → List Aggregation → Option Box → Option (List Aggregation × Option Box)
  | [], as, box => some (as, box)
  | _ :: _, [], _ => none
  | f :: fs, a :: as, box =>
    if containedIn b.startTime f then
      (insert (a, box) b).bind fun r => (insertFloors b fs as r.2).map fun q => (r.1 :: q.1, q.2)
    else (insertFloors b fs as box).map fun q => (a :: q.1, q.2)

/-- `Process`, x.cc:241-254; the batch is passed on unchanged. -/
noncomputable def process (floors : List (List (Int × Int))) (s : State) (b : Batch) :
    Option State :=
  match floors, s.aggregations with
  | [], [a] => (insert (a, s.box) b).map fun r => ⟨[r.1], r.2⟩
  | [], _ => none
  | fs, as => (insertFloors b fs as s.box).map fun r => ⟨r.1, r.2⟩

/-- All batches. -/
noncomputable def processAll (floors : List (List (Int × Int))) (s : State) :
    List Batch → Option State
  | [] => some s
  | b :: bs => (process floors s b).bind fun s' => processAll floors s' bs

/-- `PixelData`, x.cc:38-43. -/
structure PixelData where
  count : Nat
  r : ℝ
  g : ℝ
  b : ℝ

/-- Width and height of the image, x.cc:187-188. -/
def Box.width (b : Box) : Int := b.hi.y - b.lo.y + 1
def Box.height (b : Box) : Int := b.hi.z - b.lo.z + 1

/-- `voxel_index_to_pixel`, x.cc:178-183. -/
def Box.pixel (b : Box) (c : Int × Int) : Int × Int := (b.hi.y - c.1, b.hi.z - c.2)

/-- `data_.at(x + y * width_)`, x.cc:53-59, as an index. -/
def Box.at (b : Box) (p : Int × Int) : Option Int :=
  if 0 ≤ p.1 + p.2 * b.width ∧ p.1 + p.2 * b.width < b.width * b.height
  then some (p.1 + p.2 * b.width) else none

/-- One iteration of the loop x.cc:190-201. -/
noncomputable def addVoxel (b : Box) (columns : Int × Int → Option ColumnData)
    (m : Int → PixelData) (c : Cell) : Option (Int → PixelData) :=
  (b.at (b.pixel c.column)).bind fun i =>
    (columns c.column).map fun d =>
      Function.update m i
        ⟨(m i).count + 1, d.r / d.count, d.g / d.count, d.b / d.count⟩

/-- The loop x.cc:190-201. -/
noncomputable def pixels (b : Box) (columns : Int × Int → Option ColumnData) :
    (Int → PixelData) → List Cell → Option (Int → PixelData)
  | m, [] => some m
  | m, c :: cs => (addVoxel b columns m c).bind fun m' => pixels b columns m' cs

/-- `std::numeric_limits<float>::min()`. -/
noncomputable def floatMin : ℝ := 1 / 2 ^ 126

/-- The largest logarithm, x.cc:72-81; `is` are the indices of the matrix. -/
noncomputable def maxLog (m : Int → PixelData) (is : List Int) : ℝ :=
  is.foldl (fun a i => if (m i).count = 0 then a else max a (Real.log (m i).count)) floatMin

/-- `Mix`, x.cc:65-67. -/
noncomputable def mix (a b t : ℝ) : ℝ := a * (1 - t) + t * b

/-- The color of one pixel, x.cc:84-101. -/
noncomputable def pixelColor (mx factor : ℝ) (p : PixelData) : Pixel :=
  if p.count = 0 then ⟨255, 255, 255⟩
  else
    let s := min 1 (Real.log p.count / mx * factor)
    Color.toPixel ⟨mix 1 p.r s, mix 1 p.g s, mix 1 p.b s⟩

/-- An image: width, height, and the pixel at an index of its vector. -/
structure Image where
  width : Int
  height : Int
  pixel : Int → Pixel

/-- `IntoImage`, x.cc:70-104. -/
noncomputable def intoImage (b : Box) (factor : ℝ) (m : Int → PixelData) : Image :=
  ⟨b.width, b.height, fun i => pixelColor
    (maxLog m ((List.range (b.width * b.height).toNat).map Int.ofNat)) factor (m i)⟩

/-- `GetPixel(x, y)`, io/image.cc:92-94. -/
def Image.getPixel (im : Image) (x y : Int) : Pixel := im.pixel (y * im.width + x)

/-- `WriteVoxels`, x.cc:170-219: nothing is written if the box is empty.  `cells` is the
order of the iterator. -/
noncomputable def writeVoxels (a : Aggregation) (cells : List Cell) (box : Option Box)
    (factor : ℝ) : Option (Option Image) :=
  match box with
  | none => some none
  | some b => (pixels b a.columns (fun _ => ⟨0, 0, 0, 0⟩) cells).map fun m =>
      some (intoImage b factor m)

end Verif.XRayImage
