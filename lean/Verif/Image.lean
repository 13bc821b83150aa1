import Verif.RangeDataInserter2D

/-!
# Images and the image of a probability grid

`io::Image` (cartographer/io/image.{h,cc}), the palette (io/color.cc), the coordinates of trajectories
(io/draw_trajectories.cc) and `ProbabilityGridPointsProcessor` (io/probability_grid_points_processor.cc, here p.cc).

Simplifications:
* Pixels are natural numbers; that they fit into `uint32` is proved.  Sizes and coordinates are natural numbers.  An
  access outside of the vector (undefined behaviour, or the exception of `at`) is `none`.
* `float` numbers are exact rationals, the constants are the decimals in the source.
* The surfaces of cairo are their width, height, stride and bytes (as `uint32`); what cairo paints is left out, only the
  coordinates it is given are modelled.  Writing PNG is left out.
-/

namespace Verif.Img

open Verif.Grid2D Verif.Prob

/-- `Uint8Color`, io/color.h:28. -/
structure Rgb where
  r : Nat
  g : Nat
  b : Nat
  deriving DecidableEq, Repr

/-- `Uint8ColorToCairo`, image.cc:12-15. -/
def pack (c : Rgb) : Nat := 255 <<< 24 ||| c.r <<< 16 ||| c.g <<< 8 ||| c.b

/-- `CairoToUint8Color`, image.cc:17-22; the conversion to `uint8` takes the lowest byte. -/
def unpack (p : Nat) : Rgb := ⟨(p >>> 16) % 256, (p >>> 8) % 256, p % 256⟩

/-- `Image`, image.h:71-73. -/
structure Image where
  width : Nat
  height : Nat
  pixels : List Nat
  deriving DecidableEq, Repr

/-- `Image::Image(int, int)`, image.cc:49-50. -/
def create (width height : Nat) : Image := ⟨width, height, List.replicate (width * height) 0⟩

/-- A surface of cairo: the pixels of each line are followed by padding up to `stride` pixels. -/
structure Surface where
  argb : Bool
  width : Nat
  height : Nat
  stride : Nat
  data : List Nat

/-- `Image::Image(UniqueCairoSurfacePtr)`, image.cc:52-65; `CheckStrideIsAsExpected`, image.cc:34-37. -/
def fromSurface (s : Surface) : Option Image :=
  if s.argb = true ∧ s.stride = s.width ∧ s.width * s.height ≤ s.data.length then
    some ⟨s.width, s.height, s.data.take (s.width * s.height)⟩
  else none

/-- `Image::GetPixel`, image.cc:91-93. -/
def Image.getPixel (im : Image) (x y : Nat) : Option Rgb := do
  let p ← im.pixels[y * im.width + x]?
  some (unpack p)

/-- `Image::SetPixel`, image.cc:95-97. -/
def Image.setPixel (im : Image) (x y : Nat) (c : Rgb) : Option Image := do
  let px ← setAt? im.pixels (y * im.width + x) (pack c)
  some { im with pixels := px }

/-- The pixels in the order of the loops of `Rotate90DegreesClockwise`, image.cc:70-74: positions in the old vector. -/
def rotateOrder (width height : Nat) : List Nat :=
  (List.range width).flatMap fun x => (List.range height).reverse.map fun y => y * width + x

/-- `Image::Rotate90DegreesClockwise`, image.cc:67-76. -/
def Image.rotate (im : Image) : Option Image := do
  let px ← (rotateOrder im.width im.height).mapM fun k => im.pixels[k]?
  some ⟨im.height, im.width, px⟩

/-! ### The image of a probability grid -/

/-- `ProbabilityToColor`, p.cc:51-56; the conversion to `uint8` takes the lowest byte. -/
def probabilityToColor (p : ℚ) : Nat :=
  (roundToInt (255 * ((1 - p - minProbability) / (maxProbability - minProbability))) % 256).toNat

/-- The value of one pixel, p.cc:188-192. -/
def cellColor (g : Grid) (i : Int × Int) : Option Nat := do
  let k ← g.isKnown i
  if k then do
    let p ← g.getProbability i
    some (probabilityToColor p)
  else some 128

/-- The loop body of `DrawProbabilityGrid`, p.cc:185-193. -/
def drawCell (g : Grid) (offset : Int × Int) (im : Image) (i : Int × Int) : Option Image := do
  let v ← cellColor g (addIdx i offset)
  im.setPixel i.1.toNat i.2.toNat ⟨v, v, v⟩

/-- `DrawProbabilityGrid`, p.cc:175-196: the inner `none` is the null pointer. -/
def drawProbabilityGrid (g : Grid) : Option (Option Image) :=
  if g.croppedLimits.2.1 = 0 ∨ g.croppedLimits.2.2 = 0 then some none
  else do
    let is ← xyIndices g.croppedLimits.2.1 g.croppedLimits.2.2
    let im ← is.foldlM (drawCell g g.croppedLimits.1) (create g.croppedLimits.2.1.toNat g.croppedLimits.2.2.toNat)
    some (some im)

/-- `CreateProbabilityGrid`, p.cc:198-208. -/
def createProbabilityGrid (resolution : ℚ) : Option Grid := do
  let l ← mkLimits resolution (1 / 2 * 100 * resolution) (1 / 2 * 100 * resolution) 100 100
  Grid2D.create l Verif.Prob.minCost Verif.Prob.maxCost

/-- `ProbabilityGridPointsProcessor::Process`, p.cc:127-133, for all batches: a batch has an origin and points, no misses. -/
def processAll (n : Nat) (hit miss : List Nat) (free : Bool) (batches : List (Insert2D.Pt × List Insert2D.Pt)) (g : Grid) : Option Grid :=
  batches.foldlM (fun g b => Insert2D.insert n ⟨b.1, b.2, []⟩ hit miss free g) g

/-- The image written by `ProbabilityGridPointsProcessor` (p.cc:81-97, 127-149) after all batches, without trajectories. -/
def gridImage (n : Nat) (resolution : ℚ) (hit miss : List Nat) (free : Bool)
    (batches : List (Insert2D.Pt × List Insert2D.Pt)) : Option (Option Image) := do
  let g ← createProbabilityGrid resolution
  let g ← processAll n hit miss free batches g
  drawProbabilityGrid g

/-! ### Trajectories -/

/-- The lambda of `DrawTrajectoriesIntoImage`, p.cc:41-46, for the position of a pose. -/
def poseToPixel (g : Grid) (offset : Int × Int) (x y : ℚ) : Int × Int :=
  ((g.limits.getCellIndex x y).1 - offset.1, (g.limits.getCellIndex x y).2 - offset.2)

/-- What `DrawTrajectory` (draw_trajectories.cc:25-66) hands over to cairo. -/
structure Strokes where
  line : List (Int × Int)
  green : Int × Int
  red : Int × Int
  deriving DecidableEq, Repr

/-- `DrawTrajectory`, draw_trajectories.cc:25-66: nothing for an empty trajectory, else the corners of the line and the
centers of the two markers. -/
def drawTrajectory (pixel : ℚ × ℚ → Int × Int) : List (ℚ × ℚ) → Option Strokes
  | [] => none
  | p :: ps => some ⟨(p :: ps).map pixel, pixel p, pixel ((p :: ps).getLast (by simp))⟩

/-! ### Colors of trajectories -/

/-- `HsvToRgb`, io/color.cc:33-57; the last case is the fallback. -/
def hsvToRgb (h s v : ℚ) : ℚ × ℚ × ℚ :=
  let h6 := if h = 1 then 0 else 6 * h
  let f := h6 - ⌊h6⌋
  let p := v * (1 - s)
  let q := v * (1 - f * s)
  let t := v * (1 - (1 - f) * s)
  if ⌊h6⌋ = 0 then (v, t, p)
  else if ⌊h6⌋ = 1 then (q, v, p)
  else if ⌊h6⌋ = 2 then (p, v, t)
  else if ⌊h6⌋ = 3 then (p, q, v)
  else if ⌊h6⌋ = 4 then (t, p, v)
  else if ⌊h6⌋ = 5 then (v, p, q)
  else (0, 0, 0)

/-- The constants of io/color.cc:29-31 and io/color.cc:65. -/
def initialHue : ℚ := 0.69
def saturation : ℚ := 0.85
def value : ℚ := 0.77
def goldenRatioConjugate : ℚ := 0.6180339887498949

/-- The hue in `GetColor`, io/color.cc:66; `fmod(x, 1)` is the fractional part of a nonnegative number. -/
def hue (id : Nat) : ℚ := Int.fract (initialHue + goldenRatioConjugate * id)

/-- `GetColor`, io/color.cc:61-68; `none` is the failed `CHECK_GE`. -/
def getColor (id : Int) : Option (ℚ × ℚ × ℚ) :=
  if 0 ≤ id then some (hsvToRgb (hue id.toNat) saturation value) else none

end Verif.Img
