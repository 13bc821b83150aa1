import Verif.FloatFormat
import Verif.FloatProbability

/-!
# Cells of grids in floating point arithmetic

Model of the conversions between coordinates and cells with rounded arithmetic, one coordinate at a time: the voxels of
`mapping/3d/hybrid_grid.h` (also used by `sensor/internal/voxel_filter.cc`), the raster of
`sensor/compressed_point_cloud.cc` and the cells of `mapping/2d/map_limits.h`. `f32` and `f64` round the exact result of an
operation to `float` and to `double`. `int` is `Int`; the theorems keep all indices far below its limits.
-/

namespace Verif.FloatCells

open Verif.Prob (roundToInt)

/-- One coordinate of `HybridGridBase::GetCellIndex` (hybrid_grid.h:428-433) and of `GetVoxelCellIndex`
(voxel_filter.cc:80-86): division and rounding to the nearest integer. -/
def voxelIndex (f32 : ℚ → ℚ) (resolution x : ℚ) : Int := roundToInt (f32 (x / resolution))

/-- One coordinate of `HybridGridBase::GetCenterOfCell` (hybrid_grid.h:444-446); the index is converted to `float` first. -/
def voxelCenter (f32 : ℚ → ℚ) (resolution : ℚ) (i : Int) : ℚ := f32 (f32 i * resolution)

/-- `kPrecision` (compressed_point_cloud.cc:34). -/
def precision (f32 : ℚ → ℚ) : ℚ := f32 (1 / 1000)

/-- One coordinate of a point put on the raster; the `CHECK_LT` (compressed_point_cloud.cc:112-119) is applied to the
largest coordinate, here to each one. -/
def raster (f32 : ℚ → ℚ) (x : ℚ) : Option Int :=
  if f32 (|x| / precision f32) < 2 ^ 23 then some (roundToInt (f32 (x / precision f32))) else none

/-- One coordinate of a decompressed point (compressed_point_cloud.cc:84-93). -/
def unraster (f32 : ℚ → ℚ) (n : Int) : ℚ := f32 (f32 n * precision f32)

/-- One coordinate of `MapLimits::GetCellIndex` (map_limits.h:69-77): in `double`, from a point in `float`. -/
def cellIndex (f64 : ℚ → ℚ) (max resolution x : ℚ) : Int :=
  roundToInt (f64 (f64 (f64 (max - x) / resolution) - 1 / 2))

/-- One coordinate of `MapLimits::GetCellCenter` (map_limits.h:80-83): in `double`, then converted to `float`; the product and
the difference may be contracted. -/
def cellCenter (f32 f64 : ℚ → ℚ) (fused : Bool) (max resolution : ℚ) (i : Int) : ℚ :=
  if fused then f32 (f64 (max - resolution * f64 (f64 i + 1 / 2)))
  else f32 (f64 (max - f64 (resolution * f64 (f64 i + 1 / 2))))

end Verif.FloatCells
