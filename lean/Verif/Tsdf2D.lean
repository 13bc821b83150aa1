import Verif.RangeDataInserter2D

/-!
# Truncated signed distance maps

Model of `cartographer/mapping/internal/2d/tsdf_2d.cc`, `tsd_value_converter.{h,cc}` and
`tsdf_range_data_inserter_2d.cc`.  `float`/`double` are exact rationals.  Functions which are not rational (norms, the
Gaussian kernels, the estimated normals) are arguments (`Env`).  A `CHECK` that fails, a write outside of a vector and a
loop that is not finished after `n` iterations are `none`.
-/

namespace Verif.Tsdf

open Verif.Prob Verif.Grid2D Verif.Ray
open Verif.Insert2D (Pt minPt maxPt padding scale)

/-- `Eigen::Vector3f`. -/
structure P3 where
  x : ℚ
  y : ℚ
  z : ℚ
  deriving DecidableEq, Repr

/-- `head<2>()`. -/
def P3.head (p : P3) : Pt := (p.x, p.y)

/-- `TSDF2D` (tsdf_2d.h:31-59): a `Grid2D` of distances with a vector of weights and the bounds of its value
converter. -/
structure Map where
  grid : Grid
  weights : List Nat
  maxTsd : ℚ
  maxWeight : ℚ
  deriving DecidableEq, Repr

/-- `TSDValueConverter::TSDToValue` (tsd_value_converter.h:39-45); the same formula as `BoundedFloatToValue`. -/
def tsdToValue (T : ℚ) (tsd : ℚ) : Nat := boundedFloatToValue tsd (-T) T

/-- `TSDValueConverter::WeightToValue` (tsd_value_converter.h:48-55). -/
def weightToValue (W : ℚ) (w : ℚ) : Nat := boundedFloatToValue w 0 W

/-- `TSDValueConverter::ValueToTSD` (tsd_value_converter.h:59-61, tsd_value_converter.cc:29-30): unknown is `min_tsd`. -/
def valueToTsd (T : ℚ) (v : Nat) : ℚ := conversionTable v (-T) (-T) T

/-- `TSDValueConverter::ValueToWeight` (tsd_value_converter.h:65-67, tsd_value_converter.cc:31-32). -/
def valueToWeight (W : ℚ) (v : Nat) : ℚ := conversionTable v 0 0 W

/-- `TSDF2D::TSDF2D` (tsdf_2d.cc:24-33). -/
def create (l : MapLimits) (T W : ℚ) : Option Map := do
  let g ← Grid2D.create l (-T) T
  some ⟨g, List.replicate (l.numX * l.numY) 0, T, W⟩

/-- `TSDF2D::CellIsUpdated` (tsdf_2d.cc:49-53). -/
def Map.cellIsUpdated (t : Map) (i : Px) : Option Bool := do
  let k ← t.grid.toFlatIndex i
  let c ← t.grid.cells[k]?
  some (decide (updateMarker ≤ c))

/-- `TSDF2D::SetCell` (tsdf_2d.cc:55-68). -/
def Map.setCell (t : Map) (i : Px) (tsd weight : ℚ) : Option Map := do
  let k ← t.grid.toFlatIndex i
  let c ← t.grid.cells[k]?
  if updateMarker ≤ c then some t
  else do
    let ws ← setAt? t.weights k (weightToValue t.maxWeight weight)
    some { t with
      grid := { t.grid with
        cells := t.grid.cells.set k (tsdToValue t.maxTsd tsd + updateMarker), updates := k :: t.grid.updates,
        box := extendBox t.grid.box i }
      weights := ws }

/-- `TSDF2D::GetTSDAndWeight` (tsdf_2d.cc:88-98). -/
def Map.getTsdAndWeight (t : Map) (i : Px) : Option (ℚ × ℚ) :=
  if t.grid.limits.contains i then do
    let k ← t.grid.toFlatIndex i
    let c ← t.grid.cells[k]?
    let w ← t.weights[k]?
    some (valueToTsd t.maxTsd c, valueToWeight t.maxWeight w)
  else some (-t.maxTsd, 0)

/-- One iteration of the loop of `Grid2D::GrowLimits` (grid_2d.cc:135-162) for the two vectors of a `TSDF2D`
(tsdf_2d.cc:100-105). -/
def Map.growStep (t : Map) : Option Map := do
  let l ← growMapLimits t.grid.limits
  let cells ← growCells t.grid.limits.numX t.grid.limits.numY 0 t.grid.cells
  let weights ← growCells t.grid.limits.numX t.grid.limits.numY 0 t.weights
  some { t with
    grid := { t.grid with
      limits := l, cells,
      box := translateBox t.grid.box (t.grid.limits.numX / 2 : Nat) (t.grid.limits.numY / 2 : Nat) }
    weights }

/-- The loop of `Grid2D::GrowLimits` (grid_2d.cc:134-163) for a `TSDF2D`, limited to `n` iterations. -/
def Map.growLoop : Nat → Map → ℚ → ℚ → Option Map
  | 0, t, px, py => if t.grid.limits.contains (t.grid.limits.getCellIndex px py) then some t else none
  | n + 1, t, px, py =>
    if t.grid.limits.contains (t.grid.limits.getCellIndex px py) then some t
    else do
      let t' ← t.growStep
      Map.growLoop n t' px py

/-- `TSDF2D::GrowLimits` (tsdf_2d.cc:100-105). -/
def Map.growLimits (n : Nat) (t : Map) (px py : ℚ) : Option Map :=
  if t.grid.updates ≠ [] then none else Map.growLoop n t px py

/-- `Grid2D::FinishUpdate` (grid_2d.cc:99-106). -/
def Map.finishUpdate (t : Map) : Option Map := do
  let grid ← t.grid.finishUpdate
  some { t with grid }

/-- The options of the inserter (tsdf_range_data_inserter_options_2d.proto). -/
structure Opts where
  truncation : ℚ
  maximumWeight : ℚ
  updateFreeSpace : Bool
  /-- `project_sdf_distance_to_scan_normal` -/
  project : Bool
  /-- `update_weight_range_exponent` -/
  rangeExponent : Int
  /-- `update_weight_angle_scan_normal_to_ray_kernel_bandwidth != 0` -/
  useAngle : Bool
  /-- `update_weight_distance_cell_to_hit_kernel_bandwidth != 0` -/
  useDistance : Bool

/-- The computations which are not rational, and the order chosen by `std::sort`. -/
structure Env where
  norm2 : ℚ → ℚ → ℚ
  norm3 : ℚ → ℚ → ℚ → ℚ
  /-- `{cos(normal), sin(normal)}` of the hit with this index -/
  normal : Nat → Pt
  /-- `weight_factor_angle_ray_normal` of the hit with this index -/
  angleFactor : Nat → ℚ
  /-- `GaussianKernel` with the bandwidth for the distance from the cell to the hit -/
  kernel : ℚ → ℚ
  /-- `std::sort` with `RangeDataSorter` -/
  sort : List P3 → List P3

/-- `sensor::RangeData` without misses, which are ignored. -/
structure Scan where
  origin : P3
  returns : List P3

/-- `x.normalized()` for one component: Eigen leaves a vector of length zero as it is. -/
def unit (n c : ℚ) : ℚ := if 0 < n then c / n else c

/-- `end_position.head<2>()` in `GrowAsNeeded` (tsdf_range_data_inserter_2d.cc:37-40). -/
def endPosition (env : Env) (T : ℚ) (o h : P3) : Pt :=
  let n := env.norm3 (h.x - o.x) (h.y - o.y) (h.z - o.z)
  (h.x + T * unit n (h.x - o.x), h.y + T * unit n (h.y - o.y))

/-- `GrowAsNeeded` (tsdf_range_data_inserter_2d.cc:33-47). -/
def growAsNeeded (env : Env) (T : ℚ) (n : Nat) (s : Scan) (t : Map) : Option Map := do
  let ends := s.returns.map (endPosition env T s.origin)
  let lo := ends.foldl minPt s.origin.head
  let hi := ends.foldl maxPt s.origin.head
  let t ← t.growLimits n (lo.1 - padding) (lo.2 - padding)
  t.growLimits n (hi.1 + padding) (hi.2 + padding)

/-- `ComputeRangeWeightFactor` (tsdf_range_data_inserter_2d.cc:90-96). -/
def rangeWeightFactor (range : ℚ) (exponent : Int) : ℚ := if 1 / 1000000 < |range| then 1 / range ^ exponent else 0

/-- `update_tsd` of a cell with centre `c` (tsdf_range_data_inserter_2d.cc:207-216). -/
def updateTsd (env : Env) (o : Opts) (origin : Pt) (k : Nat) (hit : Pt) (range : ℚ) (c : Pt) : ℚ :=
  let d := if o.project then (c.1 - hit.1) * (env.normal k).1 + (c.2 - hit.2) * (env.normal k).2
    else range - env.norm2 (c.1 - origin.1) (c.2 - origin.2)
  clamp d (-o.truncation) o.truncation

/-- `update_weight` (tsdf_range_data_inserter_2d.cc:187-201, 217-222). -/
def updateWeight (env : Env) (o : Opts) (k : Nat) (range tsd : ℚ) : ℚ :=
  let angle := if o.useAngle then env.angleFactor k else 1
  let rng := if o.rangeExponent ≠ 0 then rangeWeightFactor range o.rangeExponent else 1
  let w := rng * angle
  if o.useDistance then w * env.kernel tsd else w

/-- `UpdateCell` (tsdf_range_data_inserter_2d.cc:227-239). -/
def updateCell (o : Opts) (t : Map) (i : Px) (tsd weight : ℚ) : Option Map :=
  if weight = 0 then some t
  else do
    let (d, w) ← t.getTsdAndWeight i
    let sum := w + weight
    t.setCell i ((d * w + tsd * weight) / sum) (min sum o.maximumWeight)

/-- `ray_end` in `InsertHit` (tsdf_range_data_inserter_2d.cc:171-180). -/
def rayEnd (o : Opts) (origin hit : Pt) (range : ℚ) : Pt :=
  (origin.1 + (1 + o.truncation / range) * (hit.1 - origin.1), origin.2 + (1 + o.truncation / range) * (hit.2 - origin.2))

/-- `ray_begin` in `InsertHit` (tsdf_range_data_inserter_2d.cc:177-179). -/
def rayBegin (o : Opts) (origin hit : Pt) (range : ℚ) : Pt :=
  if o.updateFreeSpace then origin
  else (origin.1 + (1 - o.truncation / range) * (hit.1 - origin.1), origin.2 + (1 - o.truncation / range) * (hit.2 - origin.2))

/-- The body of the loop over the cells of a ray (tsdf_range_data_inserter_2d.cc:204-224). -/
def visitCell (env : Env) (o : Opts) (origin : Pt) (k : Nat) (hit : Pt) (range : ℚ) (t : Map) (i : Px) : Option Map := do
  if ← t.cellIsUpdated i then some t
  else
    let tsd := updateTsd env o origin k hit range (t.grid.limits.getCellCenter i)
    updateCell o t i tsd (updateWeight env o k range tsd)

/-- `InsertHit` (tsdf_range_data_inserter_2d.cc:167-225) with `SuperscaleRay` (53-67). -/
def insertHit (env : Env) (o : Opts) (n : Nat) (origin : Pt) (t : Map) (kh : P3 × Nat) : Option Map := do
  let hit := kh.1.head
  let range := env.norm2 (hit.1 - origin.1) (hit.2 - origin.2)
  if range < o.truncation then some t
  else
    let l := t.grid.limits
    let sup ← mkLimits (l.resolution / scale) l.maxX l.maxY (l.numX * scale) (l.numY * scale)
    let b := rayBegin o origin hit range
    let e := rayEnd o origin hit range
    let mask ← rayToPixelMask n (sup.getCellIndex b.1 b.2) (sup.getCellIndex e.1 e.2) scale
    mask.foldlM (visitCell env o origin kh.2 hit range) t

/-- The returns in the order in which they are inserted (tsdf_range_data_inserter_2d.cc:139-152). -/
def ordered (env : Env) (o : Opts) (s : Scan) : List P3 := if o.project ∨ o.useAngle then env.sort s.returns else s.returns

/-- `TSDFRangeDataInserter2D::Insert` (tsdf_range_data_inserter_2d.cc:131-165). -/
def insert (env : Env) (o : Opts) (n : Nat) (s : Scan) (t : Map) : Option Map := do
  let t ← growAsNeeded env o.truncation n s t
  let t ← (ordered env o s).zipIdx.foldlM (insertHit env o n s.origin.head) t
  t.finishUpdate

end Verif.Tsdf
