import Verif.Grid2D
import Verif.RayMask

/-!
# Inserting range data into a probability grid

Model of `cartographer/mapping/2d/probability_grid_range_data_inserter_2d.cc`.  `float`/`double` are exact rationals, so the
padding of one micrometre is exact.  `n` bounds the iterations of the loops of `GrowLimits` and of the ray casting.
-/

namespace Verif.Insert2D

open Verif.Grid2D Verif.Ray

abbrev Pt := ℚ × ℚ

/-- `sensor::RangeData` (sensor/range_data.h:34-38) projected to the plane (`head<2>()`). -/
structure Scan where
  origin : Pt
  returns : List Pt
  misses : List Pt

/-- `kSubpixelScale` (probability_grid_range_data_inserter_2d.cc:33). -/
def scale : Nat := 1000

/-- `kPadding` (probability_grid_range_data_inserter_2d.cc:39). -/
def padding : ℚ := 1 / 1000000

/-- `AlignedBox2f::extend` on the `min` corner. -/
def minPt (a b : Pt) : Pt := (min a.1 b.1, min a.2 b.2)

/-- `AlignedBox2f::extend` on the `max` corner. -/
def maxPt (a b : Pt) : Pt := (max a.1 b.1, max a.2 b.2)

/-- `GrowAsNeeded` (probability_grid_range_data_inserter_2d.cc:35-50). -/
def growAsNeeded (n : Nat) (s : Scan) (g : Grid) : Option Grid := do
  let lo := s.misses.foldl minPt (s.returns.foldl minPt s.origin)
  let hi := s.misses.foldl maxPt (s.returns.foldl maxPt s.origin)
  let g ← g.growLimits n (lo.1 - padding) (lo.2 - padding)
  g.growLimits n (hi.1 + padding) (hi.2 + padding)

/-- Several calls of `ApplyLookupTable` whose result is ignored. -/
def applyAll (cells : List Px) (table : List Nat) (g : Grid) : Option Grid :=
  cells.foldlM (fun g i => do let (_, g) ← g.applyLookupTable i table; some g) g

/-- One ray of misses (probability_grid_range_data_inserter_2d.cc:80-84, 89-94). -/
def castRay (n : Nat) (start : Px) (table : List Nat) (g : Grid) (stop : Px) : Option Grid := do
  let ray ← rayToPixelMask n start stop scale
  applyAll ray table g

/-- `CastRays` (probability_grid_range_data_inserter_2d.cc:52-96).  The division of an `Array2i` truncates. -/
def castRays (n : Nat) (s : Scan) (hit miss : List Nat) (freeSpace : Bool) (g : Grid) : Option Grid := do
  let g ← growAsNeeded n s g
  let sup ← mkLimits (g.limits.resolution / scale) g.limits.maxX g.limits.maxY (g.limits.numX * scale) (g.limits.numY * scale)
  let start := sup.getCellIndex s.origin.1 s.origin.2
  let ends := s.returns.map fun p => sup.getCellIndex p.1 p.2
  let g ← applyAll (ends.map fun e => (e.1.tdiv scale, e.2.tdiv scale)) hit g
  if freeSpace then do
    let g ← ends.foldlM (castRay n start miss) g
    s.misses.foldlM (fun g p => castRay n start miss g (sup.getCellIndex p.1 p.2)) g
  else some g

/-- `ProbabilityGridRangeDataInserter2D::Insert` (probability_grid_range_data_inserter_2d.cc:124-133). -/
def insert (n : Nat) (s : Scan) (hit miss : List Nat) (freeSpace : Bool) (g : Grid) : Option Grid := do
  let g ← castRays n s hit miss freeSpace g
  g.finishUpdate

end Verif.Insert2D
