import Verif.HybridGrid

/-!
# Inserting range data into hybrid grids

Model of `cartographer/mapping/3d/range_data_inserter_3d.cc`.  `float` is `ℚ`, `int` is `Int` (the products
`delta * position` stay below 2^30 in absolute value because of the `CHECK_LT`).
-/

namespace Verif.Insert3D

open Verif.Hybrid

abbrev P3 := ℚ × ℚ × ℚ

/-- `sensor::RangeData` (sensor/range_data.h:34-38) without the misses, which this inserter ignores; the returns are a
`sensor::PointCloud` with optional intensities (sensor/point_cloud.h:35-77). -/
structure Scan3 where
  origin : P3
  returns : List P3
  intensities : List ℚ

/-- `HybridGridBase::GetCellIndex` for a point. -/
def cellOf (resolution : ℚ) (p : P3) : I3 := getCellIndex resolution p.1 p.2.1 p.2.2

/-- The voxel of a sample (range_data_inserter_3d.cc:47-48); division of an `Array3i` truncates. -/
def missCell (origin delta : I3) (position numSamples : Int) : I3 :=
  ⟨origin.x + (delta.x * position).tdiv numSamples, origin.y + (delta.y * position).tdiv numSamples,
    origin.z + (delta.z * position).tdiv numSamples⟩

/-- `delta.cwiseAbs().maxCoeff()` (range_data_inserter_3d.cc:36-37). -/
def numSamples (origin hit : I3) : Int := 
  ((max (max (hit.x - origin.x).natAbs (hit.y - origin.y).natAbs) (hit.z - origin.z).natAbs : Nat) : Int)

/-- The positions of the loop of range_data_inserter_3d.cc:45-46. -/
def positions (numSamples free : Int) : List Int :=
  (List.range (numSamples - max 0 (numSamples - free)).toNat).map fun k : Nat => max 0 (numSamples - free) + (k : Int)

/-- Calls of `ApplyLookupTable` whose result is ignored. -/
def applyAll (cells : List I3) (table : List Nat) (g : HG) : Option HG :=
  cells.foldlM (fun g i => do let (_, g) ← g.applyLookupTable i table; some g) g

/-- `InsertMissesIntoGrid` (range_data_inserter_3d.cc:27-52). -/
def insertMisses (miss : List Nat) (origin : P3) (returns : List P3) (free : Int) (g : HG) : Option HG :=
  let o := cellOf g.resolution origin
  returns.foldlM (fun g p =>
    let h := cellOf g.resolution p
    let d : I3 := ⟨h.x - o.x, h.y - o.y, h.z - o.z⟩
    if numSamples o h < 2 ^ 15 then
      applyAll ((positions (numSamples o h) free).map fun pos => missCell o d pos (numSamples o h)) miss g
    else none) g

/-- `IntensityHybridGrid` (hybrid_grid.h:552-571): sum and count per voxel. -/
structure IG where
  resolution : ℚ
  grid : Dyn (base (ℚ × Nat) (0, 0))

/-- `IntensityHybridGrid::AddIntensity` (hybrid_grid.h:557-561). -/
def IG.addIntensity (g : IG) (i : I3) (v : ℚ) : Option IG := do
  let grid ← g.grid.modify (0, 0) i (fun c => (c.1 + v, c.2 + 1))
  some { g with grid }

/-- `IntensityHybridGrid::GetIntensity` (hybrid_grid.h:563-570). -/
def IG.getIntensity (g : IG) (i : I3) : Option ℚ := do
  let c ← g.grid.value (0, 0) i
  some (if c.2 = 0 then 0 else c.1 / c.2)

/-- Body of the loop of `InsertIntensitiesIntoGrid` (range_data_inserter_3d.cc:59-64). -/
def intensityStep (s : Scan3) (threshold : ℚ) (g : IG) (i : Nat) : Option IG := do
  let v ← s.intensities[i]?
  if v > threshold then some g
  else do
    let p ← s.returns[i]?
    g.addIntensity (cellOf g.resolution p) v

/-- `InsertIntensitiesIntoGrid` (range_data_inserter_3d.cc:54-67). -/
def insertIntensities (s : Scan3) (threshold : ℚ) (g : IG) : Option IG :=
  if s.intensities.length > 0 then (List.range s.returns.length).foldlM (intensityStep s threshold) g else some g

/-- The call of `InsertIntensitiesIntoGrid` if there is an intensity grid (range_data_inserter_3d.cc:109-112). -/
def insertIntensities? (s : Scan3) (threshold : ℚ) : Option IG → Option (Option IG)
  | none => some none
  | some ig => (insertIntensities s threshold ig).map some

/-- `RangeDataInserter3D::Insert` (range_data_inserter_3d.cc:95-114); the intensity grid may be missing. -/
def insert (s : Scan3) (hit miss : List Nat) (free : Int) (threshold : ℚ) (g : HG) (ig : Option IG) : Option (HG × Option IG) := do
  let g ← applyAll (s.returns.map (cellOf g.resolution)) hit g
  let g ← insertMisses miss s.origin s.returns free g
  let ig ← insertIntensities? s threshold ig
  let g ← g.finishUpdate
  some (g, ig)

end Verif.Insert3D
