import Verif.VoxelFilter
import Verif.ScanMatchCost

/-!
# Intensities in three-dimensional local SLAM

Model of what /repo/cartographer/mapping/internal/3d/local_trajectory_builder_3d.cc ("l3") does with points and their intensities, from
the measurements of a scan to the grids of the active submaps: gathering, voxel filters, transformations (`sensor/point_cloud.{h,cc}`,
"pc"), the problem of the scan matcher and the insertion into submaps (`mapping/3d/submap_3d.cc`, "s3").

Simplifications: `float`s are rational numbers and lengths are compared by their squares.  A pose is the function it applies to points.
What does not come from points and intensities is given with each scan: the poses of the extrapolator, the pose found by the solver and
the decision of the motion filter.  Every scan is matched when it arrives (`num_accumulated_range_data` is 1).  The online correlative
scan matcher, the histograms for rotations, times and metrics are left out.
-/

namespace Verif.Intensities

open Verif.Voxel Verif.Compressed Verif.Hybrid Verif.MatchCost Verif.Rigid

/-! ### Point clouds -/

/-- `PointCloud::push_back` (pc.cc:52-54): the intensities stay as they are. -/
def pushBack (c : PC) (p : P3) : PC := { c with points := c.points ++ [p] }

/-- `TransformPointCloud` (pc.cc:56-64). -/
def transformCloud (f : P3 → P3) (c : PC) : Option PC := PC.mk? (c.points.map f) c.intensities

/-- `CropPointCloud` (pc.cc:76-81). -/
def cropCloud (minZ maxZ : ℚ) (c : PC) : Option PC := c.copyIf fun p => decide (minZ ≤ p.z ∧ p.z ≤ maxZ)

/-- The square of the distance of two points. -/
def dist2 (a b : P3) : ℚ := (b.x - a.x) * (b.x - a.x) + (b.y - a.y) * (b.y - a.y) + (b.z - a.z) * (b.z - a.z)

/-- `FilterRangeDataByMaxRange` (s3:39-49) for the returns. -/
def filterByRange (maxRange : ℚ) (origin : P3) (c : PC) : Option PC :=
  c.copyIf fun p => decide (0 ≤ maxRange ∧ dist2 origin p ≤ maxRange * maxRange)

/-! ### Options -/

/-- `AdaptiveVoxelFilterOptions`. -/
structure Adaptive where
  maxLength : ℚ
  minPoints : Nat
  maxRange : ℚ

/-- The options used here: of the local trajectory builder, of its submaps and of the range data inserter. -/
structure Options where
  useIntensities : Bool
  minRange : ℚ
  maxRange : ℚ
  voxelSize : ℚ
  high : Adaptive
  low : Adaptive
  matcher : Options3
  numRangeData : Nat
  highResolution : ℚ
  lowResolution : ℚ
  highMaxRange : ℚ
  hit : List Nat
  miss : List Nat
  freeVoxels : Int
  threshold : ℚ

/-! ### From measurements to returns -/

/-- A measurement of a scan with its intensity and the origin of its ray (timed_point_cloud_data.h:38-47), and the pose for its time
(l3:201-207). -/
structure Hit where
  position : P3
  intensity : ℚ
  origin : P3
  pose : P3 → P3

/-- `accumulated_points` and `accumulated_intensities` (l3:210-211). -/
structure Gathered where
  points : List P3
  intensities : List ℚ

/-- The body of the loop over the measurements (l3:222-245); the misses, which are used nowhere (l3:236-239), are left out. -/
def gatherHit (o : Options) (acc : Gathered) (h : Hit) : Gathered :=
  let a := h.pose h.origin
  let b := h.pose h.position
  if (o.minRange ≤ 0 ∨ o.minRange * o.minRange ≤ dist2 a b) ∧ 0 ≤ o.maxRange ∧ dist2 a b ≤ o.maxRange * o.maxRange then
    ⟨acc.points ++ [b], if o.useIntensities then acc.intensities ++ [h.intensity] else acc.intensities⟩
  else acc

/-- What arrives with a scan, see the head of this file: `rnd k` are the random numbers of the `k`-th voxel filter, `toTracking` is the
inverse of the extrapolated pose, `origin` its translation, `estimate` the pose found by the scan matcher, `frame` the inverse of the pose
a submap created for this scan gets (s3:316-318), `similar` the answer of the motion filter; `target` and `initial` belong to the
problem of the scan matcher. -/
structure Scan where
  hits : List Hit
  rnd : Nat → Nat → Nat → Nat
  origin : P3
  toTracking : P3 → P3
  estimate : P3 → P3
  frame : P3 → P3
  similar : Bool
  target : V3
  initial : Rigid3

/-- Returns of a scan in tracking frame (l3:169-170, 178-281): the first voxel filter is for measurements, the second for points. -/
def returnsInTracking (o : Options) (e : Scan) : Option PC := do
  let hits ← voxelFilter (e.rnd 0) (o.voxelSize / 2) Hit.position e.hits
  let g := hits.foldl (gatherHit o) ⟨[], []⟩
  let returns ← PC.mk? g.points g.intensities
  let filtered ← voxelFilterCloud (e.rnd 1) o.voxelSize returns
  transformCloud e.toTracking filtered

/-- `AdaptiveVoxelFilter` (l3:297-314); 13 iterations are enough (`Voxel.adaptive_voxel_filter`). -/
def adaptive (a : Adaptive) (rnd : Nat → Nat → Nat) (c : PC) : Option PC :=
  adaptiveVoxelFilter 13 rnd a.maxLength a.minPoints a.maxRange c

/-! ### Submaps -/

/-- `Submap3D` (submap_3d.h:44-92): `frame` is the inverse of `local_pose()`. -/
structure Submap where
  frame : P3 → P3
  numRangeData : Nat
  finished : Bool
  high : HG
  low : HG
  intensity : Option Insert3D.IG

/-- `ActiveSubmaps3D`: `submaps_` and, as a history variable, the submaps that were erased from it. -/
structure State where
  erased : List Submap
  submaps : List Submap

/-- No submaps at first (s3:301-303). -/
def init : State := ⟨[], []⟩

/-- The coordinates of a point. -/
def coords (p : P3) : Insert3D.P3 := (p.x, p.y, p.z)

/-- Range data for the inserter. -/
def toScan3 (origin : P3) (c : PC) : Insert3D.Scan3 := ⟨coords origin, c.points.map coords, c.intensities⟩

/-- `Submap3D::Submap3D` (s3:197-208). -/
def newSubmap (o : Options) (frame : P3 → P3) : Submap :=
  ⟨frame, 0, false, HG.create o.highResolution, HG.create o.lowResolution, some ⟨o.highResolution, Dyn.empty _⟩⟩

/-- `Submap3D::InsertData` (s3:271-294). -/
def insertInto (o : Options) (origin : P3) (returns : PC) (s : Submap) : Option Submap :=
  if s.finished then none
  else do
    let c ← transformCloud s.frame returns
    let near ← filterByRange o.highMaxRange (s.frame origin) c
    let (high, ig) ← Insert3D.insert (toScan3 (s.frame origin) near) o.hit o.miss o.freeVoxels o.threshold s.high s.intensity
    let (low, _) ← Insert3D.insert (toScan3 (s.frame origin) c) o.hit o.miss o.freeVoxels o.threshold s.low none
    some { s with high := high, low := low, intensity := ig, numRangeData := s.numRangeData + 1 }

/-- `ForgetIntensityHybridGrid` (submap_3d.h:67-69). -/
def forget (s : Submap) : Submap := { s with intensity := none }

/-- `AddSubmap` (s3:332-351). -/
def addSubmap (o : Options) (frame : P3 → P3) (st : State) : Option State :=
  match st.submaps with
  | front :: second :: rest =>
    if front.finished then some ⟨st.erased ++ [forget front], (second :: rest) ++ [newSubmap o frame]⟩ else none
  | l => some ⟨st.erased, l ++ [newSubmap o frame]⟩

/-- Whether a submap is added (s3:314-315). -/
def needsNew (n : Nat) (l : List Submap) : Bool :=
  match l.getLast? with
  | none => true
  | some back => back.numRangeData == n

/-- Finishing the first submap (s3:296-299, 326-328). -/
def finishFront (n : Nat) : List Submap → Option (List Submap)
  | [] => none
  | front :: rest =>
    if front.numRangeData = 2 * n then if front.finished then none else some ({ front with finished := true } :: rest)
    else some (front :: rest)

/-- `ActiveSubmaps3D::InsertData` (s3:310-330). -/
def insertData (o : Options) (frame : P3 → P3) (origin : P3) (returns : PC) (st : State) : Option State := do
  let st ← if needsNew o.numRangeData st.submaps then addSubmap o frame st else some st
  let l ← st.submaps.mapM (insertInto o origin returns)
  let l ← finishFront o.numRangeData l
  some { st with submaps := l }

/-! ### Scan matching -/

/-- Conversions for the scan matcher. -/
noncomputable def toV3 (p : P3) : V3 := ⟨p.x, p.y, p.z⟩

/-- The intensity grid handed to the scan matcher (l3:84-87, submap_3d.h:63-66): asking a submap that has forgotten it fails a `CHECK`. -/
def intensityGrid (o : Options) (s : Submap) : Option (Option Insert3D.IG) :=
  if o.useIntensities then s.intensity.map some else some none

/-- The problem of `ScanMatch` (l3:62-109) for a submap. -/
noncomputable def matchProblem (o : Options) (e : Scan) (s : Submap) (high low : PC) : Option (List (Block Rigid3)) := do
  let ig ← intensityGrid o s
  problem3 o.matcher e.target e.initial [⟨high.points.map toV3, high.intensities.map fun (v : ℚ) => (v : ℝ), s.high, ig⟩,
    ⟨low.points.map toV3, low.intensities.map fun (v : ℚ) => (v : ℝ), s.low, none⟩]

/-- The call of the scan matcher, if there is a submap (l3:66-70). -/
noncomputable def scanMatch (o : Options) (e : Scan) (st : State) (high low : PC) : Option Unit :=
  match st.submaps with
  | [] => some ()
  | s :: _ => (matchProblem o e s high low).map fun _ => ()

/-- `AddAccumulatedRangeData` and `InsertIntoSubmap` (l3:283-375, 387-433): the new state, and the returns in local frame if they were
inserted. -/
noncomputable def step (o : Options) (st : State) (e : Scan) : Option (State × Option PC) := do
  let c ← returnsInTracking o e
  if c.points.isEmpty then some (st, none)
  else do
    let high ← adaptive o.high (e.rnd 2) c
    if high.points.isEmpty then some (st, none)
    else do
      let low ← adaptive o.low (e.rnd 3) c
      if low.points.isEmpty then some (st, none)
      else do
        scanMatch o e st high low
        let returns ← transformCloud e.estimate c
        if e.similar then some (st, none)
        else do
          let st ← insertData o e.frame (e.estimate (e.toTracking e.origin)) returns st
          some (st, some returns)

/-- A sequence of scans, with the scans that were inserted and what was inserted for them. -/
noncomputable def run (o : Options) : State → List Scan → Option (State × List (Scan × PC))
  | st, [] => some (st, [])
  | st, e :: es => do
    let (st, r) ← step o st e
    let (st, rs) ← run o st es
    some (st, (r.map fun c => (e, c)).toList ++ rs)

end Verif.Intensities
