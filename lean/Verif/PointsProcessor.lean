import Verif.Sampling
import Verif.HybridGrid
import Verif.CompressedPointCloud

/-!
# The pipeline of points processors

Model of `cartographer/io/*points_processor*` and of `io/points_batch.cc`, `io/file_writer.cc`.  All file names are relative to
`cartographer/io`.  `PointsProcessor` objects point to the next one; `CreatePipeline`
(points_processor_pipeline_builder.cc:116-138) creates them from the back, so a pipeline is the list of its stages from front to
back, followed by the `NullPointsProcessor`.  `float` and `double` are rational numbers, `int`, `int64` and `size_t` are not
bounded, `none` is a failing `CHECK`, a `LOG(FATAL)`, undefined behaviour or a loop that does not end.

The stages that fill a grid or an image (`HybridGridPointsProcessor`, `XRayPointsProcessor`, `ProbabilityGridPointsProcessor`) are
modelled by one stage that records the batches it was given (their flush protocol is the same); what they make of these batches
is not part of this model.
-/

namespace Verif.Points

open Verif.Compressed Verif.Hybrid

/-- `FloatColor` (color.h). -/
structure C3 where
  r : ℚ
  g : ℚ
  b : ℚ
deriving DecidableEq

/-- `PointsBatch` (points_batch.h:31-63). -/
structure Batch where
  startTime : Int
  origin : P3
  frame : String
  trajectory : Int
  points : List P3
  intensities : List ℚ
  colors : List C3
deriving DecidableEq

/-- `batch->colors[i]` if there are colours: reading outside of the vector is undefined behaviour. -/
def column {α : Type} (l : List α) (i : Nat) : Option (List α) := if l = [] then some [] else l[i]?.map (fun x => [x])

/-- `RemovePoints` (points_batch.cc:22-50). -/
def removePoints (toRemove : List Nat) (b : Batch) : Option Batch :=
  (List.range b.points.length).foldlM (fun (out : Batch) i =>
    if i ∈ toRemove then some out
    else do
      let p ← b.points[i]?
      let c ← column b.colors i
      let v ← column b.intensities i
      some { out with points := out.points ++ [p], colors := out.colors ++ c, intensities := out.intensities ++ v })
    { b with points := [], colors := [], intensities := [] }

/-- `StreamFileWriter` (file_writer.cc:22-52): the bytes of the file and the position of the next write.  `opened` is whether the
file could be opened: if not, the `failbit` of the stream is set but not its `badbit`, so that all operations do nothing and report
success. -/
structure File where
  opened : Bool
  bytes : List Char
  pos : Nat
  closed : Bool
deriving DecidableEq

/-- `StreamFileWriter::Write` (file_writer.cc:27-33); writing to a file that was closed sets the `badbit`. -/
def File.write (f : File) (data : List Char) : Option File :=
  if f.closed then none
  else if f.opened then
    some { f with bytes := f.bytes.take f.pos ++ data ++ f.bytes.drop (f.pos + data.length), pos := f.pos + data.length }
  else some f

/-- `StreamFileWriter::WriteHeader` (file_writer.cc:43-50). -/
def File.writeHeader (f : File) (data : List Char) : Option File := { f with pos := 0 }.write data

/-- `StreamFileWriter::Close` (file_writer.cc:35-41); closing twice sets the `failbit` only. -/
def File.close (f : File) : File := { f with closed := true }

/-- Floating point and formatting functions of the code: `norm` of a vector, the bytes of a vector and of a `float` (`memcpy`),
`ToUint8Color` and the text written by `WriteXyzPoint` (xyz_writing_points_processor.cc:12-20). -/
structure Env where
  norm : P3 → ℚ
  coord : P3 → List Char
  bytes : ℚ → List Char
  color : C3 → Char × Char × Char
  line : P3 → List Char

/-- `std::setw(15) << std::setfill('0') << num_points`. -/
def padded (n : Nat) : List Char := List.replicate (15 - (Nat.toDigits 10 n).length) '0' ++ Nat.toDigits 10 n

/-- `WriteBinaryPlyHeader` (ply_writing_points_processor.cc:35-60). -/
def plyHeader (hasColor hasIntensities : Bool) (comments : List String) (n : Nat) : List Char :=
  "ply\nformat binary_little_endian 1.0\ncomment generated by Cartographer\n".toList ++
    comments.flatMap (fun c => "comment ".toList ++ c.toList ++ ['\n']) ++
    "element vertex ".toList ++ padded n ++ "\nproperty float x\nproperty float y\nproperty float z\n".toList ++
    (if hasColor then "property uchar red\nproperty uchar green\nproperty uchar blue\n".toList else []) ++
    (if hasIntensities then "property float intensity\n".toList else []) ++ "end_header\n".toList

/-- `WriteBinaryPcdHeader` (pcd_writing_points_processor.cc:35-57). -/
def pcdHeader (hasColor : Bool) (n : Nat) : List Char :=
  "# generated by Cartographer\nVERSION .7\nFIELDS x y z".toList ++ (if hasColor then " rgb".toList else []) ++
    "\nSIZE 4 4 4".toList ++ (if hasColor then " 4".toList else []) ++
    "\nTYPE F F F".toList ++ (if hasColor then " U".toList else []) ++
    "\nCOUNT 1 1 1".toList ++ (if hasColor then " 1".toList else []) ++
    "\nWIDTH ".toList ++ padded n ++ "\nHEIGHT 1\nVIEWPOINT 0 0 0 1 0 0 0\nPOINTS ".toList ++ padded n ++ "\nDATA binary\n".toList

/-- `OutlierRemovingPointsProcessor::VoxelData` (outlier_removing_points_processor.h:56-59). -/
structure Vox where
  hits : Nat
  rays : Nat
deriving DecidableEq

/-- A new `VoxelData`. -/
def Vox.zero : Vox := ⟨0, 0⟩

/-- `mapping::HybridGridBase<VoxelData>`. -/
abbrev VoxGrid := Dyn (base Vox Vox.zero)

/-- `OutlierRemovingPointsProcessor::State`. -/
inductive Phase where
  | one
  | two
  | three
deriving DecidableEq

/-- The processors with their members.  `ply` has an `Option` for `has_intensities_`, which the constructor does not initialize
(ply_writing_points_processor.cc:97-104). -/
inductive Stage where
  | counting (num : Nat)
  | sampling (ratio : ℚ) (sampler : Sampler.State)
  | minMax (loSquared hiSquared : ℚ)
  | vertical (lo hi : ℚ)
  | frameId (keep drop : List String)
  | coloring (color : C3) (frame : String)
  | intensity (lo hi : ℚ) (frame : String)
  | outlier (voxelSize limit : ℚ) (phase : Phase) (voxels : VoxGrid)
  | xyz (file : File)
  | ply (comments : List String) (num : Nat) (hasColors : Bool) (hasIntensities : Option Bool) (file : File)
  | pcd (num : Nat) (hasColors : Bool) (file : File)
  | grid (seen : List Batch) (flushed : Bool)

/-- What a stage is created from: the dictionary and whether the file can be opened. -/
inductive Config where
  | counting
  | sampling (ratio : ℚ)
  | minMax (lo hi : ℚ)
  | vertical (lo hi : ℚ)
  | frameId (keep drop : List String)
  | coloring (color : C3) (frame : String)
  | intensity (lo hi : ℚ) (frame : String)
  | outlier (voxelSize limit : ℚ)
  | xyz (opened : Bool)
  | ply (opened : Bool) (comments : List String)
  | pcd (opened : Bool)
  | grid

/-- A new file. -/
def File.new (opened : Bool) : File := ⟨opened, [], 0, false⟩

/-- The constructors and the `FromDictionary` functions (fixed_ratio_sampling_points_processor.cc:26-41,
min_max_range_filtering_points_processor.cc:35-39, frame_id_filtering_points_processor.cc:45-55,
outlier_removing_points_processor.cc:42-51, ply_writing_points_processor.cc:97-104, pcd_writing_points_processor.cc:89-94). -/
def create : Config → Option Stage
  | .counting => some (.counting 0)
  | .sampling ratio => if 0 < ratio ∧ ratio < 1 then (Sampler.mk ratio).map (.sampling ratio) else none
  | .minMax lo hi => some (.minMax (lo * lo) (hi * hi))
  | .vertical lo hi => some (.vertical lo hi)
  | .frameId keep drop => if keep.isEmpty = drop.isEmpty then none else some (.frameId keep drop)
  | .coloring color frame => some (.coloring color frame)
  | .intensity lo hi frame => some (.intensity lo hi frame)
  | .outlier voxelSize limit => some (.outlier voxelSize limit .one (Dyn.empty _))
  | .xyz opened => some (.xyz (.new opened))
  | .ply opened comments => some (.ply comments 0 false none (.new opened))
  | .pcd opened => some (.pcd 0 false (.new opened))
  | .grid => some (.grid [] false)

/-- `CreatePipeline` (points_processor_pipeline_builder.cc:116-138). -/
def createAll (cs : List Config) : Option (List Stage) := cs.mapM create

/-- Vectors. -/
def P3.sub (p q : P3) : P3 := ⟨p.x - q.x, p.y - q.y, p.z - q.z⟩
def P3.along (o : P3) (s : ℚ) (d : P3) : P3 := ⟨o.x + s * d.x, o.y + s * d.y, o.z + s * d.z⟩
def P3.squaredNorm (p : P3) : ℚ := p.x * p.x + p.y * p.y + p.z * p.z

/-- `HybridGridBase::GetCellIndex`. -/
def cell (voxelSize : ℚ) (p : P3) : I3 := getCellIndex voxelSize p.x p.y p.z

/-- The indices of the points that do not satisfy a condition: the loops that fill `to_remove`. -/
def removeUnless (ok : P3 → Bool) (b : Batch) : List Nat :=
  (List.range b.points.length).filter (fun i => !(b.points[i]?.any ok))

/-- The loop of `FixedRatioSamplingPointsProcessor::Process` (fixed_ratio_sampling_points_processor.cc:46-50). -/
def sampleLoop (n : Nat) (s : Sampler.State) : Sampler.State × List Nat :=
  (List.range n).foldl (fun x i =>
    let (s', sampled) := Sampler.pulse x.1
    (s', if sampled then x.2 else x.2 ++ [i])) (s, [])

/-- `ProcessInPhaseOne` (outlier_removing_points_processor.cc:91-97). -/
def phaseOne (voxelSize : ℚ) (g : VoxGrid) (b : Batch) : Option VoxGrid :=
  b.points.foldlM (fun g p => g.modify Vox.zero (cell voxelSize p) (fun v => { v with hits := v.hits + 1 })) g

/-- The loop along a ray (outlier_removing_points_processor.cc:107-113); `fuel` bounds the number of iterations. -/
def rayLoop (voxelSize : ℚ) (origin delta : P3) (length : ℚ) : Nat → ℚ → VoxGrid → Option VoxGrid
  | 0, _, _ => none
  | fuel + 1, x, g =>
    if x < length then do
      let index := cell voxelSize (P3.along origin (x / length) delta)
      let v ← g.value Vox.zero index
      let g ← if 0 < v.hits then g.modify Vox.zero index (fun v => { v with rays := v.rays + 1 }) else some g
      rayLoop voxelSize origin delta length fuel (x + voxelSize) g
    else some g

/-- `ProcessInPhaseTwo` (outlier_removing_points_processor.cc:99-115).  There are `length / voxel_size` iterations rounded up; if
`voxel_size` is not positive the loop does not end. -/
def phaseTwo (E : Env) (voxelSize : ℚ) (g : VoxGrid) (b : Batch) : Option VoxGrid :=
  b.points.foldlM (fun g p =>
    let delta := P3.sub p b.origin
    let length := E.norm delta
    rayLoop voxelSize b.origin delta length (⌈length / voxelSize⌉.toNat + 1) 0 g) g

/-- The loop of `ProcessInPhaseThree` (outlier_removing_points_processor.cc:119-126). -/
def outliers (voxelSize limit : ℚ) (g : VoxGrid) (b : Batch) : Option (List Nat) :=
  (List.range b.points.length).foldlM (fun (out : List Nat) i => do
    let p ← b.points[i]?
    let v ← g.value Vox.zero (cell voxelSize p)
    some (if (v.rays : ℚ) < limit * v.hits then out else out ++ [i])) []

/-- One point in `PlyWritingPointsProcessor::Process` (ply_writing_points_processor.cc:147-156). -/
def writePlyPoint (E : Env) (hasColors hasIntensities : Bool) (b : Batch) (i : Nat) (f : File) : Option File := do
  let p ← b.points[i]?
  let f ← f.write (E.coord p)
  let f ← if hasColors then do
      let c ← b.colors[i]?
      f.write [(E.color c).1, (E.color c).2.1, (E.color c).2.2]
    else some f
  if hasIntensities then do
    let v ← b.intensities[i]?
    f.write (E.bytes v)
  else some f

/-- One point in `PcdWritingPointsProcessor::Process` (pcd_writing_points_processor.cc:121-129). -/
def writePcdPoint (E : Env) (b : Batch) (i : Nat) (f : File) : Option File := do
  let p ← b.points[i]?
  let f ← f.write (E.coord p)
  if b.colors = [] then some f
  else do
    let c ← b.colors[i]?
    f.write [(E.color c).2.2, (E.color c).2.1, (E.color c).1, Char.ofNat 0]

/-- The grey value (intensity_to_color_points_processor.cc:53-55).  Dividing by zero yields 0 here. -/
def gray (lo hi v : ℚ) : C3 :=
  let g := Prob.clamp ((v - lo) / (hi - lo)) 0 1
  ⟨g, g, g⟩

/-- `Process` of one stage.  Calling `next_->Process` is the last thing every stage does, so the result contains the batch given
to the next stage, if any. -/
def Stage.process (E : Env) : Stage → Batch → Option (Stage × Option Batch)
  /- counting_points_processor.cc:35-38 -/
  | .counting num, b => some (.counting (num + b.points.length), some b)
  /- fixed_ratio_sampling_points_processor.cc:43-53 -/
  | .sampling ratio s, b => do
    let (s', rm) := sampleLoop b.points.length s
    let b' ← removePoints rm b
    some (.sampling ratio s', some b')
  /- min_max_range_filtering_points_processor.cc:41-54 -/
  | .minMax lo hi, b => do
    let b' ← removePoints (removeUnless (fun p =>
      decide (lo ≤ P3.squaredNorm (P3.sub p b.origin)) && decide (P3.squaredNorm (P3.sub p b.origin) ≤ hi)) b) b
    some (.minMax lo hi, some b')
  /- vertical_range_filtering_points_processor.cc:41-52 -/
  | .vertical lo hi, b => do
    let b' ← removePoints (removeUnless (fun p => decide (lo ≤ p.z - b.origin.z) && decide (p.z - b.origin.z ≤ hi)) b) b
    some (.vertical lo hi, some b')
  /- frame_id_filtering_points_processor.cc:57-63 -/
  | .frameId keep drop, b =>
    if (!keep.isEmpty && decide (b.frame ∈ keep)) || (!drop.isEmpty && !decide (b.frame ∈ drop)) then
      some (.frameId keep drop, some b)
    else some (.frameId keep drop, none)
  /- coloring_points_processor.cc:45-53 -/
  | .coloring color frame, b =>
    if b.frame = frame then some (.coloring color frame, some { b with colors := b.points.map (fun _ => color) })
    else some (.coloring color frame, some b)
  /- intensity_to_color_points_processor.cc:47-60 -/
  | .intensity lo hi frame, b =>
    if !b.intensities.isEmpty && (decide (frame = "") || decide (b.frame = frame)) then
      some (.intensity lo hi frame, some { b with colors := b.intensities.map (gray lo hi) })
    else some (.intensity lo hi frame, some b)
  /- outlier_removing_points_processor.cc:53-68 and 117-129 -/
  | .outlier voxelSize limit .one g, b => do
    let g' ← phaseOne voxelSize g b
    some (.outlier voxelSize limit .one g', none)
  | .outlier voxelSize limit .two g, b => do
    let g' ← phaseTwo E voxelSize g b
    some (.outlier voxelSize limit .two g', none)
  | .outlier voxelSize limit .three g, b => do
    let rm ← outliers voxelSize limit g b
    let b' ← removePoints rm b
    some (.outlier voxelSize limit .three g, some b')
  /- xyz_writing_points_processor.cc:50-55 -/
  | .xyz f, b => do
    let f' ← b.points.foldlM (fun f p => f.write (E.line p)) f
    some (.xyz f', some b)
  /- ply_writing_points_processor.cc:122-158 -/
  | .ply comments num hasColors hasIntensities f, b =>
    if b.points = [] then some (.ply comments num hasColors hasIntensities f, some b)
    else do
      let (hc, hi, f) ← if num = 0 then do
          let f ← f.writeHeader (plyHeader (!b.colors.isEmpty) (!b.intensities.isEmpty) comments 0)
          some (!b.colors.isEmpty, some (!b.intensities.isEmpty), f)
        else some (hasColors, hasIntensities, f)
      let hi' ← hi
      if hc ∧ b.points.length ≠ b.colors.length then none
      else if hi' ∧ b.points.length ≠ b.intensities.length then none
      else do
        let f ← (List.range b.points.length).foldlM (fun f i => writePlyPoint E hc hi' b i f) f
        some (.ply comments (num + b.points.length) hc hi f, some b)
  /- pcd_writing_points_processor.cc:111-131 -/
  | .pcd num hasColors f, b =>
    if b.points = [] then some (.pcd num hasColors f, some b)
    else do
      let (hc, f) ← if num = 0 then do
          let f ← f.writeHeader (pcdHeader (!b.colors.isEmpty) 0)
          some (!b.colors.isEmpty, f)
        else some (hasColors, f)
      let f ← (List.range b.points.length).foldlM (fun f i => writePcdPoint E b i f) f
      some (.pcd (num + b.points.length) hc f, some b)
  | .grid seen flushed, b => some (.grid (seen ++ [b]) flushed, some b)

/-- `Process` of a pipeline. -/
def process (E : Env) : List Stage → Batch → Option (List Stage)
  | [], _ => some []
  | st :: rest, b => do
    let (st', out) ← st.process E b
    match out with
    | none => some (st' :: rest)
    | some b' => do
      let rest' ← process E rest b'
      some (st' :: rest')

/-- `PointsProcessor::FlushResult` (points_processor.h:31-34). -/
inductive FlushResult where
  | restart
  | finished
deriving DecidableEq

/-- `Flush` of a pipeline. -/
def flush : List Stage → Option (List Stage × FlushResult)
  /- null_points_processor.h:32 -/
  | [] => some ([], .finished)
  /- counting_points_processor.cc:40-52 -/
  | .counting num :: rest => do
    let (rest', r) ← flush rest
    match r with
    | .finished => some (.counting num :: rest', .finished)
    | .restart => some (.counting 0 :: rest', .restart)
  /- fixed_ratio_sampling_points_processor.cc:55-66 -/
  | .sampling ratio s :: rest => do
    let (rest', r) ← flush rest
    match r with
    | .finished => some (.sampling ratio s :: rest', .finished)
    | .restart => do
      let s' ← Sampler.mk ratio
      some (.sampling ratio s' :: rest', .restart)
  /- outlier_removing_points_processor.cc:70-89 -/
  | .outlier voxelSize limit .one g :: rest => some (.outlier voxelSize limit .two g :: rest, .restart)
  | .outlier voxelSize limit .two g :: rest => some (.outlier voxelSize limit .three g :: rest, .restart)
  | .outlier voxelSize limit .three g :: rest => do
    let (rest', r) ← flush rest
    match r with
    | .finished => some (.outlier voxelSize limit .three g :: rest', .finished)
    | .restart => none
  /- xyz_writing_points_processor.cc:37-48 -/
  | .xyz f :: rest => do
    let (rest', r) ← flush rest
    match r with
    | .finished => some (.xyz f.close :: rest', .finished)
    | .restart => none
  /- ply_writing_points_processor.cc:106-120 -/
  | .ply comments num hasColors hasIntensities f :: rest => do
    let hi ← hasIntensities
    let f ← f.writeHeader (plyHeader hasColors hi comments num)
    let (rest', r) ← flush rest
    match r with
    | .finished => some (.ply comments num hasColors hasIntensities f.close :: rest', .finished)
    | .restart => none
  /- pcd_writing_points_processor.cc:96-109 -/
  | .pcd num hasColors f :: rest => do
    let f ← f.writeHeader (pcdHeader hasColors num)
    let (rest', r) ← flush rest
    match r with
    | .finished => some (.pcd num hasColors f.close :: rest', .finished)
    | .restart => none
  /- hybrid_grid_points_processor.cc:48-66, xray_points_processor.cc:256-279, probability_grid_points_processor.cc:135-173 -/
  | .grid seen _ :: rest => do
    let (rest', r) ← flush rest
    match r with
    | .finished => some (.grid seen true :: rest', .finished)
    | .restart => none
  /- The other stages return what the next one returns (e.g. min_max_range_filtering_points_processor.cc:56-58). -/
  | st :: rest => do
    let (rest', r) ← flush rest
    some (st :: rest', r)

/-- One pass over the stream. -/
def pass (E : Env) (ps : List Stage) (stream : List Batch) : Option (List Stage × FlushResult) := do
  let ps' ← stream.foldlM (process E) ps
  flush ps'

/-- What the program using the pipeline is up to. -/
inductive Outcome where
  | aborted
  | running
  | finished (ps : List Stage)

/-- The loop around a pipeline (e.g. probability_grid_points_processor_test.cc:130-138): the stream is repeated until `Flush` does
not ask for another pass; at most `n` passes. -/
def drive (E : Env) (stream : List Batch) : Nat → List Stage → Outcome
  | 0, _ => .running
  | n + 1, ps =>
    match pass E ps stream with
    | none => .aborted
    | some (ps', .finished) => .finished ps'
    | some (ps', .restart) => drive E stream n ps'

end Verif.Points
