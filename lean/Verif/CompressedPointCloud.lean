import Verif.HybridGrid

/-!
# Compressed point clouds

Model of `cartographer/sensor/compressed_point_cloud.{h,cc}`.  Coordinates are rational numbers (`kPrecision` is 1/1000);
`int32` is `Int` (all numbers are proved to fit).  `x >> 10` and `x & 1023` on `int` are the floor division by 1024 and its
remainder (two's complement).  A failing `CHECK` or reading past the end of `point_data_` is `none`.
-/

namespace Verif.Compressed

open Verif.Hybrid

/-- `Eigen::Vector3f`. -/
structure P3 where
  x : ℚ
  y : ℚ
  z : ℚ
  deriving DecidableEq, Repr

/-- The bounds check (compressed_point_cloud.cc:113-115). -/
def inBounds (p : P3) : Bool := decide (max (max |p.x| |p.y|) |p.z| / (1 / 1000) < 2 ^ 23)

/-- `common::RoundToInt(point.position[i] / kPrecision)` (compressed_point_cloud.cc:119). -/
def rasterOf (p : P3) : I3 :=
  ⟨Prob.roundToInt (p.x / (1 / 1000)), Prob.roundToInt (p.y / (1 / 1000)), Prob.roundToInt (p.z / (1 / 1000))⟩

/-- `raster_point[i] >> kBitsPerCoordinate` (compressed_point_cloud.cc:120). -/
def blockOf (r : I3) : I3 := ⟨r.x / 1024, r.y / 1024, r.z / 1024⟩

/-- `raster_point[i] &= kCoordinateMask` (compressed_point_cloud.cc:121). -/
def maskOf (r : I3) : I3 := ⟨r.x % 1024, r.y % 1024, r.z % 1024⟩

/-- `HybridGridBase<std::vector<RasterPoint>>`; the unused member `index` of `RasterPoint` is left out. -/
abbrev Blocks := Dyn (base (List I3) [])

/-- The loop which distributes the points into blocks (compressed_point_cloud.cc:110-126). -/
def distribute : List P3 → Blocks → Int → Option (Blocks × Int)
  | [], blocks, num => some (blocks, num)
  | p :: ps, blocks, num =>
    if inBounds p then do
      let r := rasterOf p
      let blocks ← blocks.modify [] (blockOf r) id
      let v ← blocks.value [] (blockOf r)
      let blocks ← blocks.modify [] (blockOf r) (fun l => l ++ [maskOf r])
      distribute ps blocks (num + if v = [] then 1 else 0)
    else none

/-- The encoding of a point (compressed_point_cloud.cc:139-142). -/
def encodePoint (r : I3) : Int := ((r.z * 1024) + r.y) * 1024 + r.x

/-- The body of the loop over the blocks (compressed_point_cloud.cc:131-143). -/
def encodeBlock (e : I3 × List I3) : List Int :=
  (e.2.length : Int) :: e.1.x :: e.1.y :: e.1.z :: e.2.map encodePoint

/-- `CompressedPointCloud`. -/
structure Cloud where
  data : List Int
  num : Nat
  deriving DecidableEq, Repr

/-- `CompressedPointCloud(const PointCloud&)` (compressed_point_cloud.cc:99-146); `n` bounds the number of iterations of the
loop over the blocks. -/
def compress (n : Nat) (points : List P3) : Option Cloud :=
  if points.length ≤ 2147483647 then do
    let (blocks, num) ← distribute points (Dyn.empty _) 0
    let l ← blocks.collect [] n (blocks.start [])
    if (l.all fun e => e.2.length ≤ 2147483647) && num - l.length = 0 then
      some ⟨l.flatMap encodeBlock, points.length⟩
    else none
  else none

/-- `ConstIterator` (compressed_point_cloud.h:61-91). -/
structure It where
  remaining : Nat
  inBlock : Int
  block : I3
  input : List Int
  cur : P3

/-- The part of `ReadNextPoint` which reads the header of a block (compressed_point_cloud.cc:80-85). -/
def readHeader (s : It) : Option It :=
  if s.inBlock = 0 then
    match s.input with
    | n :: x :: y :: z :: rest => some { s with
        inBlock := n
        block := ⟨x * 1024, y * 1024, z * 1024⟩
        input := rest }
    | _ => none
  else some s

/-- `ReadNextPoint` (compressed_point_cloud.cc:79-97). -/
def readNext (s : It) : Option It := do
  let s ← readHeader s
  match s.input with
  | point :: rest => some { s with
      inBlock := s.inBlock - 1
      input := rest
      cur := ⟨(s.block.x + point % 1024 : Int) * (1 / 1000), (s.block.y + (point / 1024) % 1024 : Int) * (1 / 1000),
        (s.block.z + point / 1048576 : Int) * (1 / 1000)⟩ }
  | [] => none

/-- The constructor of the begin iterator (compressed_point_cloud.cc:40-49). -/
def Cloud.start (c : Cloud) : Option It :=
  let s : It := ⟨c.num, 0, ⟨0, 0, 0⟩, c.data, ⟨0, 0, 0⟩⟩
  if 0 < s.remaining then readNext s else some s

/-- `operator++` (compressed_point_cloud.cc:64-71). -/
def It.next (s : It) : Option It :=
  let s := { s with remaining := s.remaining - 1 }
  if 0 < s.remaining then readNext s else some s

/-- The loop of `Decompress` (compressed_point_cloud.cc:173-175); `n` bounds the number of iterations. -/
def decompressLoop : Nat → It → Option (List P3)
  | 0, s => if s.remaining = 0 then some [] else none
  | n + 1, s =>
    if s.remaining = 0 then some []
    else do
      let s' ← s.next
      let l ← decompressLoop n s'
      some (s.cur :: l)

/-- `Decompress` (compressed_point_cloud.cc:171-177). -/
def Cloud.decompress (c : Cloud) : Option (List P3) := do
  let s ← c.start
  decompressLoop c.num s

/-- `proto::CompressedPointCloud` (sensor/proto/sensor.proto). -/
structure Proto where
  numPoints : Nat
  pointData : List Int

/-- `ToProto` (compressed_point_cloud.cc:185-192). -/
def Cloud.toProto (c : Cloud) : Proto := ⟨c.num, c.data.foldl (fun l d => l ++ [d]) []⟩

/-- `CompressedPointCloud(const proto::CompressedPointCloud&)` (compressed_point_cloud.cc:148-157). -/
def Cloud.fromProto (p : Proto) : Cloud := ⟨p.pointData.foldl (fun l d => l ++ [d]) [], p.numPoints⟩

end Verif.Compressed
