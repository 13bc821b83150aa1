import Verif.SortedMap
import Verif.CompressedPointCloud

/-!
# Voxel filter

Model of `cartographer/sensor/internal/voxel_filter.cc` and of the parts of `sensor/point_cloud.{h,cc}` it uses.  Coordinates and
resolutions are rational numbers, `uint64_t` is a natural number below 2^64 (arithmetic wraps).
-/

namespace Verif.Voxel

open Verif.SMap Verif.Compressed

/-- The conversion of an `int64` to `uint64_t`. -/
def toU64 (x : Int) : Nat := (x % 2 ^ 64).toNat

/-- The voxel of a point: the rounded coordinates (voxel_filter.cc:81-84). -/
def voxelOf (resolution : ℚ) (p : P3) : Int × Int × Int :=
  (Prob.roundToInt (p.x / resolution), Prob.roundToInt (p.y / resolution), Prob.roundToInt (p.z / resolution))

/-- The key computed from a voxel (voxel_filter.cc:82-85). -/
def keyOf (v : Int × Int × Int) : Nat :=
  (((toU64 v.1) * 2 ^ 42 % 2 ^ 64 + (toU64 v.2.1) * 2 ^ 21 % 2 ^ 64) % 2 ^ 64 + toU64 v.2.2) % 2 ^ 64

/-- `GetVoxelCellIndex` (voxel_filter.cc:79-86). -/
def getVoxelCellIndex (p : P3) (resolution : ℚ) : Nat := keyOf (voxelOf resolution p)

/-- The body of the loop of `RandomizedVoxelFilterIndices` (voxel_filter.cc:97-107).  `rnd i n` is the number drawn from 1 to
`n` for the point with index `i`. -/
def voxelStep (rnd : Nat → Nat → Nat) (m : List (Nat × Nat × Nat)) (k i : Nat) : List (Nat × Nat × Nat) :=
  let voxel := (get? k m).getD (0, 0)
  let first := voxel.1 + 1
  if first = 1 then put k (first, i) m
  else if rnd i first = first then put k (first, i) m
  else put k (first, voxel.2) m

/-- The loop over the points (voxel_filter.cc:96-108), starting with index `i`. -/
def voxelLoop (rnd : Nat → Nat → Nat) : List Nat → Nat → List (Nat × Nat × Nat) → List (Nat × Nat × Nat)
  | [], _, m => m
  | k :: ks, i, m => voxelLoop rnd ks (i + 1) (voxelStep rnd m k i)

/-- `RandomizedVoxelFilterIndices` (voxel_filter.cc:88-114) for the list of the keys of the points. -/
def voxelIndices (rnd : Nat → Nat → Nat) (keys : List Nat) : List Bool :=
  (voxelLoop rnd keys 0 []).foldl (fun used e => used.set e.2.2 true) (List.replicate keys.length false)

/-- The loops which copy the elements marked in `points_used` (voxel_filter.cc:124-128, 147-151, 154-158); reading outside of
`points_used` would be undefined. -/
def keep {α : Type} : List Bool → List α → Option (List α)
  | _, [] => some []
  | [], _ :: _ => none
  | b :: bs, a :: as => do
    let l ← keep bs as
    some (if b then a :: l else l)

/-- `RandomizedVoxelFilter` (voxel_filter.cc:116-130). -/
def voxelFilter {α : Type} (rnd : Nat → Nat → Nat) (resolution : ℚ) (position : α → P3) (points : List α) : Option (List α) :=
  keep (voxelIndices rnd (points.map fun p => getVoxelCellIndex (position p) resolution)) points

/-- `PointCloud` (point_cloud.h:33-92). -/
structure PC where
  points : List P3
  intensities : List ℚ

/-- `PointCloud(points, intensities)` (point_cloud.cc:28-34). -/
def PC.mk? (points : List P3) (intensities : List ℚ) : Option PC :=
  if intensities ≠ [] then if points.length = intensities.length then some ⟨points, intensities⟩ else none
  else some ⟨points, intensities⟩

/-- `VoxelFilter(const PointCloud&, float)` (voxel_filter.cc:141-161). -/
def voxelFilterCloud (rnd : Nat → Nat → Nat) (resolution : ℚ) (c : PC) : Option PC := do
  let used := voxelIndices rnd (c.points.map fun p => getVoxelCellIndex p resolution)
  let points ← keep used c.points
  if c.intensities.length ≤ c.points.length then do
    let intensities ← keep used c.intensities
    PC.mk? points intensities
  else none

/-- The loop of `copy_if` with intensities (point_cloud.h:74-80); reading after the last intensity is undefined. -/
def copyLoop (pred : P3 → Bool) : List P3 → List ℚ → Option (List P3 × List ℚ)
  | [], _ => some ([], [])
  | p :: ps, vs =>
    if pred p then do
      let v ← vs.head?
      let (a, b) ← copyLoop pred ps vs.tail
      some (p :: a, v :: b)
    else copyLoop pred ps vs.tail

/-- `PointCloud::copy_if` (point_cloud.h:59-84). -/
def PC.copyIf (c : PC) (pred : P3 → Bool) : Option PC :=
  if c.intensities = [] then PC.mk? (c.points.filter pred) []
  else do
    let (points, is) ← copyLoop pred c.points c.intensities
    PC.mk? points is

/-- `FilterByMaxRange` (voxel_filter.cc:31-36); norms are compared by their squares. -/
def filterByMaxRange (maxRange : ℚ) (c : PC) : Option PC :=
  c.copyIf fun p => decide (0 ≤ maxRange ∧ p.x * p.x + p.y * p.y + p.z * p.z ≤ maxRange * maxRange)

/-- The binary search (voxel_filter.cc:61-71), with at most `n` iterations. -/
def binarySearch (rnd : Nat → Nat → Nat) (minPoints : Nat) (c : PC) : Nat → ℚ → ℚ → PC → Option PC
  | 0, _, _, _ => none
  | n + 1, low, high, result =>
    if (high - low) / low > 1 / 10 then do
      let mid := (low + high) / 2
      let candidate ← voxelFilterCloud rnd mid c
      if minPoints ≤ candidate.points.length then binarySearch rnd minPoints c n mid high candidate
      else binarySearch rnd minPoints c n low mid result
    else some result

/-- The loop over `high_length` (voxel_filter.cc:53-74), with at most `n` iterations. -/
def lengthLoop (rnd : Nat → Nat → Nat) (maxLength : ℚ) (minPoints : Nat) (c : PC) : Nat → ℚ → PC → Option PC
  | 0, _, _ => none
  | n + 1, high, result =>
    if high > 1 / 100 * maxLength then do
      let low := high / 2
      let result ← voxelFilterCloud rnd low c
      if minPoints ≤ result.points.length then binarySearch rnd minPoints c n low high result
      else lengthLoop rnd maxLength minPoints c n (high / 2) result
    else some result

/-- `AdaptivelyVoxelFiltered` (voxel_filter.cc:38-75). -/
def adaptivelyVoxelFiltered (n : Nat) (rnd : Nat → Nat → Nat) (maxLength : ℚ) (minPoints : Nat) (c : PC) : Option PC :=
  if c.points.length ≤ minPoints then some c
  else do
    let result ← voxelFilterCloud rnd maxLength c
    if minPoints ≤ result.points.length then some result
    else lengthLoop rnd maxLength minPoints c n maxLength result

/-- `AdaptiveVoxelFilter` (voxel_filter.cc:192-197). -/
def adaptiveVoxelFilter (n : Nat) (rnd : Nat → Nat → Nat) (maxLength : ℚ) (minPoints : Nat) (maxRange : ℚ) (c : PC) : Option PC := do
  let c ← filterByMaxRange maxRange c
  adaptivelyVoxelFiltered n rnd maxLength minPoints c

end Verif.Voxel
