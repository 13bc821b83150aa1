import Mathlib.Algebra.Order.Group.Int
import Verif.SortedMap

/-!
Model of `cartographer/mapping/internal/range_data_collator.{h,cc}`: merging the timed point clouds of several range
sensors into one synchronized scan.

Simplifications: times are integer ticks (relative point times too; in C++ they are `float` seconds and are rounded to ticks
by `common::FromSeconds`, here the time correction is exact). Sensor ids are integers. The parallel vectors `ranges` and
`intensities`, which have equal length after the `resize` of line 34, are one list of pairs. `std::sort` is an arbitrary
function argument (a sorting function; it need not be stable). Warnings are left out.
-/

namespace Verif.RangeCollator

/-- `sensor::TimedPointCloudData` as handed to `AddRangeData` (sensor/timed_point_cloud_data.h 28-36): `ranges` holds a position
and a time relative to `time`; `intensities` may be shorter or longer. -/
structure Message (A O F : Type) where
  time : Int
  origin : O
  ranges : List (A × Int)
  intensities : List F

/-- One buffered point: position, relative time, intensity. -/
structure Point (A F : Type) where
  position : A
  time : Int
  intensity : F
deriving DecidableEq

/-- A buffered message (`id_to_pending_data_`, range_data_collator.h 57). -/
structure Pending (A O F : Type) where
  time : Int
  origin : O
  points : List (Point A F)

/-- `TimedPointCloudOriginData::RangeMeasurement` (timed_point_cloud_data.h 39-43). -/
structure Measurement (A F : Type) where
  position : A
  time : Int
  intensity : F
  originIndex : Nat
deriving DecidableEq

/-- `TimedPointCloudOriginData` (timed_point_cloud_data.h 38-47). -/
structure Scan (A O F : Type) where
  time : Int
  origins : List O
  ranges : List (Measurement A F)

/-- The members of `RangeDataCollator` (range_data_collator.h 53-61). -/
structure State (A O F : Type) where
  pending : List (Int × Pending A O F)
  currentStart : Int
  currentEnd : Int

/-- `common::Time::min()` and `max()`: the representation is a 64 bit tick count. -/
def timeMin : Int := -9223372036854775808
def timeMax : Int := 9223372036854775807

/-- range_data_collator.h 58-60. -/
def init {A O F : Type} : State A O F := ⟨[], timeMin, timeMin⟩

variable {A O F : Type}

/-- `intensities.resize(ranges.size(), kDefaultIntensityValue)` (range_data_collator.cc 34-35), then the two vectors side by
side. -/
def resize (default : F) (m : Message A O F) : Pending A O F :=
  ⟨m.time, m.origin,
    List.zipWith (fun r i => ⟨r.1, r.2, i⟩) m.ranges
      (m.intensities.take m.ranges.length ++ List.replicate (m.ranges.length - m.intensities.length) default)⟩

/-- `std::map::emplace`: does nothing if the key is present. -/
def emplace {V : Type} (k : Int) (v : V) (l : List (Int × V)) : List (Int × V) :=
  match SMap.get? k l with
  | some _ => l
  | none => SMap.put k v l

/-- The points from `overlap_begin` on (lines 69-74). -/
def fromStart (start : Int) (d : Pending A O F) : List (Point A F) :=
  d.points.dropWhile (fun p => decide (d.time + p.time < start))

/-- The points `[overlap_begin, overlap_end)` (lines 75-80). -/
def overlap (start stop : Int) (d : Pending A O F) : List (Point A F) :=
  (fromStart start d).takeWhile (fun p => decide (d.time + p.time ≤ stop))

/-- The points `[overlap_end, end)`. -/
def remaining (start stop : Int) (d : Pending A O F) : List (Point A F) :=
  (fromStart start d).dropWhile (fun p => decide (d.time + p.time ≤ stop))

/-- Lines 88-106: append one sensor's overlap to the result. -/
def copyOverlap (start stop : Int) (r : Scan A O F) (d : Pending A O F) : Scan A O F :=
  match overlap start stop d with
  | [] => r
  | ps => { r with
      origins := r.origins ++ [d.origin]
      ranges := r.ranges ++ ps.map (fun p => ⟨p.position, p.time + (d.time - stop), p.intensity, r.origins.length⟩) }

/-- The loop 63-122 over the pending messages in key order: the collected result and the messages left. A message is erased
when `overlap_end` reached its end (109-110), otherwise its points before `overlap_end` are dropped (111-121). -/
def cropLoop (start stop : Int) : List (Int × Pending A O F) → Scan A O F → Scan A O F × List (Int × Pending A O F)
  | [], r => (r, [])
  | (k, d) :: l, r =>
    let rest := cropLoop start stop l (copyOverlap start stop r d)
    match remaining start stop d with
    | [] => rest
    | ps => (rest.1, (k, { d with points := ps }) :: rest.2)

/-- `CropAndMerge` (60-130). -/
def cropAndMerge (sort : List (Measurement A F) → List (Measurement A F)) (s : State A O F) :
    State A O F × Scan A O F :=
  let out := cropLoop s.currentStart s.currentEnd s.pending ⟨s.currentEnd, [], []⟩
  ({ s with pending := out.2 }, { out.1 with ranges := sort out.1.ranges })

/-- Lines 52-55. -/
def oldest (l : List (Int × Pending A O F)) : Int := l.foldl (fun acc e => min acc e.2.time) timeMax

/-- `AddRangeData` (30-58). `none` is the failed `CHECK_NE` of line 33; the scan is `none` for the `return {}` of line 48. -/
def addRangeData (sort : List (Measurement A F) → List (Measurement A F)) (default : F) (expected : List Int)
    (s : State A O F) (id : Int) (m : Message A O F) : Option (State A O F × Option (Scan A O F)) :=
  if id ∈ expected then
    match SMap.get? id s.pending with
    | some old =>
      let out := cropAndMerge sort { s with currentStart := s.currentEnd, currentEnd := old.time }
      some ({ out.1 with pending := emplace id (resize default m) out.1.pending }, some out.2)
    | none =>
      let pending := emplace id (resize default m) s.pending
      if expected.length ≠ pending.length then some ({ s with pending := pending }, none)
      else
        let out := cropAndMerge sort
          { pending := pending, currentStart := s.currentEnd, currentEnd := oldest pending }
        some (out.1, some out.2)
  else none

/-- A whole sequence of calls, with the scans returned. -/
def run (sort : List (Measurement A F) → List (Measurement A F)) (default : F) (expected : List Int) :
    State A O F → List (Int × Message A O F) → Option (State A O F × List (Scan A O F))
  | s, [] => some (s, [])
  | s, (id, m) :: l =>
    match addRangeData sort default expected s id m with
    | none => none
    | some (s', r) =>
      match run sort default expected s' l with
      | none => none
      | some (s'', rs) => some (s'', r.toList ++ rs)

end Verif.RangeCollator
