import Verif.PoseExtrapolator
import Verif.RangeDataCollator

/-!
# Local SLAM: from range data to scan matching

/repo/cartographer/mapping/internal/2d/local_trajectory_builder_2d.cc ("l2") and
/repo/cartographer/mapping/internal/3d/local_trajectory_builder_3d.cc ("l3"), with the range data collator
(`Verif.RangeCollator`) and the pose extrapolator (`Verif.Extrapolator`) they use.

Simplifications: floating point numbers are reals, casts between `float` and `double` are left out, the times of single points
are ticks (as in `Verif.RangeCollator`). The voxel filters are functions of the environment. The scan matcher is a function
given with each message, because its answer depends on the submaps; what happens to the result (motion filter, insertion into
submaps) is not modelled here. Metrics, wall clock times and warnings are left out. For 3D only the constant velocity
extrapolator is modelled, without initial poses, and no intensities.
-/

namespace Verif.LocalBuilder

open Verif.Rigid

/-- Why a call does not return normally. -/
inductive Abort where
  /-- A sensor that was not announced (range_data_collator.cc 33). -/
  | sensor
  /-- A call of the extrapolator does not return. -/
  | extrapolator (e : Extrapolator.Abort)
  /-- `CHECK_LE(synchronized_data.ranges.back().point_time.time, 0.f)` (l2:130, l3:154). -/
  | positive
  /-- `at` throws or an iterator is used out of bounds. -/
  | index
  /-- `CHECK(options_.use_imu_data())` (l2:303). -/
  | imu
  /-- `CHECK`s about the number of poses (l3:207, l3:247). -/
  | count
  deriving DecidableEq

/-- Lifts an outcome of the extrapolator. -/
def lift {α : Type} : Except Extrapolator.Abort α → Except Abort α
  | .ok a => .ok a
  | .error e => .error (.extrapolator e)

/-- Measurements, scans and messages: positions and origins are points, intensities are kept only by the collator. -/
abbrev Measurement := RangeCollator.Measurement V3 ℝ
abbrev Scan := RangeCollator.Scan V3 V3 ℝ
abbrev Message := RangeCollator.Message V3 V3 ℝ

/-- `sensor::RangeData` (sensor/range_data.h:32-36). -/
structure RangeData where
  origin : V3
  returns : List V3
  misses : List V3

/-- The options of both builders that are used here; `minZ`, `maxZ`, `missingRay` and `useImu` only in 2D. -/
structure Options where
  minRange : ℝ
  maxRange : ℝ
  missingRay : ℝ
  minZ : ℝ
  maxZ : ℝ
  numAccumulated : Nat
  useImu : Bool

/-- What a builder is made with: options, sensors, and functions that are not modelled: `std::sort`, the voxel filter for
points, for measurements (3D) and the adaptive ones. -/
structure Env where
  opts : Options
  expected : List Int
  defaultIntensity : ℝ
  sort : List Measurement → List Measurement
  params : Extrapolator.Params
  filter : List V3 → List V3
  filterRanges : List Measurement → List Measurement
  adaptive : List V3 → List V3
  adaptiveLow : List V3 → List V3

/-- `TransformRangeData` (sensor/range_data.cc:25-32). -/
def transform (pose : Rigid3) (d : RangeData) : RangeData :=
  ⟨pose.apply d.origin, d.returns.map pose.apply, d.misses.map pose.apply⟩

/-- `GetLastPoseTime` (pose_extrapolator.cc 54-59); `none` is `Time::min()`. -/
def lastPoseTime (s : Extrapolator.State) : Option Int := (Extrapolator.newest s).map (·.time)

/-- `GetLastExtrapolatedTime` (pose_extrapolator.cc 61-66). -/
def lastExtrapolated (s : Extrapolator.State) : Option Int := s.extrapolationTracker.map (·.time)

/-- Whether a time is before one that may be `Time::min()`. -/
def before (t : Int) : Option Int → Bool
  | none => false
  | some u => decide (t < u)

/-- A vector from one point to another. -/
def delta (a b : V3) : V3 := ⟨b.x - a.x, b.y - a.y, b.z - a.z⟩

/-- The point at distance `length` from the origin of the ray (l2:179-181, l3:240-241). -/
noncomputable def onRay (length : ℝ) (origin hit : V3) : V3 :=
  Extrapolator.vadd origin (Extrapolator.smul (length / (delta origin hit).norm) (delta origin hit))

/-- Sorts one measurement, seen from the pose the sensor had, into returns and misses (l2:165-185, l3:222-243). -/
noncomputable def addHit (o : Options) (ray : ℝ) (pose : Rigid3) (origin position : V3) (acc : RangeData) : RangeData :=
  let a := pose.apply origin
  let b := pose.apply position
  if o.minRange ≤ (delta a b).norm then
    if (delta a b).norm ≤ o.maxRange then { acc with returns := acc.returns ++ [b] }
    else { acc with misses := acc.misses ++ [onRay ray a b] }
  else acc

/-- The loop over the measurements of a scan with their poses. -/
noncomputable def addHits (o : Options) (ray : ℝ) (origins : List V3) : List (Measurement × Rigid3) → RangeData → Except Abort RangeData
  | [], acc => .ok acc
  | (q, pose) :: l, acc =>
    match origins[q.originIndex]? with
    | none => .error .index
    | some a => addHits o ray origins l (addHit o ray pose a q.position acc)

/-- The time at which the pose for a point is extrapolated (l2:143-152). -/
def pointTime (ext : Extrapolator.State) (t : Int) : Int := if before t (lastExtrapolated ext) then (lastExtrapolated ext).getD t else t

/-- The poses for the points of a scan (l2:139-155). -/
noncomputable def hitPoses (P : Extrapolator.Params) (time : Int) : List Measurement → Extrapolator.State →
    Except Extrapolator.Abort (List Rigid3 × Extrapolator.State)
  | [], ext => .ok ([], ext)
  | q :: l, ext => do
    let (pose, ext) ← Extrapolator.extrapolatePose P ext (pointTime ext (time + q.time))
    let (poses, ext) ← hitPoses P time l ext
    .ok (pose :: poses, ext)

/-- `MatchingResult` (local_trajectory_builder_2d.h) without the insertion result. -/
structure Result where
  time : Int
  pose : Rigid3
  data : RangeData

/-! ### 2D -/

/-- The members of `LocalTrajectoryBuilder2D` used here. -/
structure State2 where
  collator : RangeCollator.State V3 V3 ℝ := RangeCollator.init
  ext : Option Extrapolator.State := none
  numAccumulated : Nat := 0
  accumulated : RangeData := ⟨⟨0, 0, 0⟩, [], []⟩

/-- `InitializeExtrapolator` (l2:318-332); the constant velocity extrapolator is configured. -/
noncomputable def initExt (E : Env) (s : State2) (time : Int) : Except Abort State2 :=
  match s.ext with
  | some _ => .ok s
  | none => do
    let ext ← lift (Extrapolator.addPose E.params {} time Rigid3.identity)
    .ok { s with ext := some ext }

/-- `CropRangeData` and `VoxelFilter` in `TransformToGravityAlignedFrameAndFilter` (l2:51-63). -/
noncomputable def cropFilter (E : Env) (d : RangeData) : RangeData :=
  let inside (p : V3) : Bool := decide (E.opts.minZ ≤ p.z ∧ p.z ≤ E.opts.maxZ)
  ⟨d.origin, E.filter (d.returns.filter inside), E.filter (d.misses.filter inside)⟩

/-- `AddAccumulatedRangeData` (l2:211-277). The scan matcher gets the predicted pose and the filtered returns. -/
noncomputable def matchScan (E : Env) (match_ : Rigid2 → List V3 → Option Rigid2) (time : Int) (d : RangeData)
    (gravity : Rigid3) (ext : Extrapolator.State) : Except Abort (Extrapolator.State × Option Result) :=
  if d.returns.isEmpty then .ok (ext, none)
  else do
    let (pose, ext) ← lift (Extrapolator.extrapolatePose E.params ext time)
    let prediction := project2D (pose.mul gravity.inverse)
    if (E.adaptive d.returns).isEmpty then .ok (ext, none)
    else
      match match_ prediction (E.adaptive d.returns) with
      | none => .ok (ext, none)
      | some p => do
        let ext ← lift (Extrapolator.addPose E.params ext time ((embed3D p).mul gravity))
        .ok (ext, some ⟨time, (embed3D p).mul gravity, transform (embed3D p) d⟩)

/-- `AddRangeData` from line 128 on, for a scan of the collator that is not empty. -/
noncomputable def addScan2 (E : Env) (match_ : Rigid2 → List V3 → Option Rigid2) (s : State2) (ext : Extrapolator.State) (scan : Scan) :
    Except Abort (State2 × Option Result) :=
  match scan.ranges.head?, scan.ranges.getLast? with
  | some front, some back =>
    if 0 < back.time then .error .positive
    else if before (scan.time + front.time) (lastPoseTime ext) then .ok (s, none)
    else do
      let (poses, ext) ← lift (hitPoses E.params scan.time scan.ranges ext)
      let acc ← addHits E.opts E.opts.missingRay scan.origins (scan.ranges.zip poses)
        (if s.numAccumulated = 0 then ⟨⟨0, 0, 0⟩, [], []⟩ else s.accumulated)
      if E.opts.numAccumulated ≤ s.numAccumulated + 1 then do
        let q ← lift (Extrapolator.estimateGravity E.params ext scan.time)
        match poses.getLast? with
        | none => .error .index
        | some last =>
          let gravity : Rigid3 := ⟨⟨0, 0, 0⟩, q⟩
          let acc : RangeData := { acc with origin := last.translation }
          let (ext, r) ← matchScan E match_ scan.time (cropFilter E (transform (gravity.mul last.inverse) acc)) gravity ext
          .ok ({ s with ext := some ext, numAccumulated := 0, accumulated := acc }, r)
      else .ok ({ s with ext := some ext, numAccumulated := s.numAccumulated + 1, accumulated := acc }, none)
  | _, _ => .error .index

/-- `AddRangeData` (l2:104-209). -/
noncomputable def addRange2 (E : Env) (match_ : Rigid2 → List V3 → Option Rigid2) (s : State2) (id : Int) (m : Message) :
    Except Abort (State2 × Option Result) :=
  match RangeCollator.addRangeData E.sort E.defaultIntensity E.expected s.collator id m with
  | none => .error .sensor
  | some (c, none) => .ok ({ s with collator := c }, none)
  | some (c, some scan) =>
    if scan.ranges.isEmpty then .ok ({ s with collator := c }, none)
    else do
      let s ← if E.opts.useImu then .ok { s with collator := c } else initExt E { s with collator := c } scan.time
      match s.ext with
      | none => .ok (s, none)
      | some ext => addScan2 E match_ s ext scan

/-- `AddImuData` (l2:302-306). -/
noncomputable def addImu2 (E : Env) (s : State2) (d : Extrapolator.Imu) : Except Abort State2 :=
  if E.opts.useImu then do
    let s ← initExt E s d.time
    match s.ext with
    | none => .error .index
    | some ext => do
      let ext ← lift (Extrapolator.addImu ext d)
      .ok { s with ext := some ext }
  else .error .imu

/-- `AddOdometryData` (l2:308-316). -/
noncomputable def addOdometry2 (E : Env) (s : State2) (d : Extrapolator.TimedPose) : Except Abort State2 :=
  match s.ext with
  | none => .ok s
  | some ext => do
    let ext ← lift (Extrapolator.addOdometry E.params ext d)
    .ok { s with ext := some ext }

/-- The sensor data of a trajectory, with the scan matcher for range data. -/
inductive Event (M : Type) where
  | imu (d : Extrapolator.Imu)
  | odometry (d : Extrapolator.TimedPose)
  | range (id : Int) (m : Message) (match_ : M)

/-- One call of the 2D builder. -/
noncomputable def step2 (E : Env) (s : State2) : Event (Rigid2 → List V3 → Option Rigid2) → Except Abort (State2 × Option Result)
  | .imu d => do
    let s ← addImu2 E s d
    .ok (s, none)
  | .odometry d => do
    let s ← addOdometry2 E s d
    .ok (s, none)
  | .range id m match_ => addRange2 E match_ s id m

/-- A sequence of calls, with the results. -/
noncomputable def run2 (E : Env) : State2 → List (Event (Rigid2 → List V3 → Option Rigid2)) → Except Abort (State2 × List Result)
  | s, [] => .ok (s, [])
  | s, e :: es => do
    let (s, r) ← step2 E s e
    let (s, rs) ← run2 E s es
    .ok (s, r.toList ++ rs)

/-! ### 3D -/

/-- The members of `LocalTrajectoryBuilder3D` used here. -/
structure State3 where
  collator : RangeCollator.State V3 V3 ℝ := RangeCollator.init
  ext : Option Extrapolator.State := none
  numAccumulated : Nat := 0
  accumulated : List Scan := []

/-- The times of the points of a scan, never before the previous one (l3:183-198). -/
def hitTimes (time : Int) : List Measurement → Option Int → List Int × Option Int
  | [], prev => ([], prev)
  | q :: l, prev =>
    let t := if before (time + q.time) prev then prev.getD (time + q.time) else time + q.time
    let (ts, prev) := hitTimes time l (some t)
    (t :: ts, prev)

/-- The loop over the accumulated scans (l3:178-199). -/
def allHitTimes : List Scan → Option Int → List Int
  | [], _ => []
  | scan :: l, prev =>
    let (ts, prev) := hitTimes scan.time scan.ranges prev
    ts ++ allHitTimes l prev

/-- Poses for a list of times (pose_extrapolator.cc 248-251). -/
noncomputable def posesAt (P : Extrapolator.Params) : List Int → Extrapolator.State →
    Except Extrapolator.Abort (List Rigid3 × Extrapolator.State)
  | [], ext => .ok ([], ext)
  | t :: l, ext => do
    let (pose, ext) ← Extrapolator.extrapolatePose P ext t
    let (poses, ext) ← posesAt P l ext
    .ok (pose :: poses, ext)

/-- The loop over the accumulated scans with the iterator over the poses (l3:216-247): the data and the poses left. -/
noncomputable def addScans (o : Options) : List Scan → List Rigid3 → RangeData → Except Abort (RangeData × List Rigid3)
  | [], poses, acc => .ok (acc, poses)
  | scan :: l, poses, acc =>
    if poses.length < scan.ranges.length then .error .index
    else do
      let acc ← addHits o o.maxRange scan.origins (scan.ranges.zip poses) acc
      addScans o l (poses.drop scan.ranges.length) acc

/-- `AddAccumulatedRangeData` (l3:283-375). The scan matcher gets the predicted pose and the two filtered point clouds. -/
noncomputable def matchScan3 (E : Env) (match_ : Rigid3 → List V3 → List V3 → Option Rigid3) (time : Int) (d : RangeData)
    (prediction : Rigid3) (ext : Extrapolator.State) : Except Abort (Extrapolator.State × Option Result) :=
  if d.returns.isEmpty then .ok (ext, none)
  else if (E.adaptive d.returns).isEmpty then .ok (ext, none)
  else if (E.adaptiveLow d.returns).isEmpty then .ok (ext, none)
  else
    match match_ prediction (E.adaptiveLow d.returns) (E.adaptive d.returns) with
    | none => .ok (ext, none)
    | some p => do
      let ext ← lift (Extrapolator.addPose E.params ext time p)
      .ok (ext, some ⟨time, p, transform p d⟩)

/-- `AddRangeData` from line 176 on: enough scans are accumulated. -/
noncomputable def matchAll3 (E : Env) (match_ : Rigid3 → List V3 → List V3 → Option Rigid3) (scans : List Scan)
    (ext : Extrapolator.State) : Except Abort (Extrapolator.State × Option Result) :=
  match scans.getLast? with
  | none => .error .index
  | some lastScan => do
    let (poses, ext) ← lift (posesAt E.params (allHitTimes scans (lastExtrapolated ext)) ext)
    let (current, ext) ← lift (Extrapolator.extrapolatePose E.params ext lastScan.time)
    let _ ← lift (Extrapolator.estimateGravity E.params ext lastScan.time)
    let (acc, rest) ← addScans E.opts scans (poses ++ [current]) ⟨current.translation, [], []⟩
    if rest.length = 1 then
      matchScan3 E match_ lastScan.time
        (transform current.inverse ⟨acc.origin, E.filter acc.returns, E.filter acc.misses⟩) current ext
    else .error .count

/-- `AddRangeData` from line 153 on, for a scan of the collator that is not empty. -/
noncomputable def addScan3 (E : Env) (match_ : Rigid3 → List V3 → List V3 → Option Rigid3) (s : State3) (ext : Extrapolator.State)
    (scan : Scan) : Except Abort (State3 × Option Result) :=
  match scan.ranges.head?, scan.ranges.getLast? with
  | some front, some back =>
    if 0 < back.time then .error .positive
    else if before (scan.time + front.time) (lastPoseTime ext) then .ok (s, none)
    else
      let scans := (if s.numAccumulated = 0 then [] else s.accumulated) ++ [{ scan with ranges := E.filterRanges scan.ranges }]
      if s.numAccumulated + 1 < E.opts.numAccumulated then
        .ok ({ s with numAccumulated := s.numAccumulated + 1, accumulated := scans }, none)
      else do
        let (ext, r) ← matchAll3 E match_ scans ext
        .ok ({ s with ext := some ext, numAccumulated := 0, accumulated := scans }, r)
  | _, _ => .error .index

/-- `AddRangeData` (l3:129-281). -/
noncomputable def addRange3 (E : Env) (match_ : Rigid3 → List V3 → List V3 → Option Rigid3) (s : State3) (id : Int) (m : Message) :
    Except Abort (State3 × Option Result) :=
  match RangeCollator.addRangeData E.sort E.defaultIntensity E.expected s.collator id m with
  | none => .error .sensor
  | some (c, none) => .ok ({ s with collator := c }, none)
  | some (c, some scan) =>
    if scan.ranges.isEmpty then .ok ({ s with collator := c }, none)
    else
      match s.ext with
      | none => .ok ({ s with collator := c }, none)
      | some ext => addScan3 E match_ { s with collator := c } ext scan

/-- One call of the 3D builder: `AddImuData` (l3:111-127), `AddOdometryData` (l3:377-385), `AddRangeData`. -/
noncomputable def step3 (E : Env) (s : State3) :
    Event (Rigid3 → List V3 → List V3 → Option Rigid3) → Except Abort (State3 × Option Result)
  | .imu d =>
    match s.ext with
    | some ext => do
      let ext ← lift (Extrapolator.addImu ext d)
      .ok ({ s with ext := some ext }, none)
    | none => do
      let ext ← lift (Extrapolator.initializeWithImu E.params d)
      .ok ({ s with ext := some ext }, none)
  | .odometry d =>
    match s.ext with
    | none => .ok (s, none)
    | some ext => do
      let ext ← lift (Extrapolator.addOdometry E.params ext d)
      .ok ({ s with ext := some ext }, none)
  | .range id m match_ => addRange3 E match_ s id m

/-- A sequence of calls, with the results. -/
noncomputable def run3 (E : Env) : State3 → List (Event (Rigid3 → List V3 → List V3 → Option Rigid3)) →
    Except Abort (State3 × List Result)
  | s, [] => .ok (s, [])
  | s, e :: es => do
    let (s, r) ← step3 E s e
    let (s, rs) ← run3 E s es
    .ok (s, r.toList ++ rs)

end Verif.LocalBuilder
