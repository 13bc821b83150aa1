import Verif.OrderedMultiQueue
import Verif.RateTimer
import Verif.Sampling
import Mathlib.Data.List.Dedup
import Mathlib.Order.WithBot
import Mathlib.Algebra.Order.Group.Int

/-!
# From the sensors to the local trajectory builder and the pose graph

Models of `CollatedTrajectoryBuilder` (mapping/internal/collated_trajectory_builder.{h,cc}, here ct.h and ct.cc) and of `GlobalTrajectoryBuilder`
(mapping/internal/global_trajectory_builder.cc, here gt.cc), which are put behind each other by `MapBuilder::AddTrajectoryBuilder` (map_builder.cc 105-150).
`S` are sensor ids, `V` the contents of data.  Times are ticks; the ordered multi queue takes them with a least element, which is `Time::min()`.  `none` is a
failing `CHECK`.  The collator is the queue of one trajectory; `Verif.Collators` shows that a shared collator delivers the same.
-/

namespace Verif.Feed

/-- `SensorId::SensorType` (mapping/trajectory_builder_interface.h 66-73). -/
inductive Kind where
  | range | imu | odometry | fixedFrame | landmark | localSlam
  deriving DecidableEq, Repr

/-- A sensor datum: a `Dispatchable` (sensor/internal/dispatchable.h 26-41) or a `LocalSlamResultData`. -/
structure Datum (S V : Type) where
  kind : Kind
  sensor : S
  time : ℤ
  value : V
  deriving DecidableEq, Repr

/-- The options `collate_landmarks` and `collate_fixed_frame` (proto/trajectory_builder_options.proto). -/
structure Options where
  collateLandmarks : Bool
  collateFixed : Bool

variable {S V : Type}

/-- The time as the queue uses it. -/
def qtime (d : Datum S V) : WithBot ℤ := (d.time : WithBot ℤ)

/-- The trajectory of a queue: there is only one. -/
def qtraj (_ : S) : Unit := ()

/-! ### Collated trajectory builder -/

/-- Sensors that get no queue (ct.cc 43-51). -/
def skipped (o : Options) : Kind → Bool
  | .landmark => !o.collateLandmarks
  | .fixedFrame => !o.collateFixed
  | _ => false

variable [LinearOrder S]

/-- `expected_sensor_id_strings` (ct.cc 42-53): a set of strings, so that sensors of different types with the same id become one. -/
def expected (o : Options) (ids : List (Kind × S)) : List S := ((ids.filter fun i => !skipped o i.1).map Prod.snd).dedup

/-- Members (ct.h 101-109): here with the queue of the collator; `timers` is `rate_timers_`. -/
structure Collated (S V : Type) where
  queue : OMQ.State S Unit (Datum S V) (WithBot ℤ)
  timers : S → List RateTimer.Event

/-- The constructor (ct.cc 31-59). -/
def Collated.init (o : Options) (ids : List (Kind × S)) : Option (Collated S V) :=
  (OMQ.addQueues OMQ.init (expected o ids)).map fun q => ⟨q, fun _ => []⟩

/-- The window of the timers, 15 seconds (ct.cc 27, 69-74). -/
def window : ℤ := 150000000

/-- `HandleCollatedSensorData` (ct.cc 65-87) for the callbacks of one call: each pulses the timer of its sensor and goes on to the wrapped builder.  The clock is
taken to stand still within a call; the log is left out. -/
def pulses (wall : ℤ) (timers : S → List RateTimer.Event) : List (S × Datum S V) → S → List RateTimer.Event
  | [] => timers
  | x :: xs => pulses wall (fun s => if s = x.1 then RateTimer.pulse window (timers s) ⟨x.2.time, wall⟩ else timers s) xs

/-- What is called: data at some wall time, and the ends by `FinishTrajectory` and `Flush` of the collator. -/
inductive Call (S V : Type) where
  | data (d : Datum S V) (wall : ℤ)
  | finish (wall : ℤ)
  | flush (wall : ℤ)

/-- One call: `AddSensorData` for the types of data (ct.h 54-93) with the two that can go past the collator, `AddData` (ct.cc 61-63), `FinishTrajectory`
(collator.cc 36-40) and `Flush`.  The second result is what reaches the wrapped builder. -/
def Collated.step (o : Options) (ids : List (Kind × S)) (c : Collated S V) : Call S V → Option (Collated S V × List (Datum S V))
  | .data d wall =>
    if skipped o d.kind then some (c, [d])
    else do
      let r ← OMQ.add qtraj qtime c.queue d.sensor d
      some (⟨r.1, pulses wall c.timers r.2⟩, r.2.map Prod.snd)
  | .finish wall => do
    let r ← OMQ.markAll qtraj qtime c.queue (expected o ids)
    some (⟨r.1, pulses wall c.timers r.2⟩, r.2.map Prod.snd)
  | .flush wall => do
    let r ← OMQ.flush qtraj qtime c.queue
    some (⟨r.1, pulses wall c.timers r.2⟩, r.2.map Prod.snd)

/-- Several calls. -/
def Collated.run (o : Options) (ids : List (Kind × S)) (c : Collated S V) : List (Call S V) → Option (Collated S V × List (Datum S V))
  | [] => some (c, [])
  | x :: xs => do
    let r ← c.step o ids x
    let r' ← r.1.run o ids xs
    some (r'.1, r.2 ++ r'.2)

/-! ### Global trajectory builder -/

/-- `MatchingResult` (internal/2d/local_trajectory_builder_2d.h 44-57): `insertion` is null if the motion filter of the local builder dropped the scan. -/
structure Result (R N : Type) where
  value : R
  insertion : Option N

/-- The local trajectory builder, with state `L`, and what else is fixed.  `valid` is `IsValid` of the pose, true for a fixed frame datum without pose;
`distance` and `angle` are those of the motion filter. -/
structure Env (S V L R N C : Type) where
  range : L → Datum S V → Option (L × Option (Result R N))
  imu : L → Datum S V → Option L
  odometry : L → Datum S V → Option L
  valid : V → Bool
  distance : V → V → C
  angle : V → V → C
  filter : MotionFilter.Options C

/-- What is sent to the pose graph. -/
inductive ToGraph (S V N : Type) where
  | node (n : N)
  | imu (d : Datum S V)
  | odometry (d : Datum S V)
  | fixedFrame (d : Datum S V)
  | landmark (d : Datum S V)
  | localSlam (d : Datum S V)

/-- A call of `local_slam_result_callback_` (gt.cc 82-87). -/
structure Callback (R N : Type) where
  value : R
  insertion : Option ((ℤ × ℕ) × N)

/-- Members (gt.cc 137-142): `slam` is `local_trajectory_builder_`, `filter` the motion filter for odometry. -/
structure Builder (S V L : Type) where
  slam : Option L
  filter : Option (MotionFilter.State (Datum S V))

variable {L R N C : Type} [LE C] [DecidableLE C]

/-- `IsSimilar` (gt.cc 107-111), here on data. -/
def similar (E : Env S V L R N C) (s : MotionFilter.State (Datum S V)) (d : Datum S V) : MotionFilter.State (Datum S V) × Bool :=
  MotionFilter.isSimilar (fun a b => E.distance a.value b.value) (fun a b => E.angle a.value b.value) E.filter s d.time d

/-- One datum (gt.cc 56-135) of trajectory `j`.  `newId` is the id that the pose graph gives to a new node. -/
def Builder.step (E : Env S V L R N C) (j : ℤ) (newId : ℤ × ℕ) (b : Builder S V L) (d : Datum S V) : Option (Builder S V L × List (ToGraph S V N) × List (Callback R N)) :=
  match d.kind with
  | .range => do
    let l ← b.slam
    let r ← E.range l d
    match r.2 with
    | none => some ({ b with slam := some r.1 }, [], [])
    | some m =>
      match m.insertion with
      | none => some ({ b with slam := some r.1 }, [], [⟨m.value, none⟩])
      | some n => if newId.1 = j then some ({ b with slam := some r.1 }, [.node n], [⟨m.value, some (newId, n)⟩]) else none
  | .imu =>
    match b.slam with
    | none => some (b, [.imu d], [])
    | some l => do
      let l' ← E.imu l d
      some ({ b with slam := some l' }, [.imu d], [])
  | .odometry =>
    if E.valid d.value then do
      let l' ← (match b.slam with
        | none => some none
        | some l => (E.odometry l d).map some)
      match b.filter with
      | none => some (⟨l', none⟩, [.odometry d], [])
      | some f => some (⟨l', some (similar E f d).1⟩, if (similar E f d).2 then [] else [.odometry d], [])
    else none
  | .fixedFrame => if E.valid d.value then some (b, [.fixedFrame d], []) else none
  | .landmark => some (b, [.landmark d], [])
  | .localSlam => if b.slam.isNone then some (b, [.localSlam d], []) else none

/-- Several data.  `ids n` is the id of the node added after `n` others of this builder. -/
def Builder.run (E : Env S V L R N C) (j : ℤ) (ids : ℕ → ℤ × ℕ) (n : ℕ) (b : Builder S V L) :
    List (Datum S V) → Option (Builder S V L × List (ToGraph S V N) × List (Callback R N))
  | [] => some (b, [], [])
  | d :: ds => do
    let r ← b.step E j (ids n) d
    let r' ← r.1.run E j ids (n + (r.2.2.filter fun c => c.insertion.isSome).length) ds
    some (r'.1, r.2.1 ++ r'.2.1, r.2.2 ++ r'.2.2)

end Verif.Feed
