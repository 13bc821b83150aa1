import Verif.OrderedMultiQueue
import Mathlib.Data.Prod.Lex

/-!
# The two collators

Models of `Collator` (sensor/internal/collator.cc, here c.cc), which merges the data of all trajectories, and of `TrajectoryCollator`
(sensor/internal/trajectory_collator.cc, here tc.cc), which merges that of each trajectory; `MapBuilder` uses the one or the other (map_builder.cc 95-99).
Both use the ordered multi queue of `Verif.OMQ`.  `S` are sensor ids, `D` the data, `T` the times.  `none` is a failing `CHECK` or an exception.  The callbacks
made are given as a list of pairs of queue key and data.  Sets of sensor ids are lists in the order in which the hash set is run through.  The counters for
metrics are left out.
-/

namespace Verif.Collators

variable {S D T : Type} [LinearOrder S] [LinearOrder T] [OrderBot T]

/-- `QueueKey` (ordered_multi_queue.h 34-42), ordered by trajectory and then by sensor. -/
abbrev Key (S : Type) := ℤ ×ₗ S

/-- A key. -/
def key (j : ℤ) (s : S) : Key S := toLex (j, s)

/-- `QueueKey::trajectory_id`. -/
def traj (k : Key S) : ℤ := (ofLex k).1

/-- The queue with the types used here. -/
abbrev Queues (S D T : Type) := OMQ.State (Key S) ℤ D T

/-- What is called through `CollatorInterface` (sensor/collator_interface.h). -/
inductive Call (S D : Type) where
  | add (j : ℤ) (sensors : List S)
  | data (j : ℤ) (d : D)
  | finish (j : ℤ)
  | flush

variable (time : D → T) (sensor : D → S)

/-! ### One queue for all -/

/-- Members of `Collator` (collator.h 54-58); a missing entry of `queue_keys_` is the empty list. -/
structure Shared (S D T : Type) where
  queue : Queues S D T
  keys : ℤ → List (Key S)

/-- A new collator. -/
def Shared.init : Shared S D T := ⟨OMQ.init, fun _ => []⟩

/-- The calls: `AddTrajectory` (c.cc 22-34), `AddSensorData` (c.cc 42-46), `FinishTrajectory` (c.cc 36-40) and `Flush` (c.cc 48). -/
def Shared.step (c : Shared S D T) : Call S D → Option (Shared S D T × List (Key S × D))
  | .add j sensors => do
    let q ← OMQ.addQueues c.queue (sensors.map (key j))
    some (⟨q, fun i => if i = j then c.keys j ++ sensors.map (key j) else c.keys i⟩, [])
  | .data j d => do
    let r ← OMQ.add traj time c.queue (key j (sensor d)) d
    some (⟨r.1, c.keys⟩, r.2)
  | .finish j => do
    let r ← OMQ.markAll traj time c.queue (c.keys j)
    some (⟨r.1, c.keys⟩, r.2)
  | .flush => do
    let r ← OMQ.flush traj time c.queue
    some (⟨r.1, c.keys⟩, r.2)

/-- Several calls. -/
def Shared.run (c : Shared S D T) : List (Call S D) → Option (Shared S D T × List (Key S × D))
  | [] => some (c, [])
  | o :: os => do
    let r ← c.step time sensor o
    let r' ← r.1.run os
    some (r'.1, r.2 ++ r'.2)

/-! ### One queue for each trajectory -/

/-- Members of `TrajectoryCollator` (trajectory_collator.h 69-74).  `ids` are the keys of `trajectory_to_queue_`. -/
structure Single (S D T : Type) where
  queues : ℤ → Option (Queues S D T)
  ids : List ℤ
  keys : ℤ → List (Key S)

/-- A new collator. -/
def Single.init : Single S D T := ⟨fun _ => none, [], fun _ => []⟩

/-- The loop of `FinishTrajectory` (tc.cc 43-47): `at` throws if there is no queue for the trajectory. -/
def finishKeys (q : Option (Queues S D T)) : List (Key S) → Option (Option (Queues S D T) × List (Key S × D))
  | [] => some (q, [])
  | k :: ks => do
    let q ← q
    let r ← OMQ.markFinished traj time q k
    let r' ← finishKeys (some r.1) ks
    some (r'.1, r.2 ++ r'.2)

/-- The loop of `Flush` (tc.cc 58-62) over trajectories in some order. -/
def flushAll (queues : ℤ → Option (Queues S D T)) : List ℤ → Option ((ℤ → Option (Queues S D T)) × List (Key S × D))
  | [] => some (queues, [])
  | j :: js => do
    let q ← queues j
    let r ← OMQ.flush traj time q
    let r' ← flushAll (fun i => if i = j then some r.1 else queues i) js
    some (r'.1, r.2 ++ r'.2)

/-- The calls: `AddTrajectory` (tc.cc 28-41), `AddSensorData` (tc.cc 49-56), `FinishTrajectory` and `Flush`.  `order` is the order in which the hash map is
run through.  Without sensors no queue is created (the loop of tc.cc 33-40 has no round). -/
def Single.step (order : List ℤ → List ℤ) (c : Single S D T) : Call S D → Option (Single S D T × List (Key S × D))
  | .add j sensors =>
    if c.queues j ≠ none then none
    else if sensors = [] then some (c, [])
    else do
      let q ← OMQ.addQueues OMQ.init (sensors.map (key j))
      some (⟨fun i => if i = j then some q else c.queues i, c.ids ++ [j], fun i => if i = j then c.keys j ++ sensors.map (key j) else c.keys i⟩, [])
  | .data j d => do
    let q ← c.queues j
    let r ← OMQ.add traj time q (key j (sensor d)) d
    some (⟨fun i => if i = j then some r.1 else c.queues i, c.ids, c.keys⟩, r.2)
  | .finish j => do
    let r ← finishKeys time (c.queues j) (c.keys j)
    some (⟨fun i => if i = j then r.1 else c.queues i, c.ids, c.keys⟩, r.2)
  | .flush => do
    let r ← flushAll time c.queues (order c.ids)
    some (⟨r.1, c.ids, c.keys⟩, r.2)

/-- Several calls. -/
def Single.run (order : List ℤ → List ℤ) (c : Single S D T) : List (Call S D) → Option (Single S D T × List (Key S × D))
  | [] => some (c, [])
  | o :: os => do
    let r ← c.step time sensor order o
    let r' ← r.1.run order os
    some (r'.1, r.2 ++ r'.2)

end Verif.Collators
