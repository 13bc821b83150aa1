import Mathlib.Order.Lattice
import Mathlib.Order.BoundedOrder.Basic

/-!
# Ordered multi queue

Model of `cartographer/sensor/internal/ordered_multi_queue.cc` and `.h`.

Types: `K` is `QueueKey` with its order (ordered_multi_queue.h:34-42), `J` the trajectory id, `traj` the
projection `QueueKey::trajectory_id`, `D` the sensor data, `time` the method `Data::GetTime`, `T` the
type `common::Time` (a linear order with least element `Time::min()`).
-/

namespace Verif.OMQ

/-- `OrderedMultiQueue::Queue` (ordered_multi_queue.h:80-84).  The blocking queue is its list of elements,
front first; `callback` is modelled by recording the dispatched element together with its key. -/
structure Queue (D : Type) where
  data : List D
  finished : Bool
  deriving DecidableEq, Repr

/-- Members of `OrderedMultiQueue` (ordered_multi_queue.h:90-95).  `queues` is the `std::map` in key
order.  `blocker` is `none` while the C++ member is uninitialised. -/
structure State (K J D T : Type) where
  last : T
  start : J → Option T
  queues : List (K × Queue D)
  blocker : Option K

variable {K J D T : Type} [LinearOrder K] [DecidableEq J] [LinearOrder T] [OrderBot T]
variable (traj : K → J) (time : D → T)

/-- Initial state (ordered_multi_queue.h:91, ordered_multi_queue.cc:41). -/
def init : State K J D T := ⟨⊥, fun _ => none, [], none⟩

/-- Result of the `for` loop of `Dispatch` (ordered_multi_queue.cc:97-115). -/
inductive Scan (K D : Type) where
  /-- the `CHECK_LE(last_dispatched_time_, ...)` failed -/
  | crash
  /-- `CannotMakeProgress(it->first); return` -/
  | blocked (k : K)
  /-- loop ran to the end with this `next_queue_key`, `next_data` -/
  | next (best : Option (K × D))

/-- The `if` of lines 107-111: strict comparison, so the first queue wins ties. -/
def better (best : Option (K × D)) (k : K) (d : D) : K × D :=
  match best with
  | none => (k, d)
  | some (k', d') => if time d < time d' then (k, d) else (k', d')

/-- The `for` loop of lines 97-115.  Returns the remaining map (finished empty queues are erased while
scanning, also when the scan stops early) and the result. -/
def scan (last : T) : List (K × Queue D) → Option (K × D) → List (K × Queue D) × Scan K D
  | [], best => ([], .next best)
  | (k, q) :: rest, best =>
    match q.data with
    | [] => if q.finished then scan last rest best else ((k, q) :: rest, .blocked k)
    | d :: _ =>
      let best' := better time best k d
      if last ≤ time best'.2 then
        let r := scan last rest (some best')
        ((k, q) :: r.1, r.2)
      else ((k, q) :: rest, .crash)

/-- Replace the element list of queue `k`. -/
def setData (k : K) (data : List D) (qs : List (K × Queue D)) : List (K × Queue D) :=
  qs.map (fun e => if e.1 = k then (e.1, { e.2 with data := data }) else e)

/-- `queue.finished = true` for queue `k` (line 59). -/
def setFinished (k : K) (qs : List (K × Queue D)) : List (K × Queue D) :=
  qs.map (fun e => if e.1 = k then (e.1, { e.2 with finished := true }) else e)

/-- `queues_.find(queue_key)`. -/
def find (k : K) (qs : List (K × Queue D)) : Option (Queue D) :=
  (qs.find? (fun e => e.1 == k)).map Prod.snd

/-- `GetCommonStartTime` (lines 161-176), the value computed on first use: maximum, starting from
`Time::min()`, of the head times of the queues of this trajectory.  `Peek` returning null would be
dereferenced (undefined behaviour): `none`. -/
def computeStart (j : J) : List (K × Queue D) → Option T
  | [] => some ⊥
  | (k, q) :: rest =>
    if traj k = j then
      match q.data with
      | [] => none
      | d :: _ => (computeStart j rest).map (max (time d))
    else computeStart j rest

/-- `GetCommonStartTime` (lines 161-176): memoised per trajectory. -/
def commonStart (start : J → Option T) (j : J) (qs : List (K × Queue D)) : Option T :=
  match start j with
  | some t => some t
  | none => computeStart traj time j qs

/-- One iteration of the `while (true)` of `Dispatch` (lines 93-148). -/
inductive Iter (K J D T : Type) where
  /-- a `CHECK` failed or undefined behaviour -/
  | crash
  /-- `Dispatch` returns -/
  | stop (s : State K J D T)
  /-- loop continues; `out` is the data handed to a callback, if any -/
  | cont (s : State K J D T) (out : Option (K × D))

/-- Body of the `while (true)` loop (lines 94-147). -/
def iter (s : State K J D T) : Iter K J D T :=
  match scan time s.last s.queues none with
  | (_, .crash) => .crash
  | (qs, .blocked k) => .stop { s with queues := qs, blocker := some k }
  | (qs, .next none) => if qs.isEmpty then .stop { s with queues := qs } else .crash
  | (qs, .next (some (k, d))) =>
    match commonStart traj time s.start (traj k) qs with
    | none => .crash
    | some cst =>
      let s1 : State K J D T :=
        { s with queues := qs, start := fun j => if j = traj k then some cst else s.start j }
      match find k qs with
      | none => .crash
      | some q =>
        let pop := setData k q.data.tail qs
        if cst ≤ time d then
          .cont { s1 with last := time d, queues := pop } (some (k, d))
        else if q.data.length < 2 then
          if q.finished then
            .cont { s1 with last := time d, queues := pop } (some (k, d))
          else .stop { s1 with blocker := some k }
        else
          match q.data.tail with
          | [] => .crash
          | d2 :: _ =>
            if cst < time d2 then
              .cont { s1 with last := time d, queues := pop } (some (k, d))
            else .cont { s1 with queues := pop } none

/-- Total number of queued elements (termination measure of the loop). -/
def total (qs : List (K × Queue D)) : Nat := (qs.map (fun e => e.2.data.length)).sum

/-- `Dispatch` (lines 92-149), with `fuel` bounding the number of loop iterations; `none` means crash.
`dispatch` below supplies enough fuel (`Verif.OMQ.dispatchFuel_stable`). -/
def dispatchFuel : Nat → State K J D T → Option (State K J D T × List (K × D))
  | 0, _ => none
  | n + 1, s =>
    match iter traj time s with
    | .crash => none
    | .stop s' => some (s', [])
    | .cont s' out => (dispatchFuel n s').map (fun r => (r.1, out.toList ++ r.2))

/-- `Dispatch`. Every iteration that continues removes one element, so `total + 1` iterations suffice. -/
def dispatch (s : State K J D T) : Option (State K J D T × List (K × D)) :=
  dispatchFuel traj time (total s.queues + 1) s

/-- Insert into the map at its place in key order. -/
def insertKey (k : K) (q : Queue D) : List (K × Queue D) → List (K × Queue D)
  | [] => [(k, q)]
  | e :: rest => if k < e.1 then (k, q) :: e :: rest else e :: insertKey k q rest

/-- `AddQueue` (lines 49-52); `none` is the failing `CHECK_EQ`. -/
def addQueue (s : State K J D T) (k : K) : Option (State K J D T) :=
  match find k s.queues with
  | some _ => none
  | none => some { s with queues := insertKey k ⟨[], false⟩ s.queues }

/-- `MarkQueueAsFinished` (lines 54-61); `none` is a failing `CHECK`. -/
def markFinished (s : State K J D T) (k : K) : Option (State K J D T × List (K × D)) :=
  match find k s.queues with
  | none => none
  | some q =>
    if q.finished then none
    else dispatch traj time { s with queues := setFinished k s.queues }

/-- `Add` (lines 63-73): data for an unknown queue is ignored. -/
def add (s : State K J D T) (k : K) (d : D) : Option (State K J D T × List (K × D)) :=
  match find k s.queues with
  | none => some (s, [])
  | some q => dispatch traj time { s with queues := setData k (q.data ++ [d]) s.queues }

/-- The loop of `Flush` (lines 82-84). -/
def markAll (s : State K J D T) : List K → Option (State K J D T × List (K × D))
  | [] => some (s, [])
  | k :: ks =>
    (markFinished traj time s k).bind fun r =>
      (markAll r.1 ks).map fun r' => (r'.1, r.2 ++ r'.2)

/-- `Flush` (lines 75-85). -/
def flush (s : State K J D T) : Option (State K J D T × List (K × D)) :=
  markAll traj time s ((s.queues.filter (fun e => !e.2.finished)).map Prod.fst)

/-- The public operations that can dispatch data. -/
inductive Op (K D : Type) where
  | add (k : K) (d : D)
  | finish (k : K)
  | flush

/-- Execute one operation. -/
def step (s : State K J D T) : Op K D → Option (State K J D T × List (K × D))
  | .add k d => add traj time s k d
  | .finish k => markFinished traj time s k
  | .flush => flush traj time s

/-- Execute a history; the outputs are the callbacks made, in order. -/
def run (s : State K J D T) : List (Op K D) → Option (State K J D T × List (K × D))
  | [] => some (s, [])
  | o :: os =>
    (step traj time s o).bind fun r => (run r.1 os).map fun r' => (r'.1, r.2 ++ r'.2)

/-- Registering a list of queues (as `Collator::AddTrajectory`, collator.cc:22-34, and
`TrajectoryCollator::AddTrajectory`, trajectory_collator.cc:28-41 do). -/
def addQueues (s : State K J D T) : List K → Option (State K J D T)
  | [] => some s
  | k :: ks => (addQueue s k).bind fun s => addQueues s ks

end Verif.OMQ
