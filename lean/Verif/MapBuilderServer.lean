import Verif.SortedMap
import Mathlib.Algebra.Order.Ring.Int

/-!
# The map builder server

/repo/cartographer/cloud/internal/map_builder_server.cc ("mbs"), map_builder_context_impl.h ("mbc") and the handlers in
/repo/cartographer/cloud/internal/handlers ("h/").

Modelled: which client may add data to which trajectory, the way of the data through the queue of incoming data to the
trajectory builders, and the subscriptions to local and global SLAM results.

Simplifications: a handler function, one round of the SLAM thread, finishing a trajectory and telling the subscribers about it
are one step each (the first three hold the lock of the execution context, the last one `subscriptions_lock_`; subscribing and
unsubscribing hold `subscriptions_lock_` and do not touch anything else).  What local SLAM computes from the data is an
argument of the step: the results it reports through the callback, of any trajectory, because the collator is shared.  Whether
the connection of a subscriber takes a message (`Writer::Write`) is an argument, too.  Uploading to another server
(`Verif.Uploader`, `Verif.SlamUpload`) is left out.
-/

namespace Verif.Server

/-- What is sent to a subscriber: a local SLAM result, a global SLAM optimization, or that the trajectory is finished. -/
inductive Msg (R O : Type) where
  | result (r : R)
  | optimized (o : O)
  | finished
deriving DecidableEq

/-- `subscription_id_` of `ReceiveLocalSlamResultsHandler` and `subscription_index_` of
`ReceiveGlobalSlamOptimizationsHandler`. -/
inductive Subscription where
  | localSlam (trajectory : Int) (index : Int)
  | globalSlam (index : Int)
deriving DecidableEq

/-- What a connection listens to. -/
inductive Source where
  | localSlam (trajectory : Int)
  | globalSlam
deriving DecidableEq

/-- What happens, seen from outside (for the specification only). -/
inductive Event (D R O : Type) where
  | addedTrajectory (client : String) (t : Int)
  | sent (client : String) (t : Int) (d : D)
  | published (t : Int) (r : R)
  | optimized (o : O)
  | notifiedFinished (t : Int)
  | subscribed (conn : Nat) (src : Source)
  | closed (conn : Nat)
deriving DecidableEq

/-- The members of `MapBuilderServer` (map_builder_server.h:130-146) and `MapBuilderContext`, the connections, and a record
of what was handed to the trajectory builders, of what was written to the connections and of the events. -/
structure State (D R O : Type) where
  /-- `trajectory_builders_`: whether there is a builder (loaded trajectories have none). -/
  builders : List Bool := []
  clients : List (Int × String) := []
  queue : List (Int × D) := []
  finished : List Int := []
  /-- Trajectories that were finished but whose subscribers were not told yet. -/
  toNotify : List Int := []
  localSubs : List (Int × List (Int × Nat)) := []
  globalSubs : List (Int × Nat) := []
  nextIndex : Int := 0
  /-- Number of connections of subscribers so far. -/
  conns : Nat := 0
  /-- Open connections with the subscription of their handler. -/
  handlers : List (Nat × Subscription) := []
  /-- Data given to trajectory builders, and whether the collator took it. -/
  added : List (Int × D × Bool) := []
  written : List (Nat × Msg R O) := []
  log : List (Event D R O) := []
deriving DecidableEq

variable {D R O : Type}

/-- `CheckClientIdForTrajectory` (mbc:119-124). -/
def owns (s : State D R O) (client : String) (t : Int) : Bool := SMap.get? t s.clients == some client

/-- `local_slam_subscriptions_[trajectory_id]`. -/
def subsOf (s : State D R O) (t : Int) : List (Int × Nat) := (SMap.get? t s.localSubs).getD []

/-- The loops over subscriptions in `OnLocalSlamResult` (mbs:208-226) and `OnGlobalSlamOptimizations` (mbs:232-238): each
callback writes to its connection; if that fails the subscription the loop has just reached is erased from the map (the `CHECK`
holds) and the loop advances its iterator, which is invalid by then: undefined behaviour. -/
def tell (takes : Nat → Bool) (m : Msg R O) : List (Int × Nat) → List (Nat × Msg R O) → Option (List (Nat × Msg R O))
  | [], w => some w
  | (_, c) :: subs, w => if takes c then tell takes m subs (w ++ [(c, m)]) else none

/-- The callback given to local SLAM (mbc:39-56) and `OnLocalSlamResult` (mbs:178-227). -/
def publish (takes : Nat → Bool) (s : State D R O) (x : Int × R) : Option (State D R O) :=
  match SMap.get? x.1 s.clients with
  | none => some s
  | some _ => do
    let w ← tell takes (.result x.2) (subsOf s x.1) s.written
    some { s with written := w, log := s.log ++ [.published x.1 x.2] }

/-- The results local SLAM reports one after the other. -/
def publishAll (takes : Nat → Bool) : State D R O → List (Int × R) → Option (State D R O)
  | s, [] => some s
  | s, x :: xs => (publish takes s x).bind (fun s' => publishAll takes s' xs)

/-- Steps. -/
inductive Act (D R O : Type) where
  | addTrajectory (client : String)
  | load
  | sensorData (client : String) (t : Int) (d : D)
  | slam (kept : Bool) (results : List (Int × R)) (takes : Nat → Bool)
  | finish (client : String) (t : Int) (results : List (Int × R)) (takes : Nat → Bool)
  | notifyFinish (takes : Nat → Bool)
  | optimized (o : O) (takes : Nat → Bool)
  | subscribeLocal (t : Int)
  | subscribeGlobal
  | close (conn : Nat)

/-- One step; `none` is a failing `CHECK`, an exception or undefined behaviour. -/
def exec (s : State D R O) : Act D R O → Option (State D R O)
  /- h/add_trajectory_handler.cc:29-45 with `MapBuilder::AddTrajectoryBuilder` (map_builder.cc:102-166) and
  `RegisterClientIdForTrajectory` (mbc:110-117). -/
  | .addTrajectory client =>
    let t : Int := s.builders.length
    if (SMap.get? t s.clients).isSome then none
    else some { s with
      builders := s.builders ++ [true], clients := SMap.put t client s.clients, log := s.log ++ [.addedTrajectory client t] }
  /- `AddTrajectoryForDeserialization` (map_builder.cc:168-176) in h/load_state_handler.cc. -/
  | .load => some { s with builders := s.builders ++ [false] }
  /- h/add_sensor_data_handler_base.h:34-48 and h/add_sensor_data_batch_handler.cc:37-109 for each item; data of unknown
  trajectories and of other clients is refused. -/
  | .sensorData client t d =>
    let s' := { s with log := s.log ++ [.sent client t d] }
    if owns s client t then some { s' with queue := s.queue ++ [(t, d)] } else some s'
  /- A round of `ProcessSensorDataQueue` (mbs:157-168).  The collator takes the data if the trajectory is not finished; if it
  is, its queue may still be there (`kept`) or not, then the data is ignored (ordered_multi_queue.cc:63-73). -/
  | .slam kept results takes =>
    match s.queue with
    | [] => some s
    | (t, d) :: q =>
      if 0 ≤ t ∧ s.builders[t.toNat]? = some true then
        publishAll takes { s with queue := q, added := s.added ++ [(t, d, decide (t ∉ s.finished) || kept)] } results
      else none
  /- h/finish_trajectory_handler.cc:29-39; `FinishTrajectory` fails a `CHECK` if the trajectory was finished already
  (collator.cc:36-40, ordered_multi_queue.cc:54-61, pose_graph_2d.cc:635-646), and the collator hands out what it has held back. -/
  | .finish client t results takes =>
    if owns s client t then
      if t ∈ s.finished then none
      else publishAll takes { s with finished := s.finished ++ [t], toNotify := s.toNotify ++ [t] } results
    else some s
  /- `NotifyFinishTrajectory` (mbs:274-282); the results of the callbacks are ignored. -/
  | .notifyFinish takes =>
    match s.toNotify with
    | [] => some s
    | t :: ts => some { s with
      toNotify := ts
      written := s.written ++ ((subsOf s t).filter (fun e => takes e.2)).map (fun e => (e.2, .finished))
      log := s.log ++ [.notifiedFinished t] }
  /- `OnGlobalSlamOptimizations` (mbs:229-239). -/
  | .optimized o takes => do
    let w ← tell takes (.optimized o) s.globalSubs s.written
    some { s with written := w, log := s.log ++ [.optimized o] }
  /- `OnRequest` of h/receive_local_slam_results_handler.cc:51-79 with `SubscribeLocalSlamResults` (mbs:241-250). -/
  | .subscribeLocal t => some { s with
      localSubs := SMap.put t (SMap.put s.nextIndex s.conns (subsOf s t)) s.localSubs
      nextIndex := s.nextIndex + 1
      handlers := SMap.put s.conns (.localSlam t s.nextIndex) s.handlers
      conns := s.conns + 1
      log := s.log ++ [.subscribed s.conns (.localSlam t)] }
  /- `OnRequest` of h/receive_global_slam_optimizations_handler.cc:48-69 with `SubscribeGlobalSlamOptimizations`
  (mbs:261-266). -/
  | .subscribeGlobal => some { s with
      globalSubs := SMap.put s.nextIndex s.conns s.globalSubs
      nextIndex := s.nextIndex + 1
      handlers := SMap.put s.conns (.globalSlam s.nextIndex) s.handlers
      conns := s.conns + 1
      log := s.log ++ [.subscribed s.conns .globalSlam] }
  /- `OnFinish` of both handlers with `UnsubscribeLocalSlamResults` (mbs:252-259) and `UnsubscribeGlobalSlamOptimizations`
  (mbs:268-272). -/
  | .close c =>
    match SMap.get? c s.handlers with
    | none => some s
    | some (.localSlam t i) =>
      if (SMap.get? i (subsOf s t)).isSome then
        some { s with
          localSubs := SMap.put t (SMap.erase i (subsOf s t)) s.localSubs
          handlers := SMap.erase c s.handlers
          log := s.log ++ [.closed c] }
      else none
    | some (.globalSlam i) =>
      if (SMap.get? i s.globalSubs).isSome then
        some { s with
          globalSubs := SMap.erase i s.globalSubs
          handlers := SMap.erase c s.handlers
          log := s.log ++ [.closed c] }
      else none

/-- Executions from the start of the server. -/
inductive Exec : List (Act D R O) → State D R O → Prop where
  | nil : Exec [] {}
  | snoc {as : List (Act D R O)} {a : Act D R O} {s s' : State D R O} : Exec as s → exec s a = some s' → Exec (as ++ [a]) s'

end Verif.Server
