import Mathlib.Logic.Basic

/-!
# Work queue of the pose graph

Model of `AddWorkItem`, `DrainWorkQueue`, `HandleWorkQueue` and `WaitForAllComputations` of
`cartographer/mapping/internal/2d/pose_graph_2d.cc` (the 3D pose graph has the same functions) as a labelled transition
system.  One action is one critical section of `work_queue_mutex_` or of the mutex of the constraint builder, or the begin or
end of a work item or of an optimization.

The thread pool is represented by what it guarantees (see `Verif.ThreadPool`): a scheduled task is started at most once, at any
later time, by some thread.  The constraint builder is represented by `when_done_`: `WhenDone` registers a callback and aborts if
there is one already; later the callback is taken out and run once (see `Verif.Builder`).
-/

namespace Verif.WorkQueue

/-- Program counter of a thread inside `DrainWorkQueue` or `HandleWorkQueue`. -/
inductive Pc where
  /-- at the top of the loop of `DrainWorkQueue` (pose_graph_2d.cc:523) -/
  | top
  /-- `work_item` taken from the queue, not started (line 535) -/
  | taken (i : Nat)
  /-- in the work item (line 536) -/
  | run (i : Nat)
  /-- left the loop, before `WhenDone` (line 538) -/
  | request
  /-- at the begin of `HandleWorkQueue` (line 444) -/
  | handle
  /-- after the begin of the optimization (lines 451-516) -/
  | optimize
  deriving DecidableEq, Repr

/-- Who registered the callback of the constraint builder: `DrainWorkQueue` (line 540) or `WaitForAllComputations` (line
589). -/
inductive Callback where
  | handleWorkQueue
  | notifyWaiter
  deriving DecidableEq, Repr

/-- Program counter of the thread inside `WaitForAllComputations`. -/
inductive Waiter where
  /-- not in the function -/
  | out
  /-- waiting for the queue to become null (lines 578-583) -/
  | await
  /-- past the first wait (line 586) -/
  | drained
  /-- callback registered, waiting for the notification (lines 601-604) -/
  | registered
  /-- notified -/
  | notified
  deriving DecidableEq, Repr

/-- Observable events. -/
inductive Event where
  | start (i : Nat)
  /-- the work item returned, `true` is `kRunOptimization` -/
  | finish (i : Nat) (opt : Bool)
  | optBegin
  | optEnd
  deriving DecidableEq, Repr

/-- The state.  Work items are numbered in the order of their addition.  `queue` is `work_queue_` (a `unique_ptr`), `scheduled`
the number of scheduled tasks which call `DrainWorkQueue` and have not been started, `threads` the threads inside
`DrainWorkQueue` or `HandleWorkQueue`.  `added` (number of items added) and `log` are history variables. -/
structure State where
  queue : Option (List Nat)
  scheduled : Nat
  threads : List Pc
  whenDone : Option Callback
  waiter : Waiter
  added : Nat
  log : List Event

/-- After construction. -/
def init : State :=
  { queue := none, scheduled := 0, threads := [], whenDone := none, waiter := .out, added := 0, log := [] }

/-- The atomic actions; `k` is the index of a thread in `threads`. -/
inductive Act where
  /-- `AddWorkItem` (lines 174-190), by any thread -/
  | add
  /-- a scheduled task is started by the pool: `DrainWorkQueue` is entered (line 180) -/
  | startDrain
  /-- the critical section in the loop (lines 525-535) -/
  | pop (k : Nat)
  /-- begin of the work item (line 536) -/
  | beginItem (k : Nat)
  /-- the work item returns (line 536) -/
  | endItem (k : Nat) (opt : Bool)
  /-- `WhenDone` in `DrainWorkQueue` (line 540) -/
  | requestWhenDone (k : Nat)
  /-- the constraint builder takes out the callback and runs it (constraint_builder_2d.cc:279-300) -/
  | runCallback
  /-- begin of `RunOptimization` (line 451) -/
  | beginOptimization (k : Nat)
  /-- end of the work of `HandleWorkQueue` before it calls `DrainWorkQueue` (line 517) -/
  | endOptimization (k : Nat)
  /-- call of `WaitForAllComputations` (line 546) -/
  | enterWait
  /-- the first wait is over: the queue is null (lines 574-584) -/
  | waitDrained
  /-- `WhenDone` in `WaitForAllComputations` (line 589) -/
  | waitRegister
  /-- the notification was seen (line 605) -/
  | leaveWait
  deriving DecidableEq, Repr

/-- When an action can take place. -/
def Enabled (s : State) : Act → Prop
  | .add => True
  | .startDrain => 0 < s.scheduled
  | .pop k => s.threads[k]? = some .top
  | .beginItem k => ∃ i, s.threads[k]? = some (.taken i)
  | .endItem k _ => ∃ i, s.threads[k]? = some (.run i)
  | .requestWhenDone k => s.threads[k]? = some .request
  | .runCallback => s.whenDone ≠ none
  | .beginOptimization k => s.threads[k]? = some .handle
  | .endOptimization k => s.threads[k]? = some .optimize
  | .enterWait => s.waiter = .out
  | .waitDrained => s.waiter = .await ∧ s.queue = none
  | .waitRegister => s.waiter = .drained
  | .leaveWait => s.waiter = .notified

/-- `AddWorkItem` (lines 174-190). -/
def addWorkItem (s : State) : State :=
  let s1 := match s.queue with
    | none => { s with
        queue := some []
        scheduled := s.scheduled + 1 }
    | some _ => s
  { s1 with
    queue := s1.queue.map (· ++ [s.added])
    added := s.added + 1 }

/-- The critical section of `DrainWorkQueue` (lines 525-535); dereferencing a null `work_queue_` is undefined: `none`. -/
def popItem (s : State) (k : Nat) : Option State :=
  match s.queue with
  | none => none
  | some [] => some { s with
      queue := none
      threads := s.threads.eraseIdx k }
  | some (i :: is) => some { s with
      queue := some is
      threads := s.threads.set k (.taken i) }

/-- Effect of an action; `none` is a failing `CHECK` or undefined behaviour. -/
def exec (s : State) : Act → Option State
  | .add => some (addWorkItem s)
  | .startDrain => some { s with
      scheduled := s.scheduled - 1
      threads := s.threads ++ [.top] }
  | .pop k => popItem s k
  | .beginItem k =>
    match s.threads[k]? with
    | some (.taken i) => some { s with
        threads := s.threads.set k (.run i)
        log := s.log ++ [.start i] }
    | _ => none
  | .endItem k opt =>
    match s.threads[k]? with
    | some (.run i) => some { s with
        threads := s.threads.set k (if opt then .request else .top)
        log := s.log ++ [.finish i opt] }
    | _ => none
  | .requestWhenDone k =>
    if s.whenDone = none then some { s with
        whenDone := some .handleWorkQueue
        threads := s.threads.eraseIdx k }
    else none
  | .runCallback =>
    match s.whenDone with
    | none => none
    | some .handleWorkQueue => some { s with
        whenDone := none
        threads := s.threads ++ [.handle] }
    | some .notifyWaiter => some { s with
        whenDone := none
        waiter := .notified }
  | .beginOptimization k => some { s with
      threads := s.threads.set k .optimize
      log := s.log ++ [.optBegin] }
  | .endOptimization k => some { s with
      threads := s.threads.set k .top
      log := s.log ++ [.optEnd] }
  | .enterWait => some { s with waiter := .await }
  | .waitDrained => some { s with waiter := .drained }
  | .waitRegister =>
    if s.whenDone = none then some { s with
        whenDone := some .notifyWaiter
        waiter := .registered }
    else none
  | .leaveWait => some { s with waiter := .out }

/-- Finite executions: `Exec s as t` performs the actions `as`. -/
inductive Exec : State → List Act → State → Prop
  | nil (s : State) : Exec s [] s
  | cons {s t u : State} {a : Act} {as : List Act} : Enabled s a → exec s a = some t → Exec t as u → Exec s (a :: as) u

end Verif.WorkQueue
