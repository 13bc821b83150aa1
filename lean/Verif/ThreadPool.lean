import Mathlib.Logic.Basic

/-!
# Tasks and thread pool

Model of `cartographer/common/task.cc`, `task.h`, `thread_pool.cc`, `thread_pool.h` as a labelled
transition system.  One action is one critical section.  Nested critical sections (a task mutex held
while the mutex of a dependent task and the pool mutex are taken) are one action each; the mutex of a
completing task, which is held over a loop, is modelled explicitly by the program counter `completing`.

A task is named by a natural number (its address).  Client threads are either worker threads inside a
work item or external threads, any number of them.
-/

namespace Verif.ThreadPool

/-- `Task::State` (task.h:34). -/
inductive TState where
  | new | dispatched | depsCompleted | running | completed
  deriving DecidableEq, Repr

/-- Members of `Task` (task.h:65-70).  `uncompleted` is `unsigned int` in C++. -/
structure Task where
  state : TState := .new
  uncompleted : Nat := 0
  dependents : List Nat := []
  deriving DecidableEq, Repr

/-- Program counter of a worker in `DoWork` (thread_pool.cc:79-105) and `Task::Execute`
(task.cc:87-104). -/
inductive Pc where
  /-- at the top of the loop -/
  | top
  /-- `task` popped from the queue (line 95) -/
  | taken (t : Nat)
  /-- in the work item of `t` (task.cc:95-97) -/
  | working (t : Nat)
  /-- holding the mutex of `t` in the loop task.cc:101-103 with these dependents still to be notified -/
  | completing (t : Nat) (rest : List Nat)
  /-- returned (line 98) -/
  | exited
  deriving DecidableEq, Repr

/-- A client call in progress, between its two critical sections. -/
inductive Call where
  /-- `t->AddDependency(d)` before `d->AddDependentTask(t)` (task.cc:49-51) -/
  | addDep (t d : Nat)
  /-- `Schedule(t)` before `SetThreadPool(t)` (thread_pool.cc:74-75) -/
  | sched (t : Nat)
  deriving DecidableEq, Repr

/-- A client thread: a worker inside a work item or an external thread. -/
inductive Actor (W : Type) where
  | ext (n : Nat)
  | wrk (w : W)
  deriving DecidableEq

/-- Observable events. -/
inductive Event where
  | start (t : Nat)
  | finish (t : Nat)
  deriving DecidableEq, Repr

/-- State of all tasks, the pool and the clients.  `deps`, `waiting`, `stamp`, `clock`, `log` are history
variables: declared dependencies, those a task still waits for, scheduling order, events. -/
structure State (W : Type) where
  task : Nat → Task
  notReady : List Nat
  queue : List Nat
  running : Bool
  pc : W → Pc
  calls : List (Actor W × Call)
  deps : Nat → List Nat
  waiting : Nat → List Nat
  stamp : Nat → Nat
  clock : Nat
  log : List Event

/-- After construction (thread_pool.cc:38-45). -/
def init (W : Type) : State W :=
  { task := fun _ => {}, notReady := [], queue := [], running := true, pc := fun _ => .top, calls := []
    deps := fun _ => [], waiting := fun _ => [], stamp := fun _ => 0, clock := 0, log := [] }

variable {W : Type} [DecidableEq W]

/-- Update one task. -/
def State.setTask (s : State W) (t : Nat) (v : Task) : State W :=
  { s with task := fun x => if x = t then v else s.task x }

/-- Update one program counter. -/
def State.setPc (s : State W) (w : W) (p : Pc) : State W :=
  { s with pc := fun x => if x = w then p else s.pc x }

/-- `ThreadPool::NotifyDependenciesCompleted` (thread_pool.cc:58-64); `none` is the failing `CHECK`. -/
def notify (s : State W) (t : Nat) : Option (State W) :=
  if t ∈ s.notReady then some { s with queue := s.queue ++ [t], notReady := s.notReady.erase t }
  else none

/-- `Task::OnDependenyCompleted` (task.cc:76-85) of task `t`, called because `d` completed.  `none` is a
failing `CHECK` or the wrap-around of the unsigned counter. -/
def onDependencyCompleted (s : State W) (t d : Nat) : Option (State W) :=
  let v := s.task t
  if v.state = .new ∨ v.state = .dispatched then
    match v.uncompleted with
    | 0 => none
    | n + 1 =>
      let s1 := { s with waiting := fun x => if x = t then (s.waiting t).erase d else s.waiting x }
      if n = 0 ∧ v.state = .dispatched then
        notify (s1.setTask t { v with uncompleted := n, state := .depsCompleted }) t
      else some (s1.setTask t { v with uncompleted := n })
  else none

/-- The atomic actions. -/
inductive Act (W : Type) where
  /-- `Task::AddDependency` first critical section, the weak pointer is alive (task.cc:42-48) -/
  | addDepBegin (a : Actor W) (t d : Nat)
  /-- `Task::AddDependency`, the weak pointer has expired (task.cc:42-48) -/
  | addDepExpired (a : Actor W) (t d : Nat)
  /-- `Task::AddDependentTask` (task.cc:66-74) -/
  | addDependent (a : Actor W) (t d : Nat)
  /-- `ThreadPool::Schedule` first critical section (thread_pool.cc:68-74) -/
  | schedInsert (a : Actor W) (t : Nat)
  /-- `Task::SetThreadPool` (task.cc:54-64) -/
  | setThreadPool (a : Actor W) (t : Nat)
  /-- pop (thread_pool.cc:90-96) -/
  | take (w : W)
  /-- `CHECK_EQ` of DoWork line 102 and first critical section of `Execute` (task.cc:88-92), start of
  the work item -/
  | begin (w : W)
  /-- the work item returned, state set to COMPLETED (task.cc:99-100) -/
  | finish (w : W)
  /-- one iteration of the loop task.cc:101-103; `std::set<Task*>` order is arbitrary -/
  | notifyDep (w : W) (t : Nat)
  /-- end of `Execute` -/
  | done (w : W)
  /-- return of `DoWork` (line 97-98) -/
  | exit (w : W)
  /-- first critical section of `~ThreadPool` (lines 48-52) -/
  | shutdown

/-- Thread `a` may make client calls: an external thread before the destructor was called, or a worker
inside a work item; and it is not inside another call. -/
def CanCall (s : State W) (a : Actor W) : Prop :=
  (match a with
   | .ext _ => s.running = true
   | .wrk w => ∃ t, s.pc w = .working t) ∧ ∀ c, (a, c) ∉ s.calls

/-- The client still owns `t` (has not called `Schedule`) and no other thread is using it. -/
def Owned (s : State W) (t : Nat) : Prop :=
  (s.task t).state = .new ∧ (∀ a, (a, .sched t) ∉ s.calls) ∧ ∀ a d, (a, .addDep t d) ∉ s.calls

/-- The mutex of task `d` is not held by a completing worker. -/
def Free (s : State W) (d : Nat) : Prop := ∀ w rest, s.pc w ≠ .completing d rest

/-- When an action can take place: program order of the thread, availability of mutexes and await
condition, and the documented obligations of clients: a dependency handed to `AddDependency` was returned
by `Schedule` (thread_pool.h:52-54), it is not declared twice (task.cc:73), the destructor is called when
no external call is in progress and no external call follows it. -/
def Enabled (s : State W) : Act W → Prop
  | .addDepBegin a t d => CanCall s a ∧ Owned s t ∧ (s.task d).state ≠ .new ∧ d ∉ s.deps t
  | .addDepExpired a t d => CanCall s a ∧ Owned s t ∧ d ∉ s.deps t ∧ (s.task d).state = .completed ∧ Free s d
  | .addDependent a t d => (a, .addDep t d) ∈ s.calls ∧ Free s d
  | .schedInsert a t => CanCall s a ∧ Owned s t
  | .setThreadPool a t => (a, .sched t) ∈ s.calls
  | .take w => s.pc w = .top ∧ s.queue ≠ []
  | .begin w => ∃ t, s.pc w = .taken t
  | .finish w => (∃ t, s.pc w = .working t) ∧ ∀ c, (.wrk w, c) ∉ s.calls
  | .notifyDep w t => ∃ d rest, s.pc w = .completing d rest ∧ t ∈ rest ∧ Free s t
  | .done w => ∃ d, s.pc w = .completing d []
  | .exit w => s.pc w = .top ∧ s.queue = [] ∧ s.running = false
  | .shutdown => s.running = true ∧ ∀ n c, (.ext n, c) ∉ s.calls

/-- Effect of an action; `none` is a failing `CHECK` (or the action taken in a wrong control state). -/
def exec (s : State W) : Act W → Option (State W)
  | .addDepBegin a t d =>
    let v := s.task t
    if v.state = .new then
      some { s.setTask t { v with uncompleted := v.uncompleted + 1 } with
        calls := (a, .addDep t d) :: s.calls
        deps := fun x => if x = t then d :: s.deps t else s.deps x
        waiting := fun x => if x = t then d :: s.waiting t else s.waiting x }
    else none
  | .addDepExpired _ t d =>
    if (s.task t).state = .new then
      some { s with deps := fun x => if x = t then d :: s.deps t else s.deps x }
    else none
  | .addDependent a t d =>
    let s1 := { s with calls := s.calls.erase (a, .addDep t d) }
    let v := s.task d
    if v.state = .completed then onDependencyCompleted s1 t d
    else if t ∈ v.dependents then none
    else some (s1.setTask d { v with dependents := t :: v.dependents })
  | .schedInsert a t =>
    if t ∈ s.notReady then none
    else some { s with notReady := t :: s.notReady, calls := (a, .sched t) :: s.calls }
  | .setThreadPool a t =>
    let s1 := { s with calls := s.calls.erase (a, .sched t), clock := s.clock + 1,
                       stamp := fun x => if x = t then s.clock else s.stamp x }
    let v := s.task t
    if v.state = .new then
      if v.uncompleted = 0 then notify (s1.setTask t { v with state := .depsCompleted }) t
      else some (s1.setTask t { v with state := .dispatched })
    else none
  | .take w =>
    match s.queue with
    | [] => none
    | t :: q => some ({ s with queue := q }.setPc w (.taken t))
  | .begin w =>
    match s.pc w with
    | .taken t =>
      let v := s.task t
      if v.state = .depsCompleted then
        some ({ s with log := s.log ++ [Event.start t] }.setTask t { v with state := .running } |>.setPc w (.working t))
      else none
    | _ => none
  | .finish w =>
    match s.pc w with
    | .working t =>
      let v := s.task t
      some ({ s with log := s.log ++ [Event.finish t] }.setTask t { v with state := .completed }
        |>.setPc w (.completing t v.dependents))
    | _ => none
  | .notifyDep w t =>
    match s.pc w with
    | .completing d rest => onDependencyCompleted (s.setPc w (.completing d (rest.erase t))) t d
    | _ => none
  | .done w => some (s.setPc w .top)
  | .exit w => some (s.setPc w .exited)
  | .shutdown => if s.running then some { s with running := false } else none

/-- Reachable states of a pool with workers `W`. -/
inductive Reach : State W → Prop where
  | init : Reach (init W)
  | step {s s' : State W} {a : Act W} : Reach s → Enabled s a → exec s a = some s' → Reach s'

end Verif.ThreadPool
