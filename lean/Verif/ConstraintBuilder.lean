import Mathlib.Logic.Basic

/-!
# Constraint builder

Model of the scheduling logic of `cartographer/mapping/internal/constraints/constraint_builder_2d.cc` (the 3D builder has the same
structure) as a labelled transition system.  One action is one critical section of `mutex_`, or the begin or the end of a task.

The thread pool is represented by what it guarantees (see `Verif.ThreadPool`): a scheduled task whose dependencies have completed
is begun at most once, at any later time, concurrently with anything else.  The scan matching itself is represented by its
result, which is arbitrary.  Not modelled: metrics, the score histogram, the sampling (whether `MaybeAddConstraint` does anything
is the choice of the client), the distance test.
-/

namespace Verif.Builder

/-- What a task does.  A scan matcher is named by the task which constructs it. -/
inductive Kind where
  /-- lines 177-182 -/
  | construct
  /-- lines 103-107, 128-132: computes the constraint at position `slot` with scan matcher `m` -/
  | search (slot m : Nat)
  /-- lines 142-145 -/
  | finishNode
  /-- line 160 -/
  | whenDone
  deriving DecidableEq, Repr

/-- State of a task: not yet handed to the pool, handed to the pool, work item begun, completed. -/
inductive Status where
  | new | scheduled | running | done
  deriving DecidableEq, Repr

/-- The state.  `constraints` is `constraints_`: each element with its number.  `numSlots` (searches started), `notified` (searches
started before the last `NotifyEndOfNode`), `requested` (searches notified before the last `WhenDone`), `cleared` (searches
started before the last callback), `searchTask`, `found`, `pending` (task of the last `WhenDone`), `requests`, `results` (what the
callbacks got) are history variables. -/
structure State (R : Type) where
  kind : Nat → Kind
  deps : Nat → List Nat
  status : Nat → Status
  numTasks : Nat
  constraints : List (Nat × Option R)
  finishTask : Nat
  whenDoneTask : Nat
  whenDone : Bool
  matcher : Nat → Option Nat
  ready : Nat → Bool
  numStarted : Nat
  numFinished : Nat
  numSlots : Nat
  notified : Nat
  requested : Nat
  cleared : Nat
  searchTask : Nat → Nat
  found : Nat → Option R
  pending : Nat
  requests : Nat
  results : List (List R)

/-- After construction (constraint_builder_2d.cc:56-65): two empty tasks. -/
def init (R : Type) : State R :=
  { kind := fun t => if t = 0 then .finishNode else .whenDone, deps := fun _ => [], status := fun _ => .new, numTasks := 2
    constraints := [], finishTask := 0, whenDoneTask := 1, whenDone := false, matcher := fun _ => none, ready := fun _ => false
    numStarted := 0, numFinished := 0, numSlots := 0, notified := 0, requested := 0, cleared := 0, searchTask := fun _ => 0
    found := fun _ => none, pending := 0, requests := 0, results := [] }

variable {R : Type}

/-- Function update. -/
def upd {α : Type} (f : Nat → α) (a : Nat) (b : α) : Nat → α := fun x => if x = a then b else f x

/-- The atomic actions. -/
inductive Act (R : Type) where
  /-- `MaybeAddConstraint` or `MaybeAddGlobalConstraint` for a submap, when a search is started (lines 92-111, 117-136) -/
  | addSearch (submap : Nat)
  /-- `NotifyEndOfNode` (lines 139-151) -/
  | notifyEndOfNode
  /-- `WhenDone` (lines 153-163) -/
  | callWhenDone
  /-- `DeleteScanMatcher` (lines 307-316) -/
  | deleteScanMatcher (submap : Nat)
  /-- the pool begins a task -/
  | begin (t : Nat)
  /-- a task ends; `r` is the result of a search -/
  | finish (t : Nat) (r : Option R)

/-- When an action can take place. -/
def Enabled (s : State R) : Act R → Prop
  | .begin t => t < s.numTasks ∧ s.status t = .scheduled ∧ ∀ d ∈ s.deps t, s.status d = .done
  | .finish t _ => t < s.numTasks ∧ s.status t = .running
  | _ => True

/-- `DispatchScanMatcherConstruction` (lines 165-186). -/
def dispatch (s : State R) (submap : Nat) : State R × Nat :=
  match s.matcher submap with
  | some m => (s, m)
  | none =>
    ({ s with
       kind := upd s.kind s.numTasks .construct
       deps := upd s.deps s.numTasks []
       status := upd s.status s.numTasks .scheduled
       matcher := upd s.matcher submap (some s.numTasks)
       ready := upd s.ready s.numTasks false
       numTasks := s.numTasks + 1 }, s.numTasks)

/-- `MaybeAddConstraint` (lines 92-111). -/
def addSearch (s : State R) (submap : Nat) : State R :=
  let d := dispatch { s with constraints := s.constraints ++ [(s.numSlots, none)] } submap
  let s1 := d.1
  let m := d.2
  let t := s1.numTasks
  { s1 with
    kind := upd s1.kind t (.search s.numSlots m)
    status := upd s1.status t .scheduled
    numTasks := t + 1
    deps := upd (upd s1.deps t [m]) s1.finishTask (s1.deps s1.finishTask ++ [t])
    searchTask := upd s1.searchTask s.numSlots t
    numSlots := s.numSlots + 1 }

/-- `NotifyEndOfNode` (lines 139-151). -/
def notifyEndOfNode (s : State R) : State R :=
  let t := s.numTasks
  { s with
    status := upd (upd s.status s.finishTask .scheduled) t .new
    kind := upd s.kind t .finishNode
    deps := upd (upd s.deps s.whenDoneTask (s.deps s.whenDoneTask ++ [s.finishTask])) t []
    finishTask := t
    numTasks := t + 1
    numStarted := s.numStarted + 1
    notified := s.numSlots }

/-- `WhenDone` (lines 153-163); `none` is the failing `CHECK`. -/
def callWhenDone (s : State R) : Option (State R) :=
  if s.whenDone then none
  else
    let t := s.numTasks
    some { s with
      whenDone := true
      status := upd (upd s.status s.whenDoneTask .scheduled) t .new
      kind := upd s.kind t .whenDone
      deps := upd s.deps t []
      whenDoneTask := t
      numTasks := t + 1
      pending := s.whenDoneTask
      requested := s.notified
      requests := s.requests + 1 }

/-- The scan matcher `m` has not been deleted. -/
def Alive (s : State R) (m : Nat) : Prop := ∃ submap, s.matcher submap = some m

open Classical in
/-- The begin of a task, with the critical section of `RunWhenDoneCallback` (lines 283-298); `none` is a failing `CHECK` (lines 195,
284) or the use of a deleted scan matcher. -/
noncomputable def beginTask (s : State R) (t : Nat) : Option (State R) :=
  let s1 := { s with status := upd s.status t .running }
  match s.kind t with
  | .construct => some s1
  | .search _ m => if Alive s m ∧ s.ready m = true then some s1 else none
  | .finishNode => some s1
  | .whenDone =>
    if s.whenDone then some { s1 with
        results := s.results ++ [s.constraints.filterMap Prod.snd]
        constraints := []
        cleared := s.numSlots
        whenDone := false }
    else none

open Classical in
/-- The end of a task; `none` is the use of a deleted scan matcher, or writing to an element of `constraints_` which was removed
(undefined behaviour). -/
noncomputable def finishTask (s : State R) (t : Nat) (r : Option R) : Option (State R) :=
  let s1 := { s with status := upd s.status t .done }
  match s.kind t with
  | .construct => if Alive s t then some { s1 with ready := upd s.ready t true } else none
  | .search slot m =>
    if Alive s m then
      match r with
      | none => some s1
      | some v =>
        if slot ∈ s.constraints.map Prod.fst then some { s1 with
            constraints := s.constraints.map fun e => if e.1 = slot then (e.1, some v) else e
            found := upd s.found slot (some v) }
        else none
    else none
  | .finishNode => some { s1 with numFinished := s.numFinished + 1 }
  | .whenDone => some s1

/-- Effect of an action; `none` is a failing `CHECK` or undefined behaviour. -/
noncomputable def exec (s : State R) : Act R → Option (State R)
  | .addSearch submap => some (addSearch s submap)
  | .notifyEndOfNode => some (notifyEndOfNode s)
  | .callWhenDone => callWhenDone s
  | .deleteScanMatcher submap => some { s with matcher := upd s.matcher submap none }
  | .begin t => beginTask s t
  | .finish t r => finishTask s t r

/-- Finite executions. -/
inductive Exec : State R → List (Act R) → State R → Prop
  | nil (s : State R) : Exec s [] s
  | cons {s t u : State R} {a : Act R} {as : List (Act R)} : Enabled s a → exec s a = some t → Exec t as u → Exec s (a :: as) u

end Verif.Builder
