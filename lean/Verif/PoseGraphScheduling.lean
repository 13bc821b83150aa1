import Verif.WorkQueue
import Verif.ConstraintBuilder

/-!
# Pose graph with its constraint builder

The work queue of `cartographer/mapping/internal/2d/pose_graph_2d.cc` (`Verif.WorkQueue`) and the constraint builder it uses
(`Verif.Builder`), composed: the calls which the pose graph makes take place where the pose graph makes them.

* `MaybeAddConstraint`, `MaybeAddGlobalConstraint` and `NotifyEndOfNode` are called in the work items of `AddNode` only
  (`ComputeConstraint` 302-309 and `ComputeConstraintsForNode` 394); each such item calls `NotifyEndOfNode` once, after the
  searches it starts.
* `WhenDone` is called by `DrainWorkQueue` (line 540) and by `WaitForAllComputations` (line 589).
* The callback is run by the task of the constraint builder (constraint_builder_2d.cc:279-300).
* `DeleteScanMatcher` is called by trimmers only (lines 1274, 1282), while `HandleWorkQueue` runs.
* `num_trajectory_nodes` is incremented in `AppendNode` (line 138) before the work item is added (line 167), and compared with
  the number of finished nodes at the end of `WaitForAllComputations` (line 605).
-/

namespace Verif.PoseGraphScheduling

/-- The state.  `nodes` is `data_.num_trajectory_nodes`; `calls` is the number of calls of `AddNode` between `AppendNode` and
`AddWorkItem`; `isNode i`: item `i` was added by `AddNode`; `hasNotified`: the last item begun has called `NotifyEndOfNode`;
`saved` is the local variable `num_trajectory_nodes` of `WaitForAllComputations` (line 547). -/
structure State (R : Type) where
  q : WorkQueue.State
  b : Builder.State R
  nodes : Nat
  calls : Nat
  isNode : Nat → Bool
  hasNotified : Bool
  saved : Nat

/-- After construction. -/
def init (R : Type) : State R :=
  { q := WorkQueue.init, b := Builder.init R, nodes := 0, calls := 0, isNode := fun _ => false, hasNotified := false, saved := 0 }

variable {R : Type}

/-- The atomic actions. -/
inductive Act (R : Type) where
  /-- `AppendNode`, called by `AddNode` (lines 161, 131-152) -/
  | appendNode
  /-- `AddWorkItem`, called by `AddNode` (line 167) -/
  | addNodeItem
  /-- `AddWorkItem`, called by any other function -/
  | addItem
  /-- another action of the work queue -/
  | queue (a : WorkQueue.Act)
  /-- thread `k`, in a work item, starts a search -/
  | search (k submap : Nat)
  /-- thread `k`, in a work item, notifies the end of the node -/
  | notify (k : Nat)
  /-- thread `k`, in `HandleWorkQueue`, trims a submap -/
  | trim (k submap : Nat)
  /-- the pool begins a task of the constraint builder -/
  | begin (t : Nat)
  /-- a task of the constraint builder ends -/
  | finish (t : Nat) (r : Option R)

/-- When an action can take place.  `add` and `runCallback` of the work queue are parts of other actions. -/
def Enabled (s : State R) : Act R → Prop
  | .appendNode => True
  | .addNodeItem => 0 < s.calls
  | .addItem => True
  | .queue .add => False
  | .queue .runCallback => False
  | .queue (.endItem k _) => ∃ i, s.q.threads[k]? = some (.run i) ∧ s.isNode i = s.hasNotified
  | .queue a => WorkQueue.Enabled s.q a
  | .search k _ => ∃ i, s.q.threads[k]? = some (.run i) ∧ s.isNode i = true ∧ s.hasNotified = false
  | .notify k => ∃ i, s.q.threads[k]? = some (.run i) ∧ s.isNode i = true ∧ s.hasNotified = false
  | .trim k _ => s.q.threads[k]? = some .optimize
  | .begin t => Builder.Enabled s.b (.begin t)
  | .finish t r => Builder.Enabled s.b (.finish t r)

/-- What an action is for the work queue. -/
def queueAct (s : State R) : Act R → Option WorkQueue.Act
  | .addNodeItem => some .add
  | .addItem => some .add
  | .queue a => some a
  | .begin t => if s.b.kind t = .whenDone then some .runCallback else none
  | _ => none

/-- What an action is for the constraint builder. -/
def builderAct : Act R → Option (Builder.Act R)
  | .queue (.requestWhenDone _) => some .callWhenDone
  | .queue .waitRegister => some .callWhenDone
  | .search _ submap => some (.addSearch submap)
  | .notify _ => some .notifyEndOfNode
  | .trim _ submap => some (.deleteScanMatcher submap)
  | .begin t => some (.begin t)
  | .finish t r => some (.finish t r)
  | _ => none

/-- Effect on the work queue. -/
def execQueue (q : WorkQueue.State) : Option WorkQueue.Act → Option WorkQueue.State
  | some a => WorkQueue.exec q a
  | none => some q

/-- Effect on the constraint builder. -/
noncomputable def execBuilder (b : Builder.State R) : Option (Builder.Act R) → Option (Builder.State R)
  | some a => Builder.exec b a
  | none => some b

/-- Effect on the other members; `none` is the failing `CHECK_EQ` in line 605. -/
def execRest (s : State R) : Act R → Option (State R)
  | .appendNode => some { s with
      nodes := s.nodes + 1
      calls := s.calls + 1 }
  | .addNodeItem => some { s with
      calls := s.calls - 1
      isNode := Builder.upd s.isNode s.q.added true }
  | .addItem => some { s with isNode := Builder.upd s.isNode s.q.added false }
  | .queue (.beginItem _) => some { s with hasNotified := false }
  | .queue .enterWait => some { s with saved := s.nodes }
  | .queue .leaveWait => if s.b.numFinished = s.saved then some s else none
  | .notify _ => some { s with hasNotified := true }
  | _ => some s

/-- Effect of an action; `none` is a failing `CHECK` or undefined behaviour in any part. -/
noncomputable def exec (s : State R) (a : Act R) : Option (State R) :=
  match execQueue s.q (queueAct s a), execBuilder s.b (builderAct a), execRest s a with
  | some q, some b, some r => some { r with
      q := q
      b := b }
  | _, _, _ => none

/-- Finite executions. -/
inductive Exec : State R → List (Act R) → State R → Prop
  | nil (s : State R) : Exec s [] s
  | cons {s t u : State R} {a : Act R} {as : List (Act R)} : Enabled s a → exec s a = some t → Exec t as u → Exec s (a :: as) u

end Verif.PoseGraphScheduling
