import Verif.DenseMap
import Verif.PoseGraphInvariant

/-!
# How local SLAM uses the pose graph

`Verif.PoseGraph` lets its callers do anything.  Here its callers are trajectory builders, as in `MapBuilder` without loading,
freezing, deleting and trimming: `GlobalTrajectoryBuilder` calls `AddNode` with the submaps of `ActiveSubmaps2D`/`3D`
(global_trajectory_builder.cc:69-80), adds other sensor data (89-125), and `MapBuilder::FinishTrajectory`
(map_builder.cc:178-181) comes last.  Calls for one trajectory are made one after the other, calls for different trajectories
may overlap in any way.
-/

namespace Verif.PoseGraph

open MapById

variable {V : Type}

/-- The number of submaps after `k` range data: one is started with every `n`-th (submap_2d.cc:161-166, submap_3d.cc:310-318). -/
def submapCount (n k : Nat) : Nat := (k + n - 1) / n

/-- The submaps range data number `k` is inserted into (what `InsertRangeData` returns, submap_2d.cc:161-174). -/
def windowOf (n k : Nat) : List Nat := if k < n then [0] else [k / n - 1, k / n]

/-- With range data number `k` a submap gets its `2 * n`-th range data and is finished (submap_2d.cc:170-172),
which `AddNode` looks at (pg2d:164-165). -/
def fills (n k : Nat) : Bool := decide (n ∣ k + 1 ∧ 2 * n ≤ k + 1)

/-- The trajectories: after how many range data a new submap is started (`num_range_data`) and the submap objects. -/
structure Setup where
  n : Int → Nat
  ptr : Int → Nat → Nat
  pos : ∀ t, 0 < n t
  ne : ∀ t i, ptr t i ≠ ptr t (i + 1)

/-- The number of nodes added to trajectory `t`. -/
def adds (as : List (Act V)) (t : Int) : Nat :=
  as.countP (fun a => match a with
    | .addNode u _ _ => decide (u = t)
    | _ => false)

/-- `FinishTrajectory` has been called for trajectory `t`. -/
def posted (as : List (Act V)) (t : Int) : Bool :=
  as.any (fun a => match a with
    | .post (.finish u) => decide (u = t)
    | _ => false)

/-- The trajectory whose caller adds the item. -/
def Item.traj : Item V → Int
  | .computeConstraints node _ _ => node.1
  | .data t => t
  | .finish t => t
  | .freeze t => t
  | .delete t => t
  | .submapFromProto id => id.1
  | .nodeFromProto id => id.1
  | .nodeToSubmap _ id => id.1
  | .serialized _ => 0
  | .addTrimmer _ => 0

/-- What the callers do: nodes come with the submaps local SLAM has, nothing is added after `FinishTrajectory`, which is
called once, and no call overtakes another one for the same trajectory.  The worker, the constraint builder and the
optimization do what they want; a node gets a transform for each of its submaps. -/
def Orderly (S : Setup) (as : List (Act V)) (s : State V) : Act V → Prop
  | .addNode t ins nf => 0 ≤ t ∧ posted as t = false ∧ ins = (windowOf (S.n t) (adds as t)).map (S.ptr t) ∧
      nf = fills (S.n t) (adds as t)
  | .post (.data t) => posted as t = false
  | .post (.finish t) => posted as t = false
  | .post _ => False
  | .addSubmapFromProto .. => False
  | .addNodeFromProto .. => False
  | .deleteTrajectory _ => False
  | .enqueue k => ∀ j < k, ∀ x y, s.inflight[j]? = some x → s.inflight[k]? = some y → x.traj ≠ y.traj
  | .run poses => 2 ≤ poses.length
  | .search _ => True
  | .endSearch => True
  | .optimize _ => True
  | .trim _ => True

/-- What is watched: the calls (node, submap) of `ComputeConstraint`, and how many nodes of each trajectory the optimization
problem knew when `FinishTrajectory` took effect for a trajectory. -/
structure Seen where
  asked : List (Id × Id) := []
  atFinish : Int → Int → Nat := fun _ _ => 0

/-- Watching a step. -/
def observe (s : State V) (seen : Seen) : Act V → Seen
  | .search _ =>
    match s.worker with
    | .searching (p :: _) => { seen with asked := seen.asked ++ [p] }
    | _ => seen
  | .run _ =>
    match s.queue with
    | .finish t :: _ => { seen with
        atFinish := fun v u => if v = t then sizeOfTrajectoryOrZero s.optNodes u else seen.atFinish v u }
    | _ => seen
  | _ => seen

/-- Watched executions from the empty pose graph. -/
inductive OExec (S : Setup) : List (Act V) → Seen → State V → Prop where
  | nil : OExec S [] {} {}
  | snoc {as seen s a s'} : OExec S as seen s → Enabled s a → Orderly S as s a → exec s a = some s' →
      OExec S (as ++ [a]) (observe s seen a) s'

theorem OExec.exec {S : Setup} {as : List (Act V)} {seen : Seen} {s : State V} (h : OExec S as seen s) :
    Exec {} as s := by
  induction h with
  | nil => exact .nil
  | snoc _ he _ hx ih => exact .snoc ih he hx

end Verif.PoseGraph
