import Verif.LoadWhileRunning
import Verif.LocalSlamGraph

/-!
# Localization in a loaded map

How `MapBuilder` uses the pose graph for localization: maps are loaded (cartographer/mapping/map_builder.cc 216-384, `Verif.Loading`), trajectories are added and get nodes from local SLAM
(global_trajectory_builder.cc 53-125, `Verif.LocalSlamGraph`), each with or without a `PureLocalizationTrimmer` (map_builder.cc 56-73, 146-147), and are finished (map_builder.cc 178-181).
All this may happen at the same time, on different threads.  There is no `OverlappingSubmapsTrimmer2D` (pose_graph_2d.cc 60-69), and no trajectory is deleted.

`mine t` says that trajectory `t` comes from a file, as in `Verif.Loading`.
-/

namespace Verif.Localize

open PoseGraph (State Act Item Trimmer Setup adds posted windowOf fills)
open Loading (ownItem)
open MapById (Id)

variable {V : Type}

/-- The trajectory whose builder adds the work item. -/
def builderOf : Item V → Option Int
  | .computeConstraints node _ _ => some node.1
  | .data t => some t
  | .finish t => some t
  | _ => none

/-- What the rest of the program does while maps are loaded: nodes come with the submaps local SLAM has, nothing is added to a trajectory after `FinishTrajectory`, which is called once, no
call of a trajectory builder overtakes another one for the same trajectory, and the only trimmers are `PureLocalizationTrimmer`s (so that there are no choices to make when trimming).  The
worker, the constraint builder and the optimization do what they want; a node gets a transform for each of its submaps. -/
def Caller (S : Setup) (mine : Int → Bool) (as : List (Act V)) (s : State V) : Act V → Prop
  | .addNode t ins nf => mine t = false ∧ 0 ≤ t ∧ posted as t = false ∧ ins = (windowOf (S.n t) (adds as t)).map (S.ptr t) ∧ nf = fills (S.n t) (adds as t)
  | .post (.data t) => mine t = false ∧ posted as t = false
  | .post (.finish t) => mine t = false ∧ posted as t = false
  | .post (.addTrimmer (.pureLocalization t _ _)) => mine t = false
  | .post _ => False
  | .addSubmapFromProto .. => False
  | .addNodeFromProto .. => False
  | .deleteTrajectory _ => False
  | .enqueue k => ∀ j < k, ∀ x y, s.inflight[j]? = some x → s.inflight[k]? = some y → builderOf x = none ∨ builderOf x ≠ builderOf y
  | .run poses => 2 ≤ poses.length
  | .search _ => True
  | .endSearch => True
  | .optimize _ => True
  | .trim choices => choices = []

/-- The executions from the empty pose graph: `as` are the steps other than those of the loads, `made` the calls of the loads.  The loads come one after the other, and the next call is made
when the work item of the previous one is in the queue. -/
inductive Uses (S : Setup) (mine : Int → Bool) (calls : List (Act V)) : List (Act V) → List (Act V) → State V → Prop where
  | start : Uses S mine calls [] [] {}
  | load {as made left a s s'} : Uses S mine calls as made s → calls = made ++ a :: left → (∀ i ∈ s.inflight, ownItem mine i = false) → PoseGraph.exec s a = some s' →
      Uses S mine calls as (made ++ [a]) s'
  | act {as made b s s'} : Uses S mine calls as made s → PoseGraph.Enabled s b → Caller S mine as s b → PoseGraph.exec s b = some s' → Uses S mine calls (as ++ [b]) made s'

end Verif.Localize
