import Verif.LoadWhileRunning

/-!
# Constraints within submaps and the nodes of submaps

`PoseGraph2D` keeps twice which nodes were inserted into which submaps: in `InternalSubmapData::node_ids` (cartographer/mapping/internal/2d/pose_graph_data.h 52-62) and in the constraints
with the tag `INTRA_SUBMAP` (pose_graph_interface.h 35-52).  The definitions here say who may call what, for the machine of `Verif.PoseGraph`; the proof that the two agree is in
`SubmapConstraintsInvariant.lean` and `Props/SubmapConstraints.lean`.

`mine t` says that trajectory `t` comes from a file: `MapBuilder` gives a trajectory either a builder, whose nodes come from local SLAM with `AddNode` (global_trajectory_builder.cc 84-86), or
none, and then its nodes come from `LoadState` (map_builder.cc 216-384).
-/

namespace Verif.SubmapLinks

open PoseGraph (State Act Item Submap Constraint)
open MapById (Id Map at?)

variable {P : Type}

/-- Work items of `LoadState` are about nodes of loaded trajectories (map_builder.cc 343-383). -/
def ItemNamed (mine : Int → Bool) : Item P → Prop
  | .nodeToSubmap n _ => mine n.1 = true
  | .serialized cs => ∀ c ∈ cs, mine c.node.1 = true
  | _ => True

/-- `AddNode` is called for trajectories with a builder, `AddNodeFromProto`, `AddNodeToSubmap` and `AddSerializedConstraints` for nodes of others.  Everything else is called as one likes. -/
def ActNamed (mine : Int → Bool) : Act P → Prop
  | .addNode t _ _ => mine t = false
  | .addNodeFromProto id => mine id.1 = true
  | .post i => ItemNamed mine i
  | _ => True

/-- Node `n` is in `node_ids` of submap `id`. -/
def Mem (m : Map Submap) (n id : Id) : Prop := ∃ sm, at? m id = some sm ∧ n ∈ sm.nodeIds

/-- The node for which an item computes constraints. -/
def nodeOf : Item P → Option Id
  | .computeConstraints n _ _ => some n
  | _ => none

/-- The nodes that were added and not processed yet. -/
def waiting (s : State P) : List Id := (s.queue ++ s.inflight).filterMap nodeOf

end Verif.SubmapLinks
