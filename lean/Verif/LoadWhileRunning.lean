import Verif.MapBuilder

/-!
# Loading a map while the pose graph is in use

The calls that `MapBuilder::LoadState` makes on the pose graph (cartographer/mapping/map_builder.cc 216-384, `Verif.Serialization.load`) are made one after the other on one
thread; each puts a work item into the queue before the next one is made.  Meanwhile other threads may call the pose graph for other trajectories, and the worker of the pose
graph runs items, searches, optimizes and trims (`Verif.PoseGraph`).  This file says which executions these are.

`mine t` says that `t` is one of the trajectories being loaded.  The rest of the program is assumed not to name these while they are loaded: `LoadState` returns the new ids only at
its end.
-/

namespace Verif.Loading

open PoseGraph (State Act Item Trimmer Constraint)
open MapById (Id at?)

variable {P : Type}

/-- Work items of the load. -/
def ownItem (mine : Int → Bool) : Item P → Bool
  | .freeze t | .data t => mine t
  | .submapFromProto id | .nodeFromProto id => mine id.1
  | .nodeToSubmap n i => mine n.1 && mine i.1
  | .serialized cs => !cs.isEmpty && cs.all fun c => mine c.node.1 && mine c.submap.1
  | _ => false

/-- Trimmers of other trajectories. -/
def otherTrimmer (mine : Int → Bool) : Trimmer → Bool
  | .pureLocalization t _ _ => !mine t
  | .other => true

/-- Work items that do not name the trajectories being loaded. -/
def otherItem (mine : Int → Bool) : Item P → Bool
  | .computeConstraints n _ _ => !mine n.1
  | .data t | .finish t | .freeze t | .delete t => !mine t
  | .submapFromProto id | .nodeFromProto id => !mine id.1
  | .nodeToSubmap n i => !mine n.1 && !mine i.1
  | .serialized cs => cs.all fun c => !mine c.node.1 && !mine c.submap.1
  | .addTrimmer tr => otherTrimmer mine tr

/-- Steps of the rest of the program: calls for other trajectories, and all steps of the worker.  Of the submaps being loaded, trimmers choose only ones that have nodes according to the
constraints: `OverlappingSubmapsTrimmer2D`, the only one besides `PureLocalizationTrimmer`, leaves all others out (overlapping_submaps_trimmer_2d.cc 64, 114-124, theorem
`overlapping_other`). -/
def Other (mine : Int → Bool) (s : State P) : Act P → Prop
  | .addNode t _ _ | .deleteTrajectory t => mine t = false
  | .addSubmapFromProto id _ | .addNodeFromProto id => mine id.1 = false
  | .post item => otherItem mine item = true
  | .trim choices => ∀ l ∈ choices, ∀ id ∈ l, mine id.1 = true → ∃ c ∈ s.constraints, c.intra = true ∧ c.submap = id
  | _ => True

/-- The executions: `made` are the calls of the load made so far.  The next one is made when the item of the previous one is in the queue. -/
inductive Interleaved (mine : Int → Bool) (calls : List (Act P)) (start : State P) : List (Act P) → State P → Prop where
  | start : Interleaved mine calls start [] start
  | own {made left a s s'} : Interleaved mine calls start made s → calls = made ++ a :: left → (∀ i ∈ s.inflight, ownItem mine i = false) → PoseGraph.exec s a = some s' →
      Interleaved mine calls start (made ++ [a]) s'
  | other {made b s s'} : Interleaved mine calls start made s → PoseGraph.Enabled s b → Other mine s b → PoseGraph.exec s b = some s' → Interleaved mine calls start made s'

/-- The work item that a call of the load puts into the queue (pose_graph_2d.cc 662, 716, 741, 785, 798 and those of the sensor data); other calls are not made. -/
def itemOf : Act P → Item P
  | .addSubmapFromProto id _ => .submapFromProto id
  | .addNodeFromProto id => .nodeFromProto id
  | .post i => i
  | _ => .serialized []

/-- (node, submap) for the constraints within submaps. -/
def pairs (cs : List (Constraint P)) : List (Id × Id) := (cs.filter (·.intra)).map fun c => (c.node, c.submap)

/-- The submaps, nodes, frozen trajectories, (node, submap) and constraints that an item adds. -/
def subsOf : Item P → List Id
  | .submapFromProto id => [id]
  | _ => []
@[inherit_doc subsOf] def nodesOf : Item P → List Id
  | .nodeFromProto id => [id]
  | _ => []
@[inherit_doc subsOf] def frozenOf : Item P → List Int
  | .freeze t => [t]
  | _ => []
@[inherit_doc subsOf] def membersOf : Item P → List (Id × Id)
  | .nodeToSubmap n i => [(n, i)]
  | .serialized cs => pairs cs
  | _ => []
@[inherit_doc subsOf] def consOf : Item P → List (Constraint P)
  | .serialized cs => cs
  | _ => []

/-- What a call of the load needs of the items of the calls before it. -/
def Ready (mine : Int → Bool) (before : List (Item P)) : Act P → Prop
  | .addSubmapFromProto id _ => mine id.1 = true ∧ 0 ≤ id.1 ∧ 0 ≤ id.2 ∧ id ∉ before.flatMap subsOf
  | .addNodeFromProto id => mine id.1 = true ∧ 0 ≤ id.1 ∧ 0 ≤ id.2 ∧ id ∉ before.flatMap nodesOf
  | .post (.freeze t) => mine t = true ∧ t ∉ before.flatMap frozenOf
  | .post (.data t) => mine t = true
  | .post (.nodeToSubmap n i) => n ∈ before.flatMap nodesOf ∧ i ∈ before.flatMap subsOf
  | .post (.serialized cs) => (∀ c ∈ cs, c.node ∈ before.flatMap nodesOf ∧ c.submap ∈ before.flatMap subsOf) ∧ (pairs cs).Nodup ∧
      ∀ x ∈ pairs cs, x ∉ before.flatMap membersOf
  | _ => False

/-- Every call of the load has what it needs. -/
def Good (mine : Int → Bool) (calls : List (Act P)) : Prop := ∀ before a after, calls = before ++ a :: after → Ready mine (before.map itemOf) a

end Verif.Loading
