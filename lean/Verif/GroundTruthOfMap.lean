import Verif.GroundTruth
import Verif.LocalSlamGraph

/-!
# Ground truth generated from a saved pose graph

`PoseGraph::ToProto` (/repo/cartographer/mapping/pose_graph.cc 135-210, "pg") makes of the pose graph what
`autogenerate_ground_truth_main.cc` reads and hands to `GenerateGroundTruth` (`Verif.GroundTruth`).

Simplifications: poses and times of nodes, poses of submaps and which submap objects are finished are given; a constraint has its pose.
Landmarks are left out.
-/

namespace Verif.GroundTruthOfMap

open MapById Verif.PoseGraph Verif.Rigid

/-- A trajectory is added to the message when it is first met (pg 138-147). -/
def addNew (acc : List Int) : List Int → List Int
  | [] => acc
  | t :: l => addNew (if t ∈ acc then acc else acc ++ [t]) l

/-- The trajectories of a map that have entries, in the order of iteration (id.h:345-349). -/
def trajectoriesOf {D : Type} (m : Map D) : List Int := (m.filter fun e => !e.2.data.isEmpty).map (·.1)

/-- What is known besides the pose graph's own data. -/
structure World where
  node : Id → GroundTruth.Node
  submapPose : Id → Rigid3
  finished : Id → Bool

/-- Whether a submap is written (pg 153-158, 170-177). -/
def World.keeps (w : World) (unfinished : Bool) (id : Id) : Bool := unfinished || w.finished id

/-- A constraint as a message (pg 117-133). -/
def constraintProto (c : PoseGraph.Constraint Rigid3) : GroundTruth.Constraint :=
  ⟨c.submap.1, c.submap.2, c.node.1, c.node.2, c.pose, c.intra⟩

/-- `PoseGraph::ToProto` (pg 135-210). -/
def toProto (w : World) (unfinished : Bool) (s : State Rigid3) : GroundTruth.PoseGraph :=
  ⟨(addNew [] (trajectoriesOf s.submaps ++ trajectoriesOf s.nodes)).map fun t =>
      ⟨(idsOf s.nodes t).map w.node, ((idsOf s.submaps t).filter fun id => w.keeps unfinished id).map w.submapPose⟩,
    (s.constraints.filter fun c => w.keeps unfinished c.submap).map constraintProto⟩

end Verif.GroundTruthOfMap
