import Verif.LocalSlamGraph

/-!
# The 3D pose graph

`PoseGraph3D` (cartographer/mapping/internal/3d/pose_graph_3d.cc, abbreviated pg3d) is `PoseGraph2D` (modelled in `Verif.PoseGraph`) with other poses, and with two functions that differ in
what they look up: `ComputeConstraint`, which reads the poses of the node and of the submap from the optimization problem before anything else, and `RunOptimization`, which may log residuals.
The trimmer `OverlappingSubmapsTrimmer2D` is not there; in the model it is one of the other trimmers.
-/

namespace Verif.PoseGraph

open MapById

variable {P : Type}

/-- `ComputeConstraint` (pg3d 249-307): as in 2D after the two poses were looked up (pg3d 251-255). -/
def computeConstraint3D (s : State P) (node id : Id) (how : Search) : Option (State P) := do
  let _ ← at? s.optNodes node
  let _ ← at? s.optSubmaps id
  let sm ← at? s.submaps id
  guard (sm.finished = true)
  match how with
  | .skip => some s
  | .sampledOut => do
    let _ ← latestNodeTime s node id
    some s
  | .locally => do
    let _ ← latestNodeTime s node id
    some { s with
      searches := s.searches ++ [(node, id)] }
  | .globally => do
    let _ ← latestNodeTime s node id
    some { s with
      searches := s.searches ++ [(node, id)] }

/-- `LogResidualHistograms` (pg3d 831-856), whether it gets through: the loop over the constraints of local SLAM looks up the node and, in the poses of all submaps that were just copied from the
optimization problem (pg3d 900), the submap. -/
def logResiduals (s : State P) : List (Constraint P) → Option Unit
  | [] => some ()
  | c :: cs =>
    if c.intra then do
      let _ ← at? s.nodes c.node
      let _ ← at? s.optSubmaps c.submap
      logResiduals s cs
    else logResiduals s cs

/-- `HandleWorkQueue` up to the callback with `RunOptimization` (pg3d 857-906); `log` is `log_residual_histograms`. Without submaps it returns at once (pg3d 858-860). -/
def optimize3D (log : Bool) (s : State P) (result : List (Constraint P)) : Option (State P) := do
  let s' ← optimize s result
  guard (log = false ∨ (flat s.optSubmaps).isEmpty ∨ logResiduals s' s'.constraints = some ())
  some s'

/-- The effect of a step. -/
def exec3D (log : Bool) (s : State P) : Act P → Option (State P)
  | .search how =>
    match s.worker with
    | .searching ((node, id) :: todo) => computeConstraint3D { s with
        worker := .searching todo } node id how
    | _ => none
  | .optimize result => optimize3D log s result
  | .addNode t ins nf => exec s (.addNode t ins nf)
  | .addSubmapFromProto id ptr => exec s (.addSubmapFromProto id ptr)
  | .addNodeFromProto id => exec s (.addNodeFromProto id)
  | .deleteTrajectory t => exec s (.deleteTrajectory t)
  | .post item => exec s (.post item)
  | .enqueue k => exec s (.enqueue k)
  | .run poses => exec s (.run poses)
  | .endSearch => exec s .endSearch
  | .trim choices => exec s (.trim choices)

/-- Executions that do not abort. -/
inductive Exec3D (log : Bool) : State P → List (Act P) → State P → Prop where
  | nil {s} : Exec3D log s [] s
  | snoc {s as t a t'} : Exec3D log s as t → Enabled t a → exec3D log t a = some t' → Exec3D log s (as ++ [a]) t'

/-- Watched executions with local SLAM as the caller (`OExec` of C56). -/
inductive OExec3D (log : Bool) (S : Setup) : List (Act P) → Seen → State P → Prop where
  | nil : OExec3D log S [] {} {}
  | snoc {as seen s a s'} : OExec3D log S as seen s → Enabled s a → Orderly S as s a → exec3D log s a = some s' → OExec3D log S (as ++ [a]) (observe s seen a) s'

end Verif.PoseGraph
