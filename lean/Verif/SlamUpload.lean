import Verif.ActiveSubmaps
import Verif.SubmapController

/-!
# Replicating submaps on another server

Model of the path of local SLAM results from one server to another: `MapBuilderServer::OnLocalSlamResult`
(cloud/internal/map_builder_server.cc 177-206) and `CreateSensorDataForLocalSlamResult`
(cloud/internal/sensor/serialization.cc 80-100) on the sending side, `LocalSlamResult2D::AddToPoseGraph`
(mapping/internal/2d/local_slam_result_2d.cc 30-52) and its 3D twin on the receiving side. The submaps are those of
`Verif.ActiveSubmaps`, the receiver uses `Verif.Controller`.

Simplifications: nothing gets lost and the order is kept (the uploader in between is `Verif.Uploader`); trajectory ids are
the same on both sides; a range data `r` that is inserted stands for everything a node holds. Results without an insertion
are not sent and left out.
-/

namespace Verif.SlamUpload

open Verif

/-- The sending server: `starting_submap_index_` (map_builder_server.h) and the active submaps of each trajectory. -/
structure Sender (R : Type) where
  starting : Nat := 0
  active : Int → ActiveSubmaps.State R := fun _ => ActiveSubmaps.init

/-- A call of `PoseGraph::AddNode` on the receiving server: the trajectory, the insertion submaps as pointers and
`insertion_submaps.front()->insertion_finished()` (pose_graph_2d.cc 164-166). -/
structure Call where
  traj : Int
  ins : List Nat
  newlyFinished : Bool
deriving DecidableEq

/-- The receiving server: its submap controller and the calls of `AddNode` so far. -/
structure Receiver (C : Type) where
  ctl : Controller.State C := {}
  calls : List Call := []

variable {R G C : Type}

/-- `Submap::ToProto(insertion_finished())` with the submap id (serialization.cc 93-98). `enc` is the part that depends on
the dimension; it has the grids exactly if the submap is finished. -/
def toMsg (enc : ActiveSubmaps.Submap R → G) (t : Int) (index : Nat) (x : ActiveSubmaps.Submap R) : Controller.Msg G :=
  ⟨(t, index), true, x.numRangeData, x.finished, enc x⟩

/-- The loop over the insertion submaps (serialization.cc 93-99). -/
def toMsgs (enc : ActiveSubmaps.Submap R → G) (t : Int) : Nat → List (ActiveSubmaps.Submap R) → List (Controller.Msg G)
  | _, [] => []
  | index, x :: l => toMsg enc t index x :: toMsgs enc t (index + 1) l

/-- A range data is inserted on the sending server and `OnLocalSlamResult` makes the messages. `n` are the values of
`num_range_data`. Dereferencing `front()` of no submaps is `none`. -/
def send (n : Int → Nat) (enc : ActiveSubmaps.Submap R → G) (s : Sender R) (t : Int) (r : R) :
    Option (Sender R × List (Controller.Msg G)) := do
  let st ← ActiveSubmaps.insertRangeData (n t) (s.active t) r
  let front ← st.submaps.head?
  some (⟨if front.finished then s.starting + 1 else s.starting, fun u => if u = t then st else s.active u⟩,
    toMsgs enc t s.starting st.submaps)

/-- `AddToPoseGraph` (local_slam_result_2d.cc 30-52, local_slam_result_3d.cc 30-45). Null pointers are skipped in two
dimensions; in three dimensions they are passed on to `AddNode`, which dereferences them. -/
def receive (dim3 : Bool) (k : Controller.Kind G C) (s : Receiver C) (t : Int) (ms : List (Controller.Msg G)) :
    Option (Receiver C) := do
  let first ← ms.head?
  guard first.rightKind
  let (ctl, rs) ← Controller.run k s.ctl ms
  guard (dim3 = false ∨ none ∉ rs)
  match rs.filterMap id with
  | [] => some { s with ctl := ctl }
  | p :: ps => do
    let o ← ctl.heap[p]?
    some ⟨ctl, s.calls ++ [⟨t, p :: ps, o.finished⟩]⟩

/-- Range data inserted into trajectories, one after the other, and sent to the receiving server. -/
def pipeline (dim3 : Bool) (n : Int → Nat) (enc : ActiveSubmaps.Submap R → G) (k : Controller.Kind G C) :
    Sender R → Receiver C → List (Int × R) → Option (Sender R × Receiver C)
  | s, c, [] => some (s, c)
  | s, c, (t, r) :: es => do
    let (s, ms) ← send n enc s t r
    let c ← receive dim3 k c t ms
    pipeline dim3 n enc k s c es

end Verif.SlamUpload
