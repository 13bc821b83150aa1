import Verif.Collators
import Verif.Serialization

/-!
# The map builder

Model of `MapBuilder` (cartographer/mapping/map_builder.cc, abbreviated mb, and map_builder.h): the vectors of builders and of options, the collator and the pose graph,
with all calls that the builder makes on the latter two.

The pose graph is the machine of `Verif.PoseGraph`; its worker runs concurrently with the functions of the map builder, so these only note the calls they will make
(`pending`), which are then made one after the other with steps of the worker in between.  What local SLAM does with delivered data is left open: any calls for the trajectory
for which data was delivered.  Not modelled: initial poses (mb 148-155), landmark poses (mb 272-277), both of which have no effect on the trajectories known.
-/

namespace Verif.MapBuilder

open PoseGraph (Act Item Trimmer)
open Serialization (Record)
open MapById (Id)

variable {S D T O P : Type} [LinearOrder S] [LinearOrder T] [OrderBot T]

/-- `sensor_collator_` (mb 95-99): `Collator` or `TrajectoryCollator`. -/
abbrev Coll (S D T : Type) := Collators.Shared S D T ⊕ Collators.Single S D T

/-- The calls of the collator. -/
def Coll.step (time : D → T) (sensor : D → S) (order : List ℤ → List ℤ) : Coll S D T → Collators.Call S D → Option (Coll S D T × List (Collators.Key S × D))
  | .inl c, o => (c.step time sensor o).map fun r => (.inl r.1, r.2)
  | .inr c, o => (c.step time sensor order o).map fun r => (.inr r.1, r.2)

/-- Members (map_builder.h 91-101).  A builder is null or has the sensors that were announced to the collator.  `pending` are the calls of the pose graph that the function
under way has not made yet. -/
structure State (S D T O P : Type) where
  builders : List (Option (List S)) := []
  options : List O := []
  coll : Coll S D T
  graph : PoseGraph.State P := {}
  pending : List (Act P) := []

/-- The constructor (mb 77-100); `byTrajectory` is `collate_by_trajectory`. -/
def init (byTrajectory : Bool) : State S D T O P := { coll := if byTrajectory then .inr Collators.Single.init else .inl Collators.Shared.init }

/-- `trajectory_builders_.size()`, the next id (mb 106, 171). -/
def State.size (s : State S D T O P) : Int := s.builders.length

/-- `GetTrajectoryBuilder` (map_builder.h 79-82): `at` throws for an unknown id. -/
def State.builder (s : State S D T O P) (t : Int) : Option (Option (List S)) := if t < 0 then none else s.builders[t.toNat]?

/-- The call of the pose graph that loading makes; `ptr` gives the new submaps. -/
def toAct (ptr : Id → Nat) : Serialization.Call P → Act P
  | .freeze t => .post (.freeze t)
  | .addSubmapFromProto id => .addSubmapFromProto id (ptr id)
  | .addNodeFromProto id => .addNodeFromProto id
  | .setTrajectoryData t => .post (.data t)
  | .addImu t => .post (.data t)
  | .addOdometry t => .post (.data t)
  | .addFixedFrame t => .post (.data t)
  | .addLandmark t => .post (.data t)
  | .addNodeToSubmap n i => .post (.nodeToSubmap n i)
  | .addSerializedConstraints cs => .post (.serialized cs)

/-- The steps. -/
inductive Op (S D O P : Type) where
  /-- `AddTrajectoryBuilder` (mb 102-166); the sensors are those announced to the collator (`CollatedTrajectoryBuilder`, C90); `keep` is the number of submaps of the
  `PureLocalizationTrimmer` (mb 56-73), if there is one. -/
  | add (sensors : List S) (o : O) (keep : Option Nat)
  /-- `GetTrajectoryBuilder(t)->AddSensorData(...)` for data that is collated; `acts` are the calls that local SLAM makes for the data delivered. -/
  | data (t : Int) (d : D) (acts : List (Act P))
  /-- The same for data that is not collated. -/
  | direct (t : Int) (acts : List (Act P))
  /-- `FinishTrajectory` (mb 178-181). -/
  | finish (t : Int) (acts : List (Act P))
  /-- `LoadState` (mb 216-384). -/
  | load (recs : List (Record P O)) (frozen : Bool) (ptr : Id → Nat)
  /-- A call of the user on `pose_graph()`. -/
  | user (a : Act P)
  /-- The next call of the pose graph is made. -/
  | call
  /-- The pose graph works on. -/
  | work (a : Act P)

/-- The calls for a new trajectory: `MaybeAddPureLocalizationTrimmer` (mb 56-73). -/
def trimmerCall (t : Int) : Option Nat → List (Act P)
  | none => []
  | some k => [.post (.addTrimmer (.pureLocalization t k false))]

/-- The effect of a step; `none` is a failing `CHECK`, an exception or a null builder that is used. -/
def State.step (time : D → T) (sensor : D → S) (order : List ℤ → List ℤ) (use3d : Bool) (s : State S D T O P) : Op S D O P → Option (State S D T O P)
  | .add sensors o keep => do
    guard (∀ k ∈ keep, 2 ≤ k)
    let r ← s.coll.step time sensor order (.add s.size sensors)
    guard ((s.builders ++ [some sensors]).length = (s.options ++ [o]).length)
    some { s with
      builders := s.builders ++ [some sensors]
      options := s.options ++ [o]
      coll := r.1
      pending := trimmerCall s.size keep }
  | .data t d acts => do
    let b ← s.builder t
    let _ ← b
    let r ← s.coll.step time sensor order (.data t d)
    some { s with
      coll := r.1
      pending := acts }
  | .direct t acts => do
    let b ← s.builder t
    let _ ← b
    some { s with
      pending := acts }
  | .finish t acts => do
    let r ← s.coll.step time sensor order (.finish t)
    some { s with
      coll := r.1
      pending := acts ++ [.post (.finish t)] }
  | .load recs frozen ptr => do
    let l ← Serialization.load s.size use3d frozen recs
    some { s with
      builders := s.builders ++ l.added.map fun _ => none
      options := s.options ++ l.added.map Prod.snd
      pending := l.calls.map (toAct ptr) }
  | .user a => some { s with
      pending := [a] }
  | .call =>
    match s.pending with
    | [] => none
    | a :: l => do
      let g ← PoseGraph.exec s.graph a
      some { s with
        graph := g
        pending := l }
  | .work a => do
    let g ← PoseGraph.exec s.graph a
    some { s with
      graph := g }

/-- The trajectory of a call that local SLAM makes: `AddNode`, or one that adds data of a sensor. -/
def slamCall : Act P → Option Int
  | .addNode t ins _ => if ins = [] then none else some t
  | .post (.data t) => some t
  | _ => none

/-- Local SLAM makes calls only for trajectories for which data was delivered (the closure of collated_trajectory_builder.cc 54-57 belongs to one trajectory). -/
def Reacts (out : List (Collators.Key S × D)) (acts : List (Act P)) : Prop := ∀ a ∈ acts, ∃ x ∈ out, slamCall a = some (Collators.traj x.1)

/-- The steps of the pose graph itself: a function that was called puts its work item into the queue, or the worker does something. -/
def isWork : Act P → Prop
  | .enqueue _ | .run _ | .search _ | .endSearch | .optimize _ | .trim _ => True
  | _ => False

/-- What users call on the pose graph: `DeleteTrajectory`, `FreezeTrajectory` and `AddTrimmer` of any other trimmer. -/
def isUser : Act P → Prop
  | .deleteTrajectory _ | .post (.freeze _) | .post (.addTrimmer .other) => True
  | _ => False

/-- When a step is possible: one function of the map builder at a time. -/
def Enabled (time : D → T) (sensor : D → S) (order : List ℤ → List ℤ) (s : State S D T O P) : Op S D O P → Prop
  | .add .. => s.pending = []
  | .data t d acts => s.pending = [] ∧ ∀ r, s.coll.step time sensor order (.data t d) = some r → Reacts r.2 acts
  | .direct t acts => s.pending = [] ∧ ∀ a ∈ acts, slamCall a = some t
  | .finish t acts => s.pending = [] ∧ ∀ r, s.coll.step time sensor order (.finish t) = some r → Reacts r.2 acts
  | .load .. => s.pending = []
  | .user a => s.pending = [] ∧ isUser a
  | .call => s.pending ≠ []
  | .work a => isWork a ∧ PoseGraph.Enabled s.graph a

/-- The executions in which the user keeps to a rule. -/
inductive Exec (time : D → T) (sensor : D → S) (order : List ℤ → List ℤ) (use3d byTrajectory : Bool) (rule : List (Op S D O P) → State S D T O P → Op S D O P → Prop) :
    List (Op S D O P) → State S D T O P → Prop where
  | nil : Exec time sensor order use3d byTrajectory rule [] (init byTrajectory)
  | snoc {ops s op s'} : Exec time sensor order use3d byTrajectory rule ops s → Enabled time sensor order s op → rule ops s op → s.step time sensor order use3d op = some s' →
      Exec time sensor order use3d byTrajectory rule (ops ++ [op]) s'

end Verif.MapBuilder
