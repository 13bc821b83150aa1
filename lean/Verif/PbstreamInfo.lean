import Verif.Serialization
import Verif.ProtoStream
import Mathlib.Data.String.Basic

/-!
# What `pbstream info` reports of a saved state

Model of cartographer/io/internal/pbstream_info.cc (abbreviated info), lines 37-108.

Of a message only what the tool looks at is kept. The lines it logs are the result; printing the whole messages (`DebugString`)
is left out, and counts are unbounded. `none` is a failing `CHECK`, an exception, or undefined behavior: info 79-85 warns of an
iterator that is at the end and then dereferences it.
-/

namespace Verif.PbstreamInfo

open PoseGraph
open Serialization (Record)

/-- The submap of a `Submap` message (serialization.proto 26-30): whether there is a `submap_2d` and, in it, a `grid`; whether there
is a `submap_3d` and, in it, a `high_resolution_hybrid_grid`. -/
structure Content where
  in2d : Option Bool := none
  in3d : Option Bool := none
  deriving DecidableEq, Repr

/-- The messages of a stream: the header and the cases of `SerializedData` (serialization.proto 76-88), `notSet` if none is set
(which is how a case added in a later version arrives). -/
inductive Msg (O : Type) where
  | header (version : Nat)
  | poseGraph (trajectories : List TrajectoryProto)
  | options (l : List O)
  | submap (c : Content)
  | node
  | trajectoryData
  | imu
  | odometry
  | fixedFrame
  | landmark
  | notSet

variable {O : Type}

/-- The lookup in `data_case_to_name` (info 58-66, 79). -/
def caseName : Msg O → Option String
  | .submap _ => some "submap"
  | .node => some "node"
  | .trajectoryData => some "trajectory_data"
  | .imu => some "imu_data"
  | .odometry => some "odometry_data"
  | .fixedFrame => some "fixed_frame_pose_data"
  | .landmark => some "landmark_data"
  | _ => none

/-- The type of `data_counts`, a `std::map` (info 68). -/
abbrev Counts := List (String × Nat)

/-- The initial `data_counts` (info 68-73). -/
def initialCounts : Counts :=
  [("submap_2d", 0), ("submap_2d_grid", 0), ("submap_3d", 0), ("submap_3d_high_resolution_hybrid_grid", 0)]

/-- `++data_counts[name]`. -/
def bump (name : String) (c : Counts) : Counts := SMap.put name ((SMap.get? name c).getD 0 + 1) c

/-- info 86-101, what is counted of a submap besides itself. -/
def bumpContent (s : Content) (c : Counts) : Counts :=
  let c := match s.in2d with
    | none => c
    | some grid =>
      let c := bump "submap_2d" c
      if grid then bump "submap_2d_grid" c else c
  match s.in3d with
  | none => c
  | some grid =>
    let c := bump "submap_3d" c
    if grid then bump "submap_3d_high_resolution_hybrid_grid" c else c

/-- One iteration of the loop (info 75-102). -/
def count (c : Counts) (m : Msg O) : Option Counts :=
  match caseName m with
  | none => none
  | some name =>
    let c := bump name c
    match m with
    | .submap s => some (bumpContent s c)
    | _ => some c

/-- The loop (info 75-102). -/
def countAll (c : Counts) : List (Msg O) → Option Counts
  | [] => some c
  | m :: ms =>
    match count c m with
    | none => none
    | some c' => countAll c' ms

/-- What is logged: the header (info 42), the options (43-47), a line for each trajectory with its numbers of nodes and submaps
(49-53), the counts in the order of the map (104-107). -/
structure Report (O : Type) where
  version : Nat
  options : List O
  trajectories : List (Int × Nat × Nat)
  counts : Counts
  deriving DecidableEq, Repr

/-- `Run` (info 37-108), for the messages of the file. The constructor of the deserializer is that of proto_stream_deserializer.cc
46-71. -/
def run : List (Msg O) → Option (Report O)
  | .header v :: .poseGraph trs :: .options os :: rest =>
    if v = 2 ∨ v = 1 then
      if trs.length = os.length then
        (countAll initialCounts rest).map fun c =>
          ⟨v, os, trs.map fun t => (t.id, t.nodes.length, t.submaps.length), c⟩
      else none
    else none
  | _ => none

/-- `Run` on the bytes of a file: `ReadNextSerializedData` fails at the end and at anything that cannot be read, and the loop
ends (info 75) without a look at `eof`. -/
def runFile (c : ProtoStream.Codec (Msg O)) (file : List UInt8) : Option (Report O) :=
  match ProtoStream.readFile c file with
  | none => none
  | some (ms, _) => run ms

/-- A record of `Serialization` as it is seen here. `content` is what the submaps contain. -/
def ofRecord {P : Type} (content : MapById.Id → Content) : Record P O → Msg O
  | .header v => .header v
  | .poseGraph p => .poseGraph p.trajectories
  | .options l => .options l
  | .submap id => .submap (content id)
  | .node _ => .node
  | .trajectoryData _ => .trajectoryData
  | .imu _ => .imu
  | .odometry _ => .odometry
  | .fixedFrame _ => .fixedFrame
  | .landmark _ => .landmark

end Verif.PbstreamInfo
