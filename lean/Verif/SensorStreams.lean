import Verif.Collators

/-!
# Sensor data sent through the client stub

`TrajectoryBuilderStub::AddSensorData` (/repo/cartographer/cloud/internal/client/trajectory_builder_stub.cc 76-143) writes to one stream for each
kind of sensor of a trajectory, and returns. On the server a handler takes requests from each stream
(/repo/cartographer/cloud/internal/handlers/add_sensor_data_handler_base.h 34-48 and e.g. add_imu_data_handler.cc 32-39) and puts the data into the
common queue of incoming data, from which the SLAM thread gives it to the trajectory builders (map_builder_server.cc 157-168), that is to the
collator (`Verif.Collators`). `MapBuilderStub::FinishTrajectory` (cloud/client/map_builder_stub.cc 104-119) is a request of its own, which is
answered after the trajectory was finished on the server (handlers/finish_trajectory_handler.cc 29-54).

The streams are FIFO; they are kept in one list, in the order of writing, of which a handler takes the first item of its stream. Streams, handlers
and the SLAM thread proceed in any order. The data is what was written (`Verif.Messages`), the client is that of the trajectories
(`Verif.MapBuilderServer`), and a trajectory without collated sensors is not considered.
-/

namespace Verif.SensorStreams

open Collators (Call)

/-- The calls of the client: `AddSensorData` and `FinishTrajectory`. -/
inductive Op (D : Type) where
  | data (j : ℤ) (d : D)
  | finish (j : ℤ)

variable {K S D : Type} [DecidableEq K]

/-- The calls of the collator if there is no server in between (collated_trajectory_builder.cc 61-87, map_builder.cc 178-181). -/
def direct : List (Op D) → List (Call S D)
  | [] => []
  | .data j d :: l => .data j d :: direct l
  | .finish j :: l => .finish j :: direct l

/-- What the client still does, what is in the streams, the queue of incoming data, and the calls of the collator so far. -/
structure State (S D : Type) where
  todo : List (Op D)
  streams : List (ℤ × D) := []
  queue : List (ℤ × D) := []
  calls : List (Call S D) := []

/-- The client goes on, the handler of the stream of a trajectory and a kind of sensor takes a request, or the SLAM thread takes data. -/
inductive Act (K : Type) where
  | client
  | handle (j : ℤ) (k : K)
  | slam

/-- Whether an item was written to the stream. -/
def inStream (kind : D → K) (j : ℤ) (k : K) (e : ℤ × D) : Bool := decide (e.1 = j) && decide (kind e.2 = k)

/-- One step; `none` if it is not possible now. -/
def step (kind : D → K) (s : State S D) : Act K → Option (State S D)
  | .client =>
    match s.todo with
    | [] => none
    /- trajectory_builder_stub.cc 76-143: `Write` returns before the data is handled. -/
    | .data j d :: l => some { s with todo := l, streams := s.streams ++ [(j, d)] }
    /- map_builder_stub.cc 104-119, finish_trajectory_handler.cc 38-39. -/
    | .finish j :: l => some { s with todo := l, calls := s.calls ++ [.finish j] }
  | .handle j k =>
    match s.streams.find? (inStream kind j k) with
    | none => none
    | some e => some { s with streams := s.streams.eraseP (inStream kind j k), queue := s.queue ++ [e] }
  | .slam =>
    match s.queue with
    | [] => none
    | e :: q => some { s with queue := q, calls := s.calls ++ [.data e.1 e.2] }

/-- No data of the trajectory is on its way. -/
def Drained (j : ℤ) (s : State S D) : Prop := (∀ e ∈ s.streams, e.1 ≠ j) ∧ ∀ e ∈ s.queue, e.1 ≠ j

/-- The client only finishes a trajectory once all its data has arrived. -/
def Waits (s : State S D) (a : Act K) : Prop :=
  match a, s.todo with
  | .client, .finish j :: _ => Drained j s
  | _, _ => True

/-- States reached when the client makes these calls; with `careful`, a client that waits. The stub does not. -/
inductive Reach (kind : D → K) (careful : Prop) (prog : List (Op D)) : State S D → Prop where
  | init : Reach kind careful prog { todo := prog }
  | step {s s' : State S D} {a : Act K} : Reach kind careful prog s → step kind s a = some s' → (careful → Waits s a) → Reach kind careful prog s'

/-- All is done. -/
def Final (s : State S D) : Prop := s.todo = [] ∧ s.streams = [] ∧ s.queue = []

end Verif.SensorStreams
