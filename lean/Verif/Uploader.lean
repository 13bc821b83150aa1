import Verif.SortedMap
import Mathlib.Algebra.Order.Group.Int

/-!
# Uploading to another server

Model of `cloud/internal/local_trajectory_uploader.cc` as a transition system: the upload thread (`ProcessSendQueue`,
`TryRecovery`), the threads that enqueue data and add trajectories, and shutdown. The remote server and the network are
unconstrained: every request may fail, and a batch whose request fails may still have been accepted.

The accesses of the code to `local_trajectory_id_to_trajectory_info_` and `shutting_down_` are not synchronized; they are
modelled as atomic. The trajectories to register during a recovery are those known when the registration begins.
-/

namespace Verif.Uploader

open Verif

/-- `proto::SensorData`: the trajectory id of the metadata, for a local SLAM result the trajectory ids of its submaps and
whether each of them holds exactly one range data (`IsNewSubmap`, lines 54-57), and everything else. -/
structure Item where
  traj : Int
  submaps : Option (List (Int × Bool))
  rest : Nat
deriving DecidableEq

/-- An item in a batch. `orig` is a history variable: the item as it was enqueued. -/
structure Out where
  orig : Item
  wire : Item
deriving DecidableEq

/-- Where the upload thread is: before the condition of the loop in `ProcessSendQueue` (205), at `client.Write` (230), at the
begin of `TryRecovery` (146), in its loop (162), before the reset (184), in the loop over the trajectories to register (191),
or finished. -/
inductive Pc where
  | loop
  | send
  | connect
  | wind
  | reset
  | register (todo : List Int)
  | done
deriving DecidableEq

/-- The uploader. `accepted` is what the remote server has accepted. History variables: `enqueued`, all items ever enqueued;
`registered`, all pairs of local and remote trajectory ids ever agreed on; `sent`, all batches for which a request was
made, with the number of times they were accepted. -/
structure State where
  infos : List (Int × Option Int) := []
  queue : List Item := []
  batch : List Out := []
  pc : Pc := .loop
  shuttingDown : Bool := false
  accepted : List (List Out) := []
  enqueued : List Item := []
  registered : List (Int × Int) := []
  sent : List (List Out × Nat) := []

/-- The outcome of an attempt to send a batch: success, an error after which the client tries again, or an error after which
it gives up (227-229). -/
inductive Outcome where
  | ok
  | retry
  | fail
deriving DecidableEq

/-- What may happen. -/
inductive Act where
  /-- `EnqueueSensorData` (329-332). -/
  | enqueue (x : Item)
  /-- `AddTrajectory` (261-271), with the answer of the remote server. -/
  | addTrajectory (t : Int) (answer : Option Int)
  /-- `Shutdown` sets the flag (139). -/
  | shutdown
  /-- The upload thread sees the flag at the head of its loop (205). -/
  | leave
  /-- The upload thread takes an item (206-224). -/
  | pop
  /-- An attempt to send the batch (230-239); `acc`: the remote server accepted it. -/
  | attempt (acc : Bool) (o : Outcome)
  /-- The connection is there, or `TryRecovery` returns (146-156). -/
  | connected (ok : Bool)
  /-- One round of the loop winding the queue forward (161-181). -/
  | wind
  /-- All trajectories lose their remote ids (185-187). -/
  | reset
  /-- One trajectory is registered again, with the answer (192-199). -/
  | register (answer : Option Int)
deriving DecidableEq

/-- `TranslateTrajectoryId` (245-259). -/
def translate (s : State) (t : Int) : Option Int := (SMap.get? t s.infos).join

/-- The item with trajectory ids replaced (212-224). -/
def rewrite (x : Item) (u : Int) : Item := { x with traj := u, submaps := x.submaps.map fun l => l.map fun e => (u, e.2) }

/-- The condition under which winding forward ends (169-175). -/
def startsSubmap (x : Item) : Bool :=
  match x.submaps with
  | none => false
  | some l =>
    match l.getLast? with
    | none => false
    | some e => e.2

/-- `sent` after the batch in flight was accepted once more. -/
def bump : List (List Out × Nat) → List (List Out × Nat)
  | [] => []
  | [e] => [(e.1, e.2 + 1)]
  | e :: e' :: l => e :: bump (e' :: l)

/-- One step; `none` if the action is not possible in the state, or aborts. `n` is `batch_size_`. -/
def exec (n : Int) (s : State) : Act → Option State
  | .enqueue x => some { s with queue := s.queue ++ [x], enqueued := s.enqueued ++ [x] }
  | .addTrajectory t a =>
    match SMap.get? t s.infos with
    | some _ => none
    | none => some { s with infos := SMap.put t a s.infos,
                            registered := s.registered ++ (a.map fun u => (t, u)).toList }
  | .shutdown => if s.shuttingDown then none else some { s with shuttingDown := true }
  | .leave => if s.pc = .loop ∧ s.shuttingDown = true then some { s with pc := .done } else none
  | .pop =>
    if s.pc = .loop ∧ s.shuttingDown = false then
      match s.queue with
      | [] => some s
      | x :: q =>
        match translate s x.traj with
        | none => some { s with queue := q, batch := [], pc := .connect }
        | some u =>
          let batch := s.batch ++ [⟨x, rewrite x u⟩]
          if (batch.length : Int) = n then
            some { s with queue := q, batch := batch, pc := .send, sent := s.sent ++ [(batch, 0)] }
          else some { s with queue := q, batch := batch }
    else none
  | .attempt acc o =>
    if s.pc = .send then
      let s1 := if acc then { s with accepted := s.accepted ++ [s.batch], sent := bump s.sent } else s
      match o with
      | .ok => if acc then some { s1 with batch := [], pc := .loop } else none
      | .retry => some s1
      | .fail => some { s1 with batch := [], pc := .connect }
    else none
  | .connected ok => if s.pc = .connect then some { s with pc := if ok then .wind else .loop } else none
  | .wind =>
    if s.pc = .wind then
      if s.shuttingDown = true then some { s with pc := .loop }
      else
        match s.queue with
        | [] => some s
        | x :: q => if startsSubmap x then some { s with pc := .reset } else some { s with queue := q }
    else none
  | .reset =>
    if s.pc = .reset then
      some { s with infos := s.infos.map fun e => (e.1, none), pc := .register (s.infos.map (·.1)) }
    else none
  | .register a =>
    match s.pc with
    | .register [] => some { s with pc := .loop }
    | .register (t :: todo) =>
      match a with
      | none => some { s with pc := .loop }
      | some u => some { s with infos := SMap.put t (some u) s.infos, pc := .register todo,
                                registered := s.registered ++ [(t, u)] }
    | _ => none

/-- Executions from the start. -/
inductive Exec (n : Int) : List Act → State → Prop where
  | init : Exec n [] {}
  | step {as : List Act} {s s' : State} {a : Act} : Exec n as s → exec n s a = some s' → Exec n (as ++ [a]) s'

end Verif.Uploader
