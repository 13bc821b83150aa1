import Verif.OrderedMultiQueue

/-!
# Specification of the ordered multi queue

Notions used to state C03-C06.  Apart from the type of operations they do not refer to the model.
-/

namespace Verif.OMQ

variable {K J D T : Type} [LinearOrder K] [LinearOrder T]
variable (traj : K → J) (time : D → T)

/-- Delivery order: by time, then by key. -/
def Le (a b : K × D) : Prop := time a.2 < time b.2 ∨ (time a.2 = time b.2 ∧ a.1 ≤ b.1)

/-- Data delivered from a stream given the common start time: an item is kept if it is not before the
start, or its successor is after the start, or it is the last of the stream. -/
def kept (st : T) : List D → List D
  | [] => []
  | [x] => [x]
  | x :: y :: r => if st ≤ time x ∨ st < time y then x :: kept st (y :: r) else kept st (y :: r)

/-- Items of one key in an output sequence. -/
def emitted (k : K) (outs : List (K × D)) : List D := (outs.filter (fun o => o.1 = k)).map Prod.snd

/-- `st` is the latest of the first items of the nonempty streams of trajectory `j`. -/
def IsStart (reg : K → Prop) (streams : K → List D) (j : J) (st : T) : Prop :=
  (∃ k d, reg k ∧ traj k = j ∧ (streams k).head? = some d ∧ time d = st) ∧
  ∀ k d, reg k → traj k = j → (streams k).head? = some d → time d ≤ st

/-- Data added for key `k` in a history. -/
def input (k : K) : List (Op K D) → List D
  | [] => []
  | .add k' d :: r => if k' = k then d :: input k r else input k r
  | .finish _ :: r => input k r
  | .flush :: r => input k r

/-- Histories respecting the documented protocol (ordered_multi_queue.h:55-65) for the registered queues
`reg`, of which `opn` are not finished yet: no data after `MarkQueueAsFinished`, finish at most once.
Data for unregistered queues is allowed. -/
def Valid (reg : K → Prop) (opn : K → Prop) : List (Op K D) → Prop
  | [] => True
  | .add k _ :: r => (opn k ∨ ¬ reg k) ∧ Valid reg opn r
  | .finish k :: r => opn k ∧ Valid reg (fun k' => opn k' ∧ k' ≠ k) r
  | .flush :: r => Valid reg (fun _ => False) r

/-- Queue `k` was finished by the history. -/
def Closes (k : K) : List (Op K D) → Prop
  | [] => False
  | .add _ _ :: r => Closes k r
  | .finish k' :: r => k' = k ∨ Closes k r
  | .flush :: _ => True

/-- A continuation that touches neither `b` nor flushes dispatches nothing. -/
def Avoids (b : K) : List (Op K D) → Prop
  | [] => True
  | .add k _ :: r => k ≠ b ∧ Avoids b r
  | .finish k :: r => k ≠ b ∧ Avoids b r
  | .flush :: _ => False

end Verif.OMQ
