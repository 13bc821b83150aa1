import Mathlib.Data.List.Basic

/-!
# Blocking queue

Model of `cartographer/common/internal/blocking_queue.h`.  Any number of threads; each method body runs
under the mutex, `Await` leaves it and re-enters when its condition holds, so a call consists of its
invocation and of one atomic critical section in which it either has its effect or times out.  Waiting
times are not modelled: a timed call may time out whenever its condition is false
(`AwaitWithTimeout` returns the value of the condition).
-/

namespace Verif.BQ

/-- The public methods (blocking_queue.h:49-140). -/
inductive Call (α : Type) where
  | push (v : α)
  | pushWithTimeout (v : α)
  | pop
  | popWithTimeout
  | peekWithTimeout
  | peek
  | size
  | waitUntilEmpty

/-- Results of calls. -/
inductive Ret (α : Type) where
  | unit
  | bool (b : Bool)
  | val (v : α)
  | null
  | num (n : Nat)

/-- `QueueNotFullCondition` (lines 149-151); `cap` is `queue_size_`, 0 meaning infinite. -/
def notFull {α : Type} (cap : Nat) (items : List α) : Bool := cap == 0 || decide (items.length < cap)

/-- The critical section of a call when its condition holds; `none` when it has to wait
(lines 49-58, 60-72, 74-84, 86-99, 101-113, 118-125, 128-131, 134-140). -/
def serve {α : Type} (cap : Nat) (items : List α) : Call α → Option (List α × Ret α)
  | .push v => if notFull cap items then some (items ++ [v], .unit) else none
  | .pushWithTimeout v => if notFull cap items then some (items ++ [v], .bool true) else none
  | .pop =>
    match items with
    | [] => none
    | v :: r => some (r, .val v)
  | .popWithTimeout =>
    match items with
    | [] => none
    | v :: r => some (r, .val v)
  | .peekWithTimeout =>
    match items with
    | [] => none
    | v :: _ => some (items, .val v)
  | .peek =>
    match items with
    | [] => some (items, .null)
    | v :: _ => some (items, .val v)
  | .size => some (items, .num items.length)
  | .waitUntilEmpty => if items.isEmpty then some (items, .unit) else none

/-- Result of a call whose `AwaitWithTimeout` failed (lines 66-69, 92-95, 107-110); `none` for calls
without a timeout. -/
def timeout {α : Type} : Call α → Option (Ret α)
  | .pushWithTimeout _ => some (.bool false)
  | .popWithTimeout => some .null
  | .peekWithTimeout => some .null
  | _ => none

/-- The queue, the call each thread is inside of, and the completed calls in the order of their critical
sections. -/
structure State (P α : Type) where
  items : List α
  pending : P → Option (Call α)
  log : List (P × Call α × Ret α)

/-- After construction. -/
def init (P α : Type) : State P α := { items := [], pending := fun _ => none, log := [] }

variable {P α : Type} [DecidableEq P]

/-- One atomic step of thread `p`. -/
inductive Step (cap : Nat) : State P α → State P α → Prop where
  | invoke {s} (p : P) (c : Call α) : s.pending p = none →
      Step cap s { s with pending := fun x => if x = p then some c else s.pending x }
  | serve {s} (p : P) (c : Call α) (items' : List α) (r : Ret α) : s.pending p = some c →
      serve cap s.items c = some (items', r) →
      Step cap s { items := items', pending := fun x => if x = p then none else s.pending x,
                   log := s.log ++ [(p, c, r)] }
  | timeout {s} (p : P) (c : Call α) (r : Ret α) : s.pending p = some c →
      BQ.serve cap s.items c = none → BQ.timeout c = some r →
      Step cap s { items := s.items, pending := fun x => if x = p then none else s.pending x,
                   log := s.log ++ [(p, c, r)] }

/-- Reachable states of a queue of size `cap`. -/
inductive Reach (cap : Nat) : State P α → Prop where
  | init : Reach cap (init P α)
  | step {s s' : State P α} : Reach cap s → Step cap s s' → Reach cap s'

end Verif.BQ
