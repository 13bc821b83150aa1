import Verif.MapById
import Mathlib.Order.BoundedOrder.Basic

/-!
# `MapByTime`

Model of `cartographer/sensor/map_by_time.h`.  Times are an arbitrary linear order with least and greatest
element (`Time::min()`, `Time::max()`).
-/

namespace Verif.MapByTime

variable {T D N : Type} [LinearOrder T] [BoundedOrder T]

/-- `data_` (map_by_time.h:207). -/
abbrev Map (T D : Type) := List (Int × List (T × D))

/-- `Append` (lines 39-46); `none` is a failing `CHECK`. -/
def append (time : D → T) (m : Map T D) (t : Int) (d : D) : Option (Map T D) :=
  if t < 0 then none
  else
    let tr := (SMap.get? t m).getD []
    match tr.getLast? with
    | none => some (SMap.put t (SMap.put (time d) d tr) m)
    | some l => if l.1 < time d then some (SMap.put t (SMap.put (time d) d tr) m) else none

/-- `gap_start` (lines 64-67). -/
def gapStart (ntime : N → T) (nodes : MapById.Map N) (id : MapById.Id) : Option T :=
  let it := MapById.find nodes id
  if it.eq (MapById.beginOfTrajectory nodes id.1) then some ⊥
  else it.prev.bind (fun p => p.deref.map (fun x => ntime x.2))

/-- `gap_end` (lines 68-71). -/
def gapEnd (ntime : N → T) (nodes : MapById.Map N) (id : MapById.Id) : Option T :=
  (MapById.find nodes id).next.bind (fun nx =>
    if nx.eq (MapById.endOfTrajectory nodes id.1) then some ⊤
    else nx.deref.map (fun x => ntime x.2))

/-- Erasing the positions from `lo` up to `hi` (lines 91-93); `none`: the loop runs past the end. -/
def eraseRange (tr : List (T × D)) (lo hi : Nat) : Option (List (T × D)) :=
  if lo ≤ hi ∧ hi ≤ tr.length then some (tr.take lo ++ tr.drop hi) else none

/-- Lines 75-93 for the data of one trajectory: positions instead of iterators. -/
def trimData (tr : List (T × D)) (gs ge : T) : Option (List (T × D)) :=
  let lo := (tr.takeWhile (fun e => e.1 < gs)).length
  let hi := (tr.takeWhile (fun e => e.1 ≤ ge)).length
  if lo = hi then some tr
  else if ge ≠ ⊤ then
    if lo = hi - 1 then some tr
    else eraseRange tr (if gs ≠ ⊥ then lo + 1 else lo) (hi - 1)
  else eraseRange tr (if gs ≠ ⊥ then lo + 1 else lo) hi

/-- `Trim` (lines 50-97); `none` is a failing `CHECK` or undefined behaviour.  The early returns leave a
non-empty trajectory, so that the final clean-up may be applied to them as well. -/
def trim (ntime : N → T) (nodes : MapById.Map N) (id : MapById.Id) (m : Map T D) : Option (Map T D) :=
  if id.1 < 0 then none
  else
    match SMap.get? id.1 m with
    | none => some m
    | some tr =>
      if (MapById.find nodes id).eq (MapById.end_ nodes) then none
      else
        match gapStart ntime nodes id, gapEnd ntime nodes id with
        | some gs, some ge =>
          if gs < ge then
            match trimData tr gs ge with
            | none => none
            | some tr' => if tr'.isEmpty then some (SMap.erase id.1 m) else some (SMap.put id.1 tr' m)
          else none
        | _, _ => none

/-- `HasTrajectory` (lines 99-101). -/
def hasTrajectory (m : Map T D) (t : Int) : Bool := (SMap.get? t m).isSome

/-- The elements from `lower_bound` on (lines 201-204); `none` is the exception of `at`. -/
def fromLowerBound (m : Map T D) (t : Int) (tm : T) : Option (List (T × D)) :=
  (SMap.get? t m).map (fun tr => tr.dropWhile (fun e => e.1 < tm))

end Verif.MapByTime
