import Verif.SortedMap
import Mathlib.Algebra.Order.Ring.Int

/-!
# `MapById`

Model of `cartographer/mapping/id.h`.  An id is a pair (trajectory id, index).  Both `NodeId` and
`SubmapId` instances behave the same.  Integers are unbounded.
-/

namespace Verif.MapById

/-- `NodeId` / `SubmapId` (id.h:56-82, 87-113): trajectory id and index. -/
abbrev Id := Int × Int

/-- `operator<` of ids (id.h:71-74, 102-105): lexicographic. -/
def idLt (a b : Id) : Prop := a.1 < b.1 ∨ (a.1 = b.1 ∧ a.2 < b.2)

instance (a b : Id) : Decidable (idLt a b) := inferInstanceAs (Decidable (_ ∨ _))

/-- `MapByIndex` (id.h:409-412). -/
structure Traj (D : Type) where
  canAppend : Bool := true
  data : List (Int × D) := []

/-- `trajectories_` (id.h:417). -/
abbrev Map (D : Type) := List (Int × Traj D)

variable {D : Type}

/-- `trajectories_[t]`, default constructed if missing. -/
def trajOrNew (m : Map D) (t : Int) : Traj D := (SMap.get? t m).getD {}

/-- Index used by `Append` (id.h:273-274): one past the last or zero. -/
def nextIndex (data : List (Int × D)) : Int :=
  match data.getLast? with
  | none => 0
  | some e => e.1 + 1

/-- `Append` (id.h:269-277); `none` is a failing `CHECK`. -/
def append (m : Map D) (t : Int) (d : D) : Option (Map D × Id) :=
  if t < 0 then none
  else
    let tr := trajOrNew m t
    if tr.canAppend then
      let i := nextIndex tr.data
      some (SMap.put t { tr with data := SMap.put i d tr.data } m, (t, i))
    else none

/-- `Insert` (id.h:286-292); `none` is a failing `CHECK`. -/
def insert (m : Map D) (id : Id) (d : D) : Option (Map D) :=
  if id.1 < 0 ∨ id.2 < 0 then none
  else
    let tr := trajOrNew m id.1
    match SMap.get? id.2 tr.data with
    | some _ => none
    | none => some (SMap.put id.1 { canAppend := false, data := SMap.put id.2 d tr.data } m)

/-- `std::next(it) == trajectory.data_.end()` for the element with index `i` (id.h:299). -/
def isLast (data : List (Int × D)) (i : Int) : Bool := (data.getLast?.map (·.1)) == some i

/-- `Trim` (id.h:295-310); `none` is a failing `CHECK` or the exception of `at`. -/
def trim (m : Map D) (id : Id) : Option (Map D) :=
  match SMap.get? id.1 m with
  | none => none
  | some tr =>
    match SMap.get? id.2 tr.data with
    | none => none
    | some _ =>
      let ca := if isLast tr.data id.2 then false else tr.canAppend
      let data := SMap.erase id.2 tr.data
      if data.isEmpty then some (SMap.erase id.1 m)
      else some (SMap.put id.1 { canAppend := ca, data := data } m)

/-- `at` (id.h:317-323); `none` is the exception. -/
def at? (m : Map D) (id : Id) : Option D := (SMap.get? id.1 m).bind (fun tr => SMap.get? id.2 tr.data)

/-- Assignment through the reference returned by the non-const `at` (id.h:321-323). -/
def assign (m : Map D) (id : Id) (d : D) : Option (Map D) :=
  match SMap.get? id.1 m with
  | none => none
  | some tr =>
    match SMap.get? id.2 tr.data with
    | none => none
    | some _ => some (SMap.put id.1 { tr with data := SMap.put id.2 d tr.data } m)

/-- `Contains` (id.h:312-315). -/
def contains (m : Map D) (id : Id) : Bool :=
  match SMap.get? id.1 m with
  | none => false
  | some tr => (SMap.get? id.2 tr.data).isSome

/-- `SizeOfTrajectoryOrZero` (id.h:334-338). -/
def sizeOfTrajectoryOrZero (m : Map D) (t : Int) : Nat :=
  match SMap.get? t m with
  | none => 0
  | some tr => tr.data.length

/-- `size` (id.h:341-347). -/
def size (m : Map D) : Nat := m.foldl (fun n e => n + e.2.data.length) 0

/-- `ConstIterator` (id.h:146-230) as a position: the trajectories before `current_trajectory_` (nearest
first) and from it on (empty: `end_trajectory_`), the elements of the current trajectory before
`current_data_` (nearest first) and from it on.  At the end the data part is meaningless. -/
structure Iter (D : Type) where
  trPre : List (Int × Traj D)
  trSuf : List (Int × Traj D)
  daPre : List (Int × D)
  daSuf : List (Int × D)

/-- `AdvanceToValidDataIterator` (id.h:216-225). -/
def advance (trPre : List (Int × Traj D)) : List (Int × Traj D) → List (Int × D) → List (Int × D) → Iter D
  | [], daPre, daSuf => ⟨trPre, [], daPre, daSuf⟩
  | cur :: rest, daPre, x :: daSuf => ⟨trPre, cur :: rest, daPre, x :: daSuf⟩
  | cur :: [], daPre, [] => ⟨cur :: trPre, [], daPre, []⟩
  | cur :: nxt :: rest, _, [] => advance (cur :: trPre) (nxt :: rest) [] nxt.2.data

/-- Constructor from a trajectory id (id.h:154-162): `lower_bound` on the trajectories. -/
def beginOfTrajectory (m : Map D) (t : Int) : Iter D :=
  let pre := m.takeWhile (fun e => e.1 < t)
  match m.dropWhile (fun e => e.1 < t) with
  | [] => ⟨pre.reverse, [], [], []⟩
  | cur :: rest => advance pre.reverse (cur :: rest) [] cur.2.data

/-- `EndOfTrajectory` (id.h:329-331). -/
def endOfTrajectory (m : Map D) (t : Int) : Iter D := beginOfTrajectory m (t + 1)

/-- `std::numeric_limits<int>::max()`. -/
def intMax : Int := 2 ^ 31 - 1

/-- `begin` (id.h:362). -/
def begin_ (m : Map D) : Iter D := beginOfTrajectory m 0

/-- `end` (id.h:363-365). -/
def end_ (m : Map D) : Iter D := beginOfTrajectory m intMax

/-- Constructor from an id, `find` (id.h:164-174, 281-283). -/
def find (m : Map D) (id : Id) : Iter D :=
  match SMap.get? id.1 m with
  | none => ⟨m.reverse, [], [], []⟩
  | some tr =>
    match SMap.get? id.2 tr.data with
    | none => ⟨m.reverse, [], [], []⟩
    | some _ => ⟨(m.takeWhile (fun e => e.1 ≠ id.1)).reverse, m.dropWhile (fun e => e.1 ≠ id.1),
        (tr.data.takeWhile (fun e => e.1 ≠ id.2)).reverse, tr.data.dropWhile (fun e => e.1 ≠ id.2)⟩

/-- `operator*` (id.h:176-181); `none` is a failing `CHECK` or a past-the-end dereference. -/
def Iter.deref (it : Iter D) : Option (Id × D) :=
  match it.trSuf, it.daSuf with
  | cur :: _, x :: _ => some ((cur.1, x.1), x.2)
  | _, _ => none

/-- `operator++` (id.h:187-192). -/
def Iter.next (it : Iter D) : Option (Iter D) :=
  match it.trSuf, it.daSuf with
  | cur :: rest, x :: daSuf => some (advance it.trPre (cur :: rest) (x :: it.daPre) daSuf)
  | _, _ => none

/-- `operator--` (id.h:194-202); `none` is decrementing the begin iterator. -/
def retreat : List (Int × Traj D) → List (Int × Traj D) → List (Int × D) → List (Int × D) → Option (Iter D)
  | trPre, cur :: trSuf, x :: daPre, daSuf => some ⟨trPre, cur :: trSuf, daPre, x :: daSuf⟩
  | p :: trPre, trSuf, _, _ => retreat trPre (p :: trSuf) p.2.data.reverse []
  | [], _, _, _ => none

/-- `operator--` (id.h:194-202). -/
def Iter.prev (it : Iter D) : Option (Iter D) := retreat it.trPre it.trSuf it.daPre it.daSuf

/-- `operator==` (id.h:204-211); positions in the same map are compared by what is left of it. -/
def Iter.eq (a b : Iter D) : Bool :=
  if a.trSuf.isEmpty || b.trSuf.isEmpty then a.trSuf.length == b.trSuf.length
  else a.trSuf.length == b.trSuf.length && a.daSuf.length == b.daSuf.length

/-- `empty` (id.h:367). -/
def empty (m : Map D) : Bool := (begin_ m).eq (end_ m)

/-- `trajectory_ids` (id.h:356-360): the ids visited by a loop over the range. -/
def trajectoryIds (m : Map D) : List Int := m.map (·.1)

/-- `for (it = from; it != stop; ++it) visit(*it);` visits `L` without aborting. -/
inductive ForLoop (stop : Iter D) : Iter D → List (Id × D) → Prop where
  | done {it} : it.eq stop = true → ForLoop stop it []
  | next {it it' x L} : it.eq stop = false → it.deref = some x → it.next = some it' → ForLoop stop it' L →
      ForLoop stop it (x :: L)

/-- `for (it = from; it != stop;) { --it; visit(*it); }` visits `L` without aborting. -/
inductive BackLoop (stop : Iter D) : Iter D → List (Id × D) → Prop where
  | done {it} : it.eq stop = true → BackLoop stop it []
  | next {it it' x L} : it.eq stop = false → it.prev = some it' → it'.deref = some x → BackLoop stop it' L →
      BackLoop stop it (x :: L)

section LowerBound

variable {T : Type} [LinearOrder T] (time : D → T)

/-- `trajectory.lower_bound(k)` as a position (number of elements with a smaller key). -/
def lowerBoundPos (data : List (Int × D)) (k : Int) : Nat := (data.takeWhile (fun e => e.1 < k)).length

/-- `lower_bound_middle` of the loop body (id.h:390-398); `none` is a failing `CHECK` or an invalid
dereference. -/
def middlePos (data : List (Int × D)) (left right : Nat) : Option Nat := do
  let l ← data[left]?
  let r ← data[right]?
  let middle := l.1 + (r.1 - l.1) / 2
  let p := lowerBoundPos data middle
  let e ← data[p]?
  if e.1 > middle then
    if p = left then none else some (p - 1)
  else some p

/-- The loop of `lower_bound` (id.h:389-404), positions instead of iterators, at most `fuel` iterations;
`none` on an abort or when the fuel runs out. -/
def lowerBoundLoop (data : List (Int × D)) (tm : T) : Nat → Nat → Nat → Option Nat
  | 0, left, right => if left = right then some left else none
  | fuel + 1, left, right =>
    if left = right then some left
    else
      match middlePos data left right with
      | none => none
      | some p =>
        match data[p]? with
        | none => none
        | some e => if time e.2 < tm then lowerBoundLoop data tm fuel (p + 1) right
                    else lowerBoundLoop data tm fuel left p

/-- `lower_bound` (id.h:373-407).  The fuel is the number of elements; that it suffices is part of the
theorem, running out of it being an abort. -/
def lowerBound (m : Map D) (t : Int) (tm : T) : Option (Iter D) :=
  if sizeOfTrajectoryOrZero m t = 0 then some (endOfTrajectory m t)
  else
    match SMap.get? t m with
    | none => none
    | some tr =>
      match tr.data.getLast? with
      | none => none
      | some last =>
        if time last.2 < tm then some (endOfTrajectory m t)
        else
          match lowerBoundLoop time tr.data tm tr.data.length 0 (tr.data.length - 1) with
          | none => none
          | some p =>
            match tr.data[p]? with
            | none => none
            | some e => some (find m (t, e.1))

end LowerBound

end Verif.MapById
