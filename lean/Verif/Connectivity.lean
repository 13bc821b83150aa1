import Verif.SortedMap
import Mathlib.Order.Basic
import Mathlib.Data.Int.Order.Basic

/-!
# Connectivity of trajectories

Model of `cartographer/mapping/internal/connected_components.{h,cc}` and
`mapping/internal/trajectory_connectivity_state.{h,cc}`.  `int` is `Int`; a failing `CHECK` is `none`.
Every public function of `ConnectedComponents` holds the lock while it works, so it is one atomic step.
-/

namespace Verif.Conn

open Verif.SMap

abbrev Forest := List (Int × Int)

/-- `ConnectedComponents` (connected_components.h:36-83).  `forest_` is the sorted list of its entries; `connection_map_`
is only accessed by key, so it is the function from keys to values with 0 for missing keys. -/
structure CC where
  forest : Forest
  count : Int × Int → Nat

/-- The constructor (connected_components.cc:28-29). -/
def CC.empty : CC := ⟨[], fun _ => 0⟩

/-- `std::minmax`. -/
def minmax (a b : Int) : Int × Int := (min a b, max a b)

/-- `forest_.emplace(id, id)`: nothing happens if the key exists. -/
def emplace (f : Forest) (a : Int) : Forest := if (get? a f).isSome then f else put a a f

/-- `FindSet` (connected_components.cc:53-61) with path compression; `n` bounds the depth of the recursion. -/
def findSetN : Nat → Forest → Int → Option (Int × Forest)
  | 0, _, _ => none
  | n + 1, f, x => do
    let y ← get? x f
    if x ≠ y then do
      let (r, f') ← findSetN n f y
      some (r, put x r f')
    else some (y, f)

/-- `FindSet`; the recursion is proved never to be deeper than the number of entries. -/
def findSet (f : Forest) (x : Int) : Option (Int × Forest) := findSetN f.length f x

/-- `Add` (connected_components.cc:31-34). -/
def CC.add (s : CC) (a : Int) : CC := { s with forest := emplace s.forest a }

/-- `Union` (connected_components.cc:44-51). -/
def union (f : Forest) (a b : Int) : Option Forest := do
  let f := emplace f a
  let f := emplace f b
  let (ra, f) ← findSet f a
  let (rb, f) ← findSet f b
  some (put ra rb f)

/-- `Connect` (connected_components.cc:36-42). -/
def CC.connect (s : CC) (a b : Int) : Option CC := do
  let f ← union s.forest a b
  some ⟨f, fun k => if k = minmax a b then s.count k + 1 else s.count k⟩

/-- `TransitivelyConnected` (connected_components.cc:63-76); compresses paths. -/
def CC.transitivelyConnected (s : CC) (a b : Int) : Option (Bool × CC) :=
  if a = b then some (true, s)
  else if (get? a s.forest).isNone || (get? b s.forest).isNone then some (false, s)
  else do
    let (ra, f) ← findSet s.forest a
    let (rb, f) ← findSet f b
    some (ra == rb, { s with forest := f })

/-- `map[r].push_back(x)` for a hash map from representatives to clusters, in the order of creation. -/
def pushCluster (r x : Int) : List (Int × List Int) → List (Int × List Int)
  | [] => [(r, [x])]
  | (r', c) :: m => if r' = r then (r', c ++ [x]) :: m else (r', c) :: pushCluster r x m

/-- The loop of `Components` (connected_components.cc:82-85). -/
def componentsLoop : List Int → Forest → List (Int × List Int) → Option (List (Int × List Int) × Forest)
  | [], f, m => some (m, f)
  | x :: xs, f, m => do
    let (r, f) ← findSet f x
    componentsLoop xs f (pushCluster r x m)

/-- `Components` (connected_components.cc:78-93); the order of the clusters is that of a hash map, hence unspecified. -/
def CC.components (s : CC) : Option (List (List Int) × CC) := do
  let (m, f) ← componentsLoop (s.forest.map Prod.fst) s.forest []
  some (m.map Prod.snd, { s with forest := f })

/-- The loop of `GetComponent` (connected_components.cc:99-103). -/
def getComponentLoop (r : Int) : List Int → Forest → Option (List Int × Forest)
  | [], f => some ([], f)
  | x :: xs, f => do
    let (r', f) ← findSet f x
    let (c, f) ← getComponentLoop r xs f
    some (if r' = r then x :: c else c, f)

/-- `GetComponent` (connected_components.cc:95-105). -/
def CC.getComponent (s : CC) (a : Int) : Option (List Int × CC) := do
  let (r, f) ← findSet s.forest a
  let (c, f) ← getComponentLoop r (f.map Prod.fst) f
  some (c, { s with forest := f })

/-- `ConnectionCount` (connected_components.cc:107-113). -/
def CC.connectionCount (s : CC) (a b : Int) : Nat := s.count (minmax a b)

/-- `TrajectoryConnectivityState` (trajectory_connectivity_state.h:31-72).  `last_connection_time_map_` is only accessed with
`operator[]`, whose default is the time 0. -/
structure TCS where
  cc : CC
  last : Int × Int → Int

def TCS.empty : TCS := ⟨CC.empty, fun _ => 0⟩

/-- `Add` (trajectory_connectivity_state.cc:22-24). -/
def TCS.add (s : TCS) (a : Int) : TCS := { s with cc := s.cc.add a }

/-- The two loops of trajectory_connectivity_state.cc:47-52. -/
def setTimes (as bs : List Int) (t : Int) (last : Int × Int → Int) : Int × Int → Int :=
  as.foldl (fun last a => bs.foldl (fun last b => fun k => if k = minmax a b then t else last k) last) last

/-- `Connect` (trajectory_connectivity_state.cc:26-55). -/
def TCS.connect (s : TCS) (a b : Int) (t : Int) : Option TCS := do
  let (c, cc) ← s.cc.transitivelyConnected a b
  if c then
    let last := fun k => if k = minmax a b ∧ s.last k < t then t else s.last k
    let cc ← cc.connect a b
    some ⟨cc, last⟩
  else do
    let (ca, cc) ← cc.getComponent a
    let (cb, cc) ← cc.getComponent b
    let cc ← cc.connect a b
    some ⟨cc, setTimes ca cb t s.last⟩

/-- `TransitivelyConnected` (trajectory_connectivity_state.cc:57-61). -/
def TCS.transitivelyConnected (s : TCS) (a b : Int) : Option (Bool × TCS) := do
  let (c, cc) ← s.cc.transitivelyConnected a b
  some (c, { s with cc })

/-- `LastConnectionTime` (trajectory_connectivity_state.cc:67-71). -/
def TCS.lastConnectionTime (s : TCS) (a b : Int) : Int := s.last (minmax a b)

end Verif.Conn
