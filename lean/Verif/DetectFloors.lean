import Mathlib.Algebra.Order.Field.Rat
import Mathlib.Algebra.Order.Group.Abs

/-!
# Detection of floors

Model of `cartographer/mapping/detect_floors.cc`.  `double` is ℚ; the norm of a horizontal difference is an argument.  `none` is a failing `CHECK`, an
index that is not one of a container, or a recursion that does not end.
-/

namespace Verif.Floors

/-- A node of a trajectory (proto/trajectory.proto); the timestamp is kept as it is. -/
structure Node where
  x : ℚ
  y : ℚ
  z : ℚ
  time : Int
  deriving DecidableEq, Repr

/-- `Span` (detect_floors.cc:42-51). -/
structure Span where
  start : Nat
  stop : Nat
  zs : List ℚ
  deriving DecidableEq, Repr

/-- `Floor` with its `Timespan`s (detect_floors.h:29-43). -/
structure Floor where
  timespans : List (Int × Int)
  z : ℚ
  deriving DecidableEq, Repr

/-- `LevelFind` (detect_floors.cc:54-61).  The keys of `Levels` are always the indices of the spans, so that the map is a list.  The fuel limits the depth
of the recursion. -/
def find : Nat → Nat → List Nat → Option Nat
  | 0, _, _ => none
  | fuel + 1, i, levels => do
    let p ← levels[i]?
    if i = p then some p else find fuel p levels

/-- `LevelUnion` (detect_floors.cc:63-67). -/
def union (i j : Nat) (levels : List Nat) : Option (List Nat) := do
  let a ← find levels.length i levels
  let b ← find levels.length j levels
  some (levels.set a b)

/-- `InsertSorted` (detect_floors.cc:69-71). -/
def insertSorted (v : ℚ) (l : List ℚ) : List ℚ := l.takeWhile (fun x => decide (x ≤ v)) ++ v :: l.dropWhile (fun x => decide (x ≤ v))

/-- `Median` (detect_floors.cc:73-76). -/
def median (l : List ℚ) : Option ℚ := l[l.length / 2]?

/-- The loop of `SliceByAltitudeChange` (detect_floors.cc:85-93); `done` are the spans before the last one. -/
def sliceLoop : List ℚ → Nat → List Span → Span → Option (List Span)
  | [], _, done, last => some (done ++ [last])
  | z :: zs, i, done, last => do
    let m ← median last.zs
    if 5 / 2 < |m - z| then sliceLoop zs (i + 1) (done ++ [last]) ⟨i, i + 1, insertSorted z []⟩
    else sliceLoop zs (i + 1) done ⟨last.start, i + 1, insertSorted z last.zs⟩

/-- `SliceByAltitudeChange` (detect_floors.cc:80-95). -/
def slice (nodes : List Node) : Option (List Span) :=
  match nodes.map Node.z with
  | [] => none
  | z :: zs => sliceLoop zs 1 [] ⟨0, 0, [z]⟩

/-- `SpanLength` (detect_floors.cc:98-107). -/
def spanLength (dist : Node → Node → ℚ) (nodes : List Node) (s : Span) : Option ℚ :=
  (List.range (s.stop - (s.start + 1))).foldlM (fun l k => do
    let a ← nodes[s.start + k]?
    let b ← nodes[s.start + 1 + k]?
    some (l + dist a b)) 0

/-- `IsShort` (detect_floors.cc:111-113). -/
def isShort (dist : Node → Node → ℚ) (nodes : List Node) (s : Span) : Option Bool := do
  let l ← spanLength dist nodes s
  some (decide (l < 25))

/-- The body of the loops of `GroupSegmentsByAltitude` (detect_floors.cc:120-123). -/
def groupPair (spans : List Span) (levels : List Nat) (ij : Nat × Nat) : Option (List Nat) := do
  let a ← spans[ij.1]?
  let b ← spans[ij.2]?
  let ma ← median a.zs
  let mb ← median b.zs
  if |ma - mb| < 1 then union ij.1 ij.2 levels else some levels

/-- The pairs of indices in the order of the loops (detect_floors.cc:118-119). -/
def indexPairs (n : Nat) : List (Nat × Nat) := (List.range n).flatMap fun i => (List.range' (i + 1) (n - (i + 1))).map fun j => (i, j)

/-- `GroupSegmentsByAltitude` (detect_floors.cc:116-127). -/
def group (spans : List Span) (levels : List Nat) : Option (List Nat) := (indexPairs spans.length).foldlM (groupPair spans) levels

/-- `level_spans[level].push_back(span)`.  The keys of `level_spans` are indices of spans, and entries without spans have no effect, so that the map is a
list of that many entries. -/
def pushSpan (level : Nat) (s : Span) (m : List (List Span)) : List (List Span) := m.modify level (· ++ [s])

/-- The first loop of `FindFloors` (detect_floors.cc:135-140). -/
def longStep (dist : Node → Node → ℚ) (nodes : List Node) (spans : List Span) (levels : List Nat) (m : List (List Span)) (i : Nat) : Option (List (List Span)) := do
  let s ← spans[i]?
  let short ← isShort dist nodes s
  if short then some m
  else do
    let level ← find levels.length i levels
    some (pushSpan level s m)

/-- `if (index < spans.size()) level_spans[LevelFind(index, levels)].push_back(span)` (detect_floors.cc:159-165). -/
def pushNeighbour (spans : List Span) (levels : List Nat) (s : Span) (index : Option Nat) (m : List (List Span)) : Option (List (List Span)) :=
  match index with
  | none => some m
  | some k =>
    if k < spans.length then do
      let level ← find levels.length k levels
      some (pushSpan level s m)
    else some m

/-- The second loop of `FindFloors` (detect_floors.cc:142-166).  `i - 1` of an unsigned zero is no index. -/
def shortStep (dist : Node → Node → ℚ) (nodes : List Node) (spans : List Span) (levels : List Nat) (m : List (List Span)) (i : Nat) : Option (List (List Span)) := do
  let s ← spans[i]?
  let short ← isShort dist nodes s
  if short then do
    let level ← find levels.length i levels
    let entry ← m[level]?
    if entry.isEmpty then do
      let m ← pushNeighbour spans levels s (if i = 0 then none else some (i - 1)) m
      pushNeighbour spans levels s (some (i + 1)) m
    else some (pushSpan level s m)
  else some m

/-- Insertion into a sorted list. -/
def insertBy {α : Type} (le : α → α → Bool) (a : α) : List α → List α
  | [] => [a]
  | b :: l => if le a b then a :: b :: l else b :: insertBy le a l

/-- `std::sort` by an order. -/
def sortBy {α : Type} (le : α → α → Bool) : List α → List α
  | [] => []
  | a :: l => insertBy le a (sortBy le l)

/-- The order of `Span` (detect_floors.cc:47-50). -/
def spanLe (a b : Span) : Bool := decide (a.start < b.start) || (decide (a.start = b.start) && decide (a.stop ≤ b.stop))

/-- The times of a span (detect_floors.cc:186-189). -/
def timespan (nodes : List Node) (s : Span) : Option (Int × Int) := do
  let a ← nodes[s.start]?
  if s.stop = 0 then none
  else do
    let b ← nodes[s.stop - 1]?
    some (a.time, b.time)

/-- The conversion of one level (detect_floors.cc:170-198). -/
def levelFloor (dist : Node → Node → ℚ) (nodes : List Node) (level : List Span) : Option (Option Floor) :=
  if level.isEmpty then some none
  else do
    let sorted := sortBy spanLe level
    let zs ← sorted.mapM fun s => do
      let short ← isShort dist nodes s
      some (if short then [] else s.zs)
    let timespans ← sorted.mapM (timespan nodes)
    let zs := zs.flatten
    if zs.isEmpty then some none
    else do
      let z ← median (sortBy (fun a b => decide (a ≤ b)) zs)
      some (some ⟨timespans, z⟩)

/-- `FindFloors` (detect_floors.cc:129-200). -/
def findFloors (dist : Node → Node → ℚ) (nodes : List Node) (spans : List Span) (levels : List Nat) : Option (List Floor) := do
  let m ← (List.range spans.length).foldlM (longStep dist nodes spans levels) (List.replicate spans.length [])
  let m ← (List.range spans.length).foldlM (shortStep dist nodes spans levels) m
  let floors ← m.mapM (levelFloor dist nodes)
  some (floors.filterMap id)

/-- `DetectFloors` (detect_floors.cc:204-217); `sort` is `std::sort` by `z`. -/
def detectFloors (dist : Node → Node → ℚ) (sort : List Floor → List Floor) (nodes : List Node) : Option (List Floor) := do
  let spans ← slice nodes
  let levels ← group spans (List.range spans.length)
  let floors ← findFloors dist nodes spans levels
  some (sort floors)

end Verif.Floors
