import Verif.SortedMap

/-!
# Trimming of overlapping submaps

Model of `cartographer/mapping/internal/2d/overlapping_submaps_trimmer_2d.cc` (abbreviated ot). Ids of submaps, ids of nodes
and cells of the coverage grid are taken from arbitrary linear orders. The geometry (ot 80-98) is left out: a submap comes
with the list of cells of the coverage grid into which the centers of its known cells fall, in the order of the iteration.
-/

namespace Verif.Overlap

open Verif

variable {I N C : Type} [LinearOrder I] [LinearOrder N] [LinearOrder C]

/-- A submap of `GetOptimizedSubmapData`: its id, `insertion_finished()` and the covered cells. -/
structure Submap (I C : Type) where
  id : I
  finished : Bool
  cells : List C

/-- A constraint, of which only the ids and the tag are used. -/
structure Constraint (I N : Type) where
  submap : I
  node : N
  intra : Bool

/-- `AddPoint` (ot 36-41) for the point in the given cell. -/
def addPoint (id : I) (time : Int) (grid : List (C × List (I × Int))) (cell : C) : List (C × List (I × Int)) :=
  SMap.put cell ((SMap.get? cell grid).getD [] ++ [(id, time)]) grid

/-- One submap of `AddSubmapsToSubmapCoverageGrid2D` (ot 62-98), with the ids collected so far. -/
def addSubmap (freshness : List (I × Int)) (acc : List I × List (C × List (I × Int))) (s : Submap I C) :
    List I × List (C × List (I × Int)) :=
  match SMap.get? s.id freshness with
  | none => acc
  | some time =>
    if s.finished then (acc.1 ++ [s.id], s.cells.foldl (addPoint s.id time) acc.2)
    else acc

/-- `AddSubmapsToSubmapCoverageGrid2D` (ot 55-101). The ids go into a `std::set`; they come in increasing order. -/
def addSubmaps (freshness : List (I × Int)) (data : List (Submap I C)) : List I × List (C × List (I × Int)) :=
  data.foldl (addSubmap freshness) ([], [])

/-- One constraint of `ComputeSubmapFreshness` (ot 114-124). -/
def addConstraint (latest : List (I × N)) (c : Constraint I N) : List (I × N) :=
  if c.intra then
    match SMap.get? c.submap latest with
    | none => SMap.put c.submap c.node latest
    | some n => SMap.put c.submap (max n c.node) latest
  else latest

/-- One entry of the second loop of `ComputeSubmapFreshness` (ot 129-138). -/
def addFreshness (data : List (Submap I C)) (nodes : List (N × Int)) (freshness : List (I × Int)) (e : I × N) :
    List (I × Int) :=
  if data.any (fun s => s.id = e.1) then
    match SMap.get? e.2 nodes with
    | none => freshness
    | some time => SMap.put e.1 time freshness
  else freshness

/-- `ComputeSubmapFreshness` (ot 105-141); `nodes` holds the times of the trajectory nodes. -/
def computeFreshness (data : List (Submap I C)) (nodes : List (N × Int)) (constraints : List (Constraint I N)) :
    List (I × Int) :=
  (constraints.foldl addConstraint []).foldl (addFreshness data nodes) []

/-- The entries of a cell that are counted (ot 151-165). `sort` is `std::sort` by decreasing time, which may order entries of
the same time in any way. -/
def kept (sort : List (I × Int) → List (I × Int)) (count : Nat) (l : List (I × Int)) : List (I × Int) :=
  if l.length > count then (sort l).take count else l

/-- `++submap_to_covered_cells_count[submap.first]` (ot 167); the counter is a `uint16`. -/
def increment (counts : List (I × Nat)) (e : I × Int) : List (I × Nat) :=
  SMap.put e.1 (((SMap.get? e.1 counts).getD 0 + 1) % 65536) counts

/-- `std::set_difference`. -/
def setDifference : List I → List I → List I
  | [], _ => []
  | a :: l, [] => a :: l
  | a :: l, b :: m =>
    if a < b then a :: setDifference l (b :: m)
    else if b < a then setDifference (a :: l) m
    else setDifference l m
  termination_by l m => l.length + m.length

/-- `FindSubmapIdsToTrim` (ot 145-182). -/
def findSubmapIdsToTrim (sort : List (I × Int) → List (I × Int)) (grid : List (C × List (I × Int))) (ids : List I)
    (freshCount minCells : Nat) : List I :=
  let counts := grid.foldl (fun counts cell => (kept sort freshCount cell.2).foldl increment counts) []
  let keep := counts.filterMap fun e => if e.2 < minCells then none else some e.1
  setDifference ids keep

/-- The part of `Trim` that selects submaps (ot 197-204). -/
def select (sort : List (I × Int) → List (I × Int)) (freshCount minCells : Nat) (data : List (Submap I C))
    (nodes : List (N × Int)) (constraints : List (Constraint I N)) : List I :=
  let r := addSubmaps (computeFreshness data nodes constraints) data
  findSubmapIdsToTrim sort r.2 r.1 freshCount minCells

/-- The options of the trimmer: `fresh_submaps_count_`, the result of `min_covered_area_ / Pow2(resolution)`, rounded down,
and `min_added_submaps_count_`. -/
structure Options where
  freshCount : Nat
  minCells : Nat
  minAdded : Nat

/-- The result of `Trim`: `current_submap_count_` and the ids in the order of the calls to `TrimSubmap`. -/
structure Result (I : Type) where
  current : Nat
  removed : List I

/-- `Trim` (ot 186-209). `current` is `current_submap_count_`, a `uint16`; the difference in line 188 is computed modulo
`2 ^ 64`. `none` is undefined behaviour: the first of no submaps (ot 193), and the conversion of a number of cells that
does not fit a `uint16` (ot 204). -/
def trim (sort : List (I × Int) → List (I × Int)) (o : Options) (current : Nat) (data : List (Submap I C))
    (nodes : List (N × Int)) (constraints : List (Constraint I N)) : Option (Result I) :=
  if (data.length + 2 ^ 64 - current) % 2 ^ 64 ≤ o.minAdded then some ⟨current, []⟩
  else if data.isEmpty then none
  else if 65536 ≤ o.minCells then none
  else
    let removed := select sort o.freshCount o.minCells data nodes constraints
    some ⟨(data.length - removed.length) % 65536, removed⟩

end Verif.Overlap
