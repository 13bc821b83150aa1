import Verif.ProbabilityValues

/-!
# Two-dimensional grids

Model of `cartographer/mapping/2d/map_limits.h`, `mapping/2d/xy_index.h`, `mapping/2d/grid_2d.{h,cc}` and
`mapping/2d/probability_grid.cc`.  `float`/`double` are exact rationals, `int` cell indices are `Int`,
cell counts are `Nat` (no overflow), `uint16` cells are `Nat` (proved to stay below 2^16).  A failing `CHECK`
or an access outside a vector is `none`.
-/

namespace Verif.Grid2D

open Verif.Prob

/-- `MapLimits` (map_limits.h:40-96) together with `CellLimits` (xy_index.h:34-45). -/
structure MapLimits where
  resolution : ℚ
  maxX : ℚ
  maxY : ℚ
  numX : Nat
  numY : Nat
  deriving Repr, DecidableEq

/-- The constructor of `MapLimits` (map_limits.h:42-48) with its three `CHECK_GT`. -/
def mkLimits (resolution maxX maxY : ℚ) (numX numY : Nat) : Option MapLimits :=
  if 0 < resolution ∧ 0 < numX ∧ 0 < numY then some ⟨resolution, maxX, maxY, numX, numY⟩ else none

/-- `MapLimits::GetCellIndex` (map_limits.h:69-76).  The first component is computed from `y`. -/
def MapLimits.getCellIndex (l : MapLimits) (px py : ℚ) : Int × Int :=
  (roundToInt ((l.maxY - py) / l.resolution - 1 / 2), roundToInt ((l.maxX - px) / l.resolution - 1 / 2))

/-- `MapLimits::GetCellCenter` (map_limits.h:79-82). -/
def MapLimits.getCellCenter (l : MapLimits) (i : Int × Int) : ℚ × ℚ :=
  (l.maxX - l.resolution * (i.2 + 1 / 2), l.maxY - l.resolution * (i.1 + 1 / 2))

/-- `MapLimits::Contains` (map_limits.h:85-90). -/
def MapLimits.contains (l : MapLimits) (i : Int × Int) : Bool :=
  decide (0 ≤ i.1) && decide (0 ≤ i.2) && decide (i.1 < l.numX) && decide (i.2 < l.numY)

/-- `Eigen::AlignedBox2i` with `min` and `max` corner; the empty box is `none` in the model. -/
structure Box where
  minX : Int
  minY : Int
  maxX : Int
  maxY : Int
  deriving Repr, DecidableEq

/-- `AlignedBox2i::extend`. -/
def extendBox (b : Option Box) (i : Int × Int) : Option Box :=
  match b with
  | none => some ⟨i.1, i.2, i.1, i.2⟩
  | some b => some ⟨min b.minX i.1, min b.minY i.2, max b.maxX i.1, max b.maxY i.2⟩

/-- `AlignedBox2i::translate`, guarded by `!isEmpty()` as in grid_2d.cc:160-162. -/
def translateBox (b : Option Box) (dx dy : Int) : Option Box :=
  b.map fun b => ⟨b.minX + dx, b.minY + dy, b.maxX + dx, b.maxY + dy⟩

/-- `Grid2D` (grid_2d.h:118-127).  The conversion table pointer is determined by the two costs. -/
structure Grid where
  limits : MapLimits
  cells : List Nat
  minCost : ℚ
  maxCost : ℚ
  /-- `update_indices_`, the most recent index first -/
  updates : List Nat
  box : Option Box
  deriving Repr, DecidableEq

/-- `Grid2D::Grid2D` (grid_2d.cc:60-73): all cells unknown. -/
def create (l : MapLimits) (minCost maxCost : ℚ) : Option Grid :=
  if minCost < maxCost then some ⟨l, List.replicate (l.numX * l.numY) 0, minCost, maxCost, [], none⟩ else none

/-- `Grid2D::ToFlatIndex` (grid_2d.h:113-116). -/
def Grid.toFlatIndex (g : Grid) (i : Int × Int) : Option Nat :=
  if g.limits.contains i then some (g.limits.numX * i.2 + i.1).toNat else none

/-- Write to a vector; outside the vector is undefined behaviour (`none`). -/
def setAt? (l : List Nat) (k v : Nat) : Option (List Nat) :=
  if k < l.length then some (l.set k v) else none

/-- `Grid2D::GetCorrespondenceCost` (grid_2d.h:53-57). -/
def Grid.getCorrespondenceCost (g : Grid) (i : Int × Int) : Option ℚ :=
  if ¬ g.limits.contains i then some g.maxCost
  else do
    let k ← g.toFlatIndex i
    let c ← g.cells[k]?
    some (conversionTable c g.maxCost g.minCost g.maxCost)

/-- `Grid2D::IsKnown` (grid_2d.h:68-72). -/
def Grid.isKnown (g : Grid) (i : Int × Int) : Option Bool :=
  if ¬ g.limits.contains i then some false
  else do
    let k ← g.toFlatIndex i
    let c ← g.cells[k]?
    some (c != 0)

/-- The loop of `Grid2D::FinishUpdate` (grid_2d.cc:99-106) over the pending indices, last one first.  The
`DCHECK_GE` is treated as a `CHECK`. -/
def finishLoop : List Nat → List Nat → Option (List Nat)
  | [], cells => some cells
  | k :: ks, cells => do
    let c ← cells[k]?
    if c < updateMarker then none
    else finishLoop ks (cells.set k (c - updateMarker))

/-- `Grid2D::FinishUpdate` (grid_2d.cc:99-106). -/
def Grid.finishUpdate (g : Grid) : Option Grid := do
  let cells ← finishLoop g.updates g.cells
  some { g with cells, updates := [] }

/-- `ProbabilityGrid::ApplyLookupTable` (probability_grid.cc:58-71).  The table is a vector; the `DCHECK`s on
the table are treated as `CHECK`s. -/
def Grid.applyLookupTable (g : Grid) (i : Int × Int) (table : List Nat) : Option (Bool × Grid) := do
  if table.length ≠ updateMarker then none
  else
    let k ← g.toFlatIndex i
    let c ← g.cells[k]?
    if updateMarker ≤ c then some (false, g)
    else
      let c' ← table[c]?
      if c' < updateMarker then none
      else some (true, { g with cells := g.cells.set k c', updates := k :: g.updates, box := extendBox g.box i })

/-- `ProbabilityGrid::SetProbability` (probability_grid.cc:41-49). -/
def Grid.setProbability (g : Grid) (i : Int × Int) (p : ℚ) : Option Grid := do
  let k ← g.toFlatIndex i
  let c ← g.cells[k]?
  if c ≠ 0 then none
  else some { g with cells := g.cells.set k (costToValue (probabilityToCost p)), box := extendBox g.box i }

/-- `ProbabilityGrid::GetProbability` (probability_grid.cc:78-82). -/
def Grid.getProbability (g : Grid) (i : Int × Int) : Option ℚ :=
  if ¬ g.limits.contains i then some minProbability
  else do
    let k ← g.toFlatIndex i
    let c ← g.cells[k]?
    some (costToProbability (valueToCost c))

/-- A loop `for a in as: l[pos a] = rd a` over a vector `l`. -/
def scatter {α : Type} (pos : α → Nat) (rd : α → Option Nat) (as : List α) (l : List Nat) : Option (List Nat) :=
  as.foldlM (fun l a => do let v ← rd a; setAt? l (pos a) v) l

/-- The copy loop of `GrowLimits` (grid_2d.cc:149-156) for one vector of cells. -/
def growCells (numX numY unknown : Nat) (cells : List Nat) : Option (List Nat) :=
  let stride := 2 * numX
  let offset := numX / 2 + stride * (numY / 2)
  scatter (fun ij : Nat × Nat => offset + ij.2 + ij.1 * stride) (fun ij => cells[ij.2 + ij.1 * numX]?)
    ((List.range numY).flatMap fun i => (List.range numX).map fun j => (i, j))
    (List.replicate (2 * numX * (2 * numY)) unknown)

/-- The limits after one iteration of the loop of `GrowLimits` (grid_2d.cc:135-142). -/
def growMapLimits (l : MapLimits) : Option MapLimits :=
  mkLimits l.resolution (l.maxX + l.resolution * ((l.numY / 2 : Nat) : ℚ)) (l.maxY + l.resolution * ((l.numX / 2 : Nat) : ℚ))
    (2 * l.numX) (2 * l.numY)

/-- One iteration of the loop of `GrowLimits` (grid_2d.cc:135-162) for a grid with one vector of cells. -/
def Grid.growStep (g : Grid) : Option Grid := do
  let l ← growMapLimits g.limits
  let cells ← growCells g.limits.numX g.limits.numY 0 g.cells
  some { g with limits := l, cells, box := translateBox g.box (g.limits.numX / 2 : Nat) (g.limits.numY / 2 : Nat) }

/-- The `while` loop of `GrowLimits` (grid_2d.cc:134-163) limited to `n` iterations; `none` if it aborts or has
not finished after `n` iterations. -/
def Grid.growLoop : Nat → Grid → ℚ → ℚ → Option Grid
  | 0, g, px, py => if g.limits.contains (g.limits.getCellIndex px py) then some g else none
  | n + 1, g, px, py =>
    if g.limits.contains (g.limits.getCellIndex px py) then some g
    else do
      let g' ← g.growStep
      Grid.growLoop n g' px py

/-- `Grid2D::GrowLimits` (grid_2d.cc:125-164), limited to `n` iterations. -/
def Grid.growLimits (n : Nat) (g : Grid) (px py : ℚ) : Option Grid :=
  if g.updates ≠ [] then none else Grid.growLoop n g px py

/-- `Grid2D::ComputeCroppedLimits` (grid_2d.cc:110-120): offset and number of cells. -/
def Grid.croppedLimits (g : Grid) : (Int × Int) × (Int × Int) :=
  match g.box with
  | none => ((0, 0), (1, 1))
  | some b => ((b.minX, b.minY), (b.maxX - b.minX + 1, b.maxY - b.minY + 1))

/-- State of `XYIndexRangeIterator` (xy_index.h:55-109). -/
structure XYIter where
  min : Int × Int
  max : Int × Int
  cur : Int × Int
  deriving DecidableEq, Repr

/-- `XYIndexRangeIterator::begin` (xy_index.h:95-97). -/
def xyBegin (mn mx : Int × Int) : XYIter := ⟨mn, mx, mn⟩

/-- `XYIndexRangeIterator::end` (xy_index.h:99-103). -/
def xyEnd (mn mx : Int × Int) : XYIter := ⟨mn, mx, (mn.1, mx.2 + 1)⟩

/-- `XYIndexRangeIterator::operator++` (xy_index.h:71-83). -/
def XYIter.next (it : XYIter) : XYIter :=
  if it.cur.1 < it.max.1 then { it with cur := (it.cur.1 + 1, it.cur.2) }
  else { it with cur := (it.min.1, it.cur.2 + 1) }

/-- The range-based `for` loop over an iterator: collects the visited indices; `none` if the end has not been
reached after `n` increments. -/
def xyVisit : Nat → XYIter → Option (List (Int × Int))
  | 0, it => if it.cur = (xyEnd it.min it.max).cur then some [] else none
  | n + 1, it => if it.cur = (xyEnd it.min it.max).cur then some [] else (xyVisit n it.next).map (it.cur :: ·)

/-- `XYIndexRangeIterator(cell_limits)` (xy_index.h:66-69) used in a loop, with enough iterations. -/
def xyIndices (nx ny : Int) : Option (List (Int × Int)) :=
  xyVisit (nx.toNat * ny.toNat) (xyBegin (0, 0) (nx - 1, ny - 1))

/-- Addition of `Eigen::Array2i`. -/
def addIdx (i d : Int × Int) : Int × Int := (i.1 + d.1, i.2 + d.2)

/-- Body of the copy loop of `ComputeCroppedGrid` (probability_grid.cc:101-104). -/
def Grid.cropCell (g : Grid) (offset : Int × Int) (c : Grid) (i : Int × Int) : Option Grid := do
  let k ← g.isKnown (addIdx i offset)
  if k then
    let p ← g.getProbability (addIdx i offset)
    c.setProbability i p
  else some c

/-- `ProbabilityGrid::ComputeCroppedGrid` (probability_grid.cc:91-107). -/
def Grid.computeCroppedGrid (g : Grid) : Option Grid := do
  let offset := g.croppedLimits.1
  let size := g.croppedLimits.2
  let l ← mkLimits g.limits.resolution (g.limits.maxX - g.limits.resolution * offset.2)
    (g.limits.maxY - g.limits.resolution * offset.1) size.1.toNat size.2.toNat
  let c ← create l Verif.Prob.minCost Verif.Prob.maxCost
  let is ← xyIndices size.1 size.2
  is.foldlM (g.cropCell offset) c

/-- `proto::Grid2D` (mapping/proto/grid_2d.proto); the cells are `int32`. -/
structure Proto where
  resolution : ℚ
  maxX : ℚ
  maxY : ℚ
  numX : Int
  numY : Int
  cells : List Int
  box : Option Box
  minCost : ℚ
  maxCost : ℚ
  deriving Repr, DecidableEq

/-- `Grid2D::ToProto` (grid_2d.cc:166-183), `ToProto(MapLimits)` (map_limits.h:98-104). -/
def Grid.toProto (g : Grid) : Option Proto :=
  if g.updates ≠ [] then none
  else some ⟨g.limits.resolution, g.limits.maxX, g.limits.maxY, g.limits.numX, g.limits.numY, g.cells.map Int.ofNat,
    g.box, g.minCost, g.maxCost⟩

/-- `Min`/`MaxCorrespondenceCostFromProto` (grid_2d.cc:22-44). -/
def Proto.minCostFrom (p : Proto) : ℚ := if p.minCost = 0 ∧ p.maxCost = 0 then Verif.Prob.minCost else p.minCost
def Proto.maxCostFrom (p : Proto) : ℚ := if p.minCost = 0 ∧ p.maxCost = 0 then Verif.Prob.maxCost else p.maxCost

/-- The box read from a proto (grid_2d.cc:85-90); a box with a corner `min > max` is empty for Eigen. -/
def normBox (b : Option Box) : Option Box := b.filter fun b => b.minX ≤ b.maxX ∧ b.minY ≤ b.maxY

/-- `Grid2D::Grid2D(proto)` (grid_2d.cc:75-96).  The sizes are read as `int`; the model requires them to be
non-negative (`none` otherwise). -/
def fromProto (p : Proto) : Option Grid := do
  if p.numX < 0 ∨ p.numY < 0 then none
  else if ¬ p.minCostFrom < p.maxCostFrom then none
  else if p.cells.any (fun c => 65535 < c) then none
  else some ⟨⟨p.resolution, p.maxX, p.maxY, p.numX.toNat, p.numY.toNat⟩, p.cells.map fun c => (c % 65536).toNat,
    p.minCostFrom, p.maxCostFrom, [], normBox p.box⟩

end Verif.Grid2D
