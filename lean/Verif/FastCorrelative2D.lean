import Verif.ProbabilityValues

/-!
# The fast correlative scan matcher

Model of cartographer/mapping/internal/2d/scan_matching/fast_correlative_scan_matcher_2d.{h,cc} (abbreviated
fcsm2d) and of the parts of correlative_scan_matcher_2d.{h,cc} (csm2d) it uses.

Simplifications: the precomputed values are rational instead of `float`; the scores of candidates are values
of an arbitrary linear order, computed from the number of points and the sum of cell values by a function that
is not decreasing in the sum, which includes the `float` computation with its rounding.  Overflow of `int` is
left out except for the casts to `unsigned` in `GetValue`.  `none` is a failing `CHECK` or `DCHECK` or undefined
behaviour.
-/

namespace Verif.FastCorrelative

open Prob (roundToInt)

/-! ### `SlidingWindowMaximum` (fcsm2d.cc:41-75) -/

section Sliding

variable {α : Type} [LinearOrder α]

/-- `AddValue` (fcsm2d.cc:43-49). -/
def addValue (d : List α) (v : α) : List α := (d.reverse.dropWhile (fun m => decide (m < v))).reverse ++ [v]

/-- `RemoveValue` (fcsm2d.cc:51-59). -/
def removeValue (d : List α) (v : α) : Option (List α) :=
  match d with
  | [] => none
  | m :: d' => if v ≤ m then some (if v = m then d' else m :: d') else none

/-- `GetMaximum` (fcsm2d.cc:61-66). -/
def getMaximum (d : List α) : Option α := d.head?

/-- The first loop of a pass (fcsm2d.cc:113-119 and 139-145): `k` turns, where the turn with number `j` is
that for `x = j - width + 1`. -/
def fill (f : Nat → α) (n : Nat) : Nat → Nat → List α → Option (List α × List α)
  | 0, _, d => some ([], d)
  | k + 1, j, d => do
    let m ← getMaximum d
    let (out, d) ← fill f n k (j + 1) (if j + 1 < n then addValue d (f (j + 1)) else d)
    some (m :: out, d)

/-- The second loop of a pass (fcsm2d.cc:120-126 and 146-151): `k` turns starting at `x`. -/
def shift (f : Nat → α) (width : Nat) : Nat → Nat → List α → Option (List α × List α)
  | 0, _, d => some ([], d)
  | k + 1, x, d => do
    let m ← getMaximum d
    let d ← removeValue d (f x)
    let (out, d) ← shift f width k (x + 1) (addValue d (f (x + width)))
    some (m :: out, d)

/-- The third loop of a pass (fcsm2d.cc:127-132 and 152-157): `k` turns starting at `x`. -/
def drain (f : Nat → α) : Nat → Nat → List α → Option (List α × List α)
  | 0, _, d => some ([], d)
  | k + 1, x, d => do
    let m ← getMaximum d
    let d ← removeValue d (f x)
    let (out, d) ← drain f k (x + 1) d
    some (m :: out, d)

/-- One pass over the `n` values `f` (fcsm2d.cc:110-134 or 136-159): the value written for
`x = j - width + 1` is the `j`-th of the result. -/
def slide (f : Nat → α) (n width : Nat) : Option (List α) := do
  let (o₁, d) ← fill f n (width - 1) 0 (addValue [] (f 0))
  let (o₂, d) ← shift f width (n - width) 0 d
  let (o₃, d) ← drain f (n - (n - width)) (n - width) d
  guard (d.length = 0)
  some (o₁ ++ o₂ ++ o₃)

end Sliding

/-! ### `PrecomputationGrid2D` -/

/-- What is read of a `Grid2D`: the number of cells in x and y, `GetCorrespondenceCost` of the cells inside and
the bounds of the correspondence cost. -/
structure CostGrid where
  nx : Nat
  ny : Nat
  cost : Nat → Nat → ℚ
  minCost : ℚ
  maxCost : ℚ

/-- `PrecomputationGrid2D` (fcsm2d.h:81-94); the cells are stored by column. -/
structure Precomputed where
  width : Nat
  nx : Nat
  ny : Nat
  cells : List (List Int)

/-- The results of `g` for `k, …, k + n - 1`. -/
def tabulate {β : Type} (g : Nat → Option β) : Nat → Nat → Option (List β)
  | 0, _ => some []
  | n + 1, k => do
    let b ← g k
    let l ← tabulate g n (k + 1)
    some (b :: l)

/-- `ComputeCellValue` (fcsm2d.cc:163-169). -/
def computeCellValue (minScore maxScore p : ℚ) : Option Int :=
  if 0 ≤ roundToInt ((p - minScore) * (255 / (maxScore - minScore))) ∧
      roundToInt ((p - minScore) * (255 / (maxScore - minScore))) ≤ 255 then
    some (roundToInt ((p - minScore) * (255 / (maxScore - minScore))))
  else none

/-- `min_score_` (fcsm2d.cc:97). -/
def CostGrid.minScore (g : CostGrid) : ℚ := 1 - g.maxCost

/-- `max_score_` (fcsm2d.cc:98). -/
def CostGrid.maxScore (g : CostGrid) : ℚ := 1 - g.minCost

/-- The pass over row `y` (fcsm2d.cc:109-134). -/
def rowPass (g : CostGrid) (width y : Nat) : Option (List ℚ) := slide (fun x => 1 - |g.cost x y|) g.nx width

/-- The pass over column `x` of the intermediate grid (fcsm2d.cc:135-160).  The intermediate grid is a list of
rows; the vector is reused between grids, but every entry is written. -/
def columnPass (g : CostGrid) (width : Nat) (intermediate : List (List ℚ)) (x : Nat) : Option (List Int) := do
  let l ← slide (fun y => (intermediate.getD y []).getD x 0) g.ny width
  tabulate (fun y => computeCellValue g.minScore g.maxScore (l.getD y 0)) l.length 0

/-- The constructor of `PrecomputationGrid2D` (fcsm2d.cc:91-161). -/
def precompute (g : CostGrid) (width : Nat) : Option Precomputed := do
  guard (1 ≤ width)
  guard (1 ≤ g.nx)
  guard (1 ≤ g.ny)
  let intermediate ← tabulate (rowPass g width) g.ny 0
  let cells ← tabulate (columnPass g width intermediate) (g.nx + width - 1) 0
  some ⟨width, g.nx + width - 1, g.ny + width - 1, cells⟩

/-- `static_cast<unsigned>`. -/
def toUnsigned (x : Int) : Int := x % 4294967296

/-- `GetValue` (fcsm2d.h:56-71). -/
def getValue (p : Precomputed) (x y : Int) : Int :=
  if toUnsigned (x - (-(p.width : Int) + 1)) ≥ toUnsigned p.nx ∨
      toUnsigned (y - (-(p.width : Int) + 1)) ≥ toUnsigned p.ny then 0
  else (p.cells.getD (x - (-(p.width : Int) + 1)).toNat []).getD (y - (-(p.width : Int) + 1)).toNat 0

/-- `PrecomputationGridStack2D` (fcsm2d.cc:171-186): the grid with number `i` has width `2 ^ i`. -/
def precomputeStack (g : CostGrid) (depth : Nat) : Option (List Precomputed) := do
  guard (1 ≤ depth)
  tabulate (fun i => precompute g (2 ^ i)) depth 0

/-! ### The search -/

/-- `SearchParameters::LinearBounds` (csm2d.h:37-42). -/
structure Bounds where
  minX : Int
  maxX : Int
  minY : Int
  maxY : Int
  deriving DecidableEq, Repr

/-- `Candidate2D` (csm2d.h:84-111); the pose is a function of the offsets and the scan index. -/
structure Candidate (K : Type) where
  scan : Nat
  x : Int
  y : Int
  score : K
  deriving DecidableEq, Repr

/-- `DiscreteScan2D` (csm2d.h:32). -/
abbrev Scan := List (Int × Int)

/-- The smallest and the largest of 0 and the offsets of the points, in one coordinate (csm2d.cc:78-84). -/
def shrinkLow (l : List Int) : Int := l.foldl (fun b p => min b (-p)) 0

def shrinkHigh (n : Int) (l : List Int) : Int := l.foldl (fun b p => max b (n - 1 - p)) 0

/-- `ShrinkToFit` for one scan (csm2d.cc:75-91). -/
def shrinkToFit (nx ny : Nat) (b : Bounds) (scan : Scan) : Bounds where
  minX := max b.minX (shrinkLow (scan.map (·.1)))
  maxX := min b.maxX (shrinkHigh nx (scan.map (·.1)))
  minY := max b.minY (shrinkLow (scan.map (·.2)))
  maxY := min b.maxY (shrinkHigh ny (scan.map (·.2)))

section Search

variable {K : Type} [LinearOrder K]

/-- What the search works with: the values of the precomputed grids by depth, the score of a scan with a number
of points and a sum of values, the scans, the bounds, and the result of `std::sort`, which is any sorted
permutation. -/
structure Setting (K : Type) where
  value : Nat → Int → Int → Int
  toScore : Nat → Int → K
  scans : List Scan
  bounds : List Bounds
  sort : List (Candidate K) → List (Candidate K)

/-- `discrete_scans[k]`. -/
def Setting.scan (e : Setting K) (k : Nat) : Scan := e.scans.getD k []

/-- `linear_bounds[k]`. -/
def Setting.bound (e : Setting K) (k : Nat) : Bounds := e.bounds.getD k ⟨0, 0, 0, 0⟩

/-- The score of a candidate on the grid of depth `d` (fcsm2d.cc:319-330). -/
def scoreAt (e : Setting K) (d scan : Nat) (x y : Int) : K :=
  e.toScore (e.scan scan).length (((e.scan scan).map (fun p => e.value d (p.1 + x) (p.2 + y))).sum)

/-- `ScoreCandidates` (fcsm2d.cc:314-333) for candidates given by scan and offsets. -/
def scoreCandidates (e : Setting K) (d : Nat) (l : List (Nat × Int × Int)) : List (Candidate K) :=
  e.sort (l.map (fun c => ⟨c.1, c.2.1, c.2.2, scoreAt e d c.1 c.2.1 c.2.2⟩))

/-- The offsets `x, x + step, …` up to `hi`. -/
def steps (step hi : Int) : Nat → Int → List Int
  | 0, _ => []
  | k + 1, x => if x ≤ hi then x :: steps step hi k (x + step) else []

/-- The offsets of one coordinate in `GenerateLowestResolutionCandidates` (fcsm2d.cc:297-304). -/
def lowestOffsets (step lo hi : Int) : List Int := steps step hi (hi - lo + 1).toNat lo

/-- The candidates of one scan (fcsm2d.cc:297-307). -/
def lowestOfScan (step : Int) (k : Nat) (b : Bounds) : List (Nat × Int × Int) :=
  (lowestOffsets step b.minX b.maxX).flatMap (fun x => (lowestOffsets step b.minY b.maxY).map (fun y => (k, x, y)))

/-- The number of candidates expected for one scan (fcsm2d.cc:281-290). -/
def expectedOfScan (step : Int) (b : Bounds) : Int :=
  (b.maxX - b.minX + step).tdiv step * (b.maxY - b.minY + step).tdiv step

/-- `GenerateLowestResolutionCandidates` (fcsm2d.cc:276-312) with the final `CHECK_EQ`. -/
def generateLowest (e : Setting K) (maxDepth : Nat) : Option (List (Nat × Int × Int)) :=
  let l := (List.range e.scans.length).flatMap (fun k => lowestOfScan (2 ^ maxDepth) k (e.bound k))
  if (l.length : Int) = ((List.range e.scans.length).map (fun k => expectedOfScan (2 ^ maxDepth) (e.bound k))).sum then
    some l
  else none

/-- The offsets `{0, half_width}` in one coordinate up to the `break` (fcsm2d.cc:356-365). -/
def halves (x half hi : Int) : List Int :=
  if x + 0 > hi then [] else if x + half > hi then [x + 0] else [x + 0, x + half]

/-- The candidates at the next higher resolution (fcsm2d.cc:353-369). -/
def children (e : Setting K) (half : Int) (c : Candidate K) : List (Nat × Int × Int) :=
  (halves c.x half (e.bound c.scan).maxX).flatMap
    (fun x => (halves c.y half (e.bound c.scan).maxY).map (fun y => (c.scan, x, y)))

/-- The loop of `BranchAndBound` (fcsm2d.cc:348-376); `search` is the recursive call. -/
def branchLoop (e : Setting K) (d : Nat) (search : List (Candidate K) → K → Option (Candidate K)) (minScore : K) :
    List (Candidate K) → Candidate K → Option (Candidate K)
  | [], best => some best
  | c :: cs, best =>
    if c.score ≤ minScore then some best
    else do
      let r ← search (scoreCandidates e d (children e (2 ^ d) c)) best.score
      branchLoop e d search minScore cs (if best.score < r.score then r else best)

/-- `BranchAndBound` (fcsm2d.cc:335-378). -/
def branchAndBound (e : Setting K) : Nat → List (Candidate K) → K → Option (Candidate K)
  | 0, cs, _ => cs.head?
  | d + 1, cs, minScore => branchLoop e d (branchAndBound e d) minScore cs ⟨0, 0, 0, minScore⟩

/-- `MatchWithSearchParameters` after the scans have been discretized and the window has been shrunk
(fcsm2d.cc:245-261). -/
def search (e : Setting K) (maxDepth : Nat) (minScore : K) : Option (Option (Candidate K)) := do
  let l ← generateLowest e maxDepth
  let best ← branchAndBound e maxDepth (scoreCandidates e maxDepth l) minScore
  some (if best.score > minScore then some best else none)

/-- `MatchWithSearchParameters` (fcsm2d.cc:227-262) for the matcher of a grid; `bounds` is the window before
`ShrinkToFit`. -/
def matchWith (g : CostGrid) (depth : Nat) (toScore : Nat → Int → K)
    (sort : List (Candidate K) → List (Candidate K)) (scans : List Scan) (bounds : List Bounds) (minScore : K) :
    Option (Option (Candidate K)) := do
  let stack ← precomputeStack g depth
  guard (bounds.length = scans.length)
  search
    { value := fun d x y => getValue (stack.getD d ⟨1, 0, 0, []⟩) x y
      toScore := toScore
      scans := scans
      bounds := List.zipWith (shrinkToFit g.nx g.ny) bounds scans
      sort := sort } (depth - 1) minScore

end Search

end Verif.FastCorrelative
