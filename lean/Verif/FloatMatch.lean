import Verif.FastCorrelative2D
import Verif.FastCorrelative3D
import Verif.FloatProbability

/-!
# Scores of the fast correlative scan matchers in floating point arithmetic

Model of the arithmetic on `float` in `mapping/internal/2d/scan_matching/fast_correlative_scan_matcher_2d.{h,cc}`
(fcsm2d), `mapping/internal/3d/scan_matching/precomputation_grid_3d.{h,cc}` (pg3d) and
`mapping/internal/3d/scan_matching/fast_correlative_scan_matcher_3d.cc` (fcsm3d).  `Verif/FastCorrelative2D.lean` and
`Verif/FastCorrelative3D.lean` have the same functions with exact numbers for the values of cells, and any monotone
function for the scores.

* `fl` rounds the exact result of an operation to `float`; every operation is rounded.  `fused` says whether the
  compiler contracts a product and a sum into one operation.
* `1.f - std::abs(...)` is computed again for `RemoveValue` with the same result as for `AddValue`.
* Division by zero and a failing `CHECK` are `none`; overflow to infinity is left out.
* The searches are those of the models with exact numbers, here for scores that are `float`.
-/

namespace Verif.FloatMatch

open Verif.Prob (roundToInt)
open Verif.FloatProb (mulAdd)
open Verif.FastCorrelative (CostGrid Precomputed Scan Bounds slide tabulate getValue shrinkToFit)

/-! ### Values of cells and scores -/

/-- `cell_value` (fcsm2d.cc:164-165, pg3d.cc:51-53). -/
def quantise (fl : ℚ → ℚ) (lo hi p : ℚ) : Int := roundToInt (fl (fl (p - lo) * fl (255 / fl (hi - lo))))

/-- `ComputeCellValue` (fcsm2d.cc:163-169) and the same lines of `ConvertToPrecomputationGrid` (pg3d.cc:51-55). -/
def computeCellValue (fl : ℚ → ℚ) (lo hi p : ℚ) : Option Int :=
  if fl (hi - lo) ≠ 0 ∧ 0 ≤ quantise fl lo hi p ∧ quantise fl lo hi p ≤ 255 then some (quantise fl lo hi p) else none

/-- `ToScore` (fcsm2d.h:73-76) and `ToProbability` (pg3d.h:32-35). -/
def toScore (fl : ℚ → ℚ) (fused : Bool) (lo hi value : ℚ) : ℚ := mulAdd fl fused value (fl (fl (hi - lo) / 255)) lo

/-- The score of a candidate for `n` points (fcsm2d.cc:328-329, fcsm3d.cc:348-350): the sum is converted to `float` for
the division. -/
def candidateScore (fl : ℚ → ℚ) (fused : Bool) (lo hi : ℚ) (n : Nat) (sum : Int) : ℚ :=
  toScore fl fused lo hi (fl (fl sum / fl n))

/-! ### Two dimensions -/

/-- `min_score_` (fcsm2d.cc:97). -/
def minScore (fl : ℚ → ℚ) (g : CostGrid) : ℚ := fl (1 - g.maxCost)

/-- `max_score_` (fcsm2d.cc:98). -/
def maxScore (fl : ℚ → ℚ) (g : CostGrid) : ℚ := fl (1 - g.minCost)

/-- The pass over row `y` (fcsm2d.cc:109-134). -/
def rowPass (fl : ℚ → ℚ) (g : CostGrid) (width y : Nat) : Option (List ℚ) :=
  slide (fun x => fl (1 - |g.cost x y|)) g.nx width

/-- The pass over column `x` of the intermediate grid (fcsm2d.cc:135-160). -/
def columnPass (fl : ℚ → ℚ) (g : CostGrid) (width : Nat) (intermediate : List (List ℚ)) (x : Nat) : Option (List Int) := do
  let l ← slide (fun y => (intermediate.getD y []).getD x 0) g.ny width
  tabulate (fun y => computeCellValue fl (minScore fl g) (maxScore fl g) (l.getD y 0)) l.length 0

/-- The constructor of `PrecomputationGrid2D` (fcsm2d.cc:91-161). -/
def precompute (fl : ℚ → ℚ) (g : CostGrid) (width : Nat) : Option Precomputed := do
  guard (1 ≤ width)
  guard (1 ≤ g.nx)
  guard (1 ≤ g.ny)
  let intermediate ← tabulate (rowPass fl g width) g.ny 0
  let cells ← tabulate (columnPass fl g width intermediate) (g.nx + width - 1) 0
  some ⟨width, g.nx + width - 1, g.ny + width - 1, cells⟩

/-- `PrecomputationGridStack2D` (fcsm2d.cc:171-186). -/
def precomputeStack (fl : ℚ → ℚ) (g : CostGrid) (depth : Nat) : Option (List Precomputed) := do
  guard (1 ≤ depth)
  tabulate (fun i => precompute fl g (2 ^ i)) depth 0

/-- `MatchWithSearchParameters` (fcsm2d.cc:227-262) for the matcher of a grid; `bounds` is the window before
`ShrinkToFit`. -/
def matchWith (fl : ℚ → ℚ) (fused : Bool) (g : CostGrid) (depth : Nat)
    (sort : List (FastCorrelative.Candidate ℚ) → List (FastCorrelative.Candidate ℚ)) (scans : List Scan)
    (bounds : List Bounds) (minimum : ℚ) : Option (Option (FastCorrelative.Candidate ℚ)) := do
  let stack ← precomputeStack fl g depth
  guard (bounds.length = scans.length)
  FastCorrelative.search
    { value := fun d x y => getValue (stack.getD d ⟨1, 0, 0, []⟩) x y
      toScore := candidateScore fl fused (minScore fl g) (maxScore fl g)
      scans := scans
      bounds := List.zipWith (shrinkToFit g.nx g.ny) bounds scans
      sort := sort } (depth - 1) minimum

/-! ### Three dimensions -/

/-- The value of a voxel with value `v` (pg3d.cc:51-55). -/
def voxelValue (fl : ℚ → ℚ) (fused : Bool) (v : Nat) : Option Nat :=
  (computeCellValue fl (FloatProb.minProbability fl) (FloatProb.maxProbability fl)
    (FloatProb.valueToProbability fl fused v)).map Int.toNat

/-- The loop of `ConvertToPrecomputationGrid` over the voxels (pg3d.cc:50-57). -/
def convertLoop (fl : ℚ → ℚ) (fused : Bool) : List (Hybrid.I3 × Nat) → Fast3D.Grid8 → Option Fast3D.Grid8
  | [], r => some r
  | (i, v) :: l, r => do
    let c ← voxelValue fl fused v
    let r ← r.modify 0 i (fun _ => c)
    convertLoop fl fused l r

/-- `ConvertToPrecomputationGrid` (pg3d.cc:47-59). -/
def convert (fl : ℚ → ℚ) (fused : Bool) (n : Nat) (g : Hybrid.HG) : Option Fast3D.Grid8 := do
  let l ← g.grid.collect 0 n (g.grid.start 0)
  convertLoop fl fused l (Hybrid.Dyn.empty _)

/-- `PrecomputationGridStack3D::PrecomputationGridStack3D` (fcsm3d.cc:57-79). -/
def stack (fl : ℚ → ℚ) (fused : Bool) (n : Nat) (g : Hybrid.HG) (depth f : Nat) : Option (List Fast3D.Grid8) :=
  if 1 ≤ depth ∧ 1 ≤ f then do
    let g ← convert fl fused n g
    Fast3D.stackFrom n g depth f
  else none

/-- The score of a candidate in three dimensions (fcsm3d.cc:348-350). -/
def probabilityScore (fl : ℚ → ℚ) (fused : Bool) : Nat → Int → ℚ :=
  candidateScore fl fused (FloatProb.minProbability fl) (FloatProb.maxProbability fl)

end Verif.FloatMatch
