import Verif.HybridGrid
import Verif.FastCorrelative2D
import Mathlib.Order.BoundedOrder.Basic

/-!
# Correlative scan matching in three dimensions

Model of `mapping/internal/3d/scan_matching/precomputation_grid_3d.cc` (pg3d.cc) and
`mapping/internal/3d/scan_matching/fast_correlative_scan_matcher_3d.cc` (fcsm3d.cc).

Simplifications: the grids are those of `Verif.HybridGrid`, `uint8` cells are natural numbers (proved to be at most 255);
`float` probabilities are rational numbers; scores are elements of any linear order with a least element (`-infinity`) and
the score of a sum of cell values is any monotone function of the sum for each number of points; the loops over the voxels
of a grid are bounded by a number of iterations `n`.
The computation of the rotated scans (`GenerateDiscreteScans`) is left out: the search starts from the full resolution
cell indices of the scans.
-/

namespace Verif.Fast3D

open Verif.Hybrid

/-- `PrecomputationGrid3D` (precomputation_grid_3d.h:26-36). -/
abbrev Grid8 := Dyn (base Nat 0)

/-- The value of a voxel with value `v` (pg3d.cc:51-55). -/
def cellValue (v : Nat) : Option Nat :=
  let c := Prob.roundToInt ((Prob.valueToProbability v - Prob.minProbability) * (255 / (Prob.maxProbability - Prob.minProbability)))
  if 0 ≤ c ∧ c ≤ 255 then some c.toNat else none

/-- The loop of `ConvertToPrecomputationGrid` over the voxels (pg3d.cc:50-57). -/
def convertLoop : List (I3 × Nat) → Grid8 → Option Grid8
  | [], r => some r
  | (i, v) :: l, r => do
    let c ← cellValue v
    let r ← r.modify 0 i (fun _ => c)
    convertLoop l r

/-- `ConvertToPrecomputationGrid` (pg3d.cc:47-59). -/
def convert (n : Nat) (g : HG) : Option Grid8 := do
  let l ← g.grid.collect 0 n (g.grid.start 0)
  convertLoop l (Dyn.empty _)

/-- `>> e` for each component (fcsm3d.cc:225-228); `CellIndexAtHalfResolution` is `>> 1` (pg3d.cc:31-43). -/
def shiftRight (i : I3) (e : Nat) : I3 := ⟨i.x >>> e, i.y >>> e, i.z >>> e⟩

/-- The voxel raised for octant offset `o` (pg3d.cc:71-74). -/
def target (half : Bool) (shift : Int) (i o : I3) : I3 :=
  let c : I3 := ⟨i.x - shift * o.x, i.y - shift * o.y, i.z - shift * o.z⟩
  if half then shiftRight c 1 else c

/-- The loop over the octants (pg3d.cc:66-76). -/
def octantLoop (half : Bool) (shift : Int) (i : I3) (v : Nat) : List Nat → Grid8 → Option Grid8
  | [], r => some r
  | k :: ks, r => do
    let o ← getOctant k
    let r ← r.modify 0 (target half shift i o) (fun w => max v w)
    octantLoop half shift i v ks r

/-- The loop over the voxels (pg3d.cc:65-77). -/
def voxelLoop (half : Bool) (shift : Int) : List (I3 × Nat) → Grid8 → Option Grid8
  | [], r => some r
  | (i, v) :: l, r => do
    let r ← octantLoop half shift i v (List.range 8) r
    voxelLoop half shift l r

/-- `PrecomputeGrid` (pg3d.cc:61-79). -/
def precompute (n : Nat) (g : Grid8) (half : Bool) (shift : Int) : Option Grid8 := do
  let l ← g.collect 0 n (g.start 0)
  voxelLoop half shift l (Dyn.empty _)

/-- The loop of the constructor of `PrecomputationGridStack3D` (fcsm3d.cc:65-78): `k` further grids, starting with
`depth`; `back` is the last grid so far. -/
def stackLoop (n f : Nat) : Nat → Nat → Int → Grid8 → Option (List Grid8)
  | 0, _, _, _ => some []
  | k + 1, depth, lastWidth, back => do
    let nextWidth : Int := 2 ^ depth
    let fullVoxels : Int := 2 ^ (max 0 ((depth : Int) - f)).toNat
    let shift := (nextWidth - lastWidth + (fullVoxels - 1)).tdiv fullVoxels
    let g ← precompute n back (decide (f ≤ depth)) shift
    let rest ← stackLoop n f k (depth + 1) nextWidth g
    some (g :: rest)

/-- The constructor after the first grid has been made. -/
def stackFrom (n : Nat) (g : Grid8) (depth f : Nat) : Option (List Grid8) :=
  if 1 ≤ depth ∧ 1 ≤ f then do
    let rest ← stackLoop n f (depth - 1) 1 1 g
    some (g :: rest)
  else none

/-- `PrecomputationGridStack3D::PrecomputationGridStack3D` (fcsm3d.cc:57-79); `depth` is `branch_and_bound_depth`, `f` is
`full_resolution_depth`. -/
def stack (n : Nat) (g : HG) (depth f : Nat) : Option (List Grid8) :=
  if 1 ≤ depth ∧ 1 ≤ f then do
    let g ← convert n g
    stackFrom n g depth f
  else none

/-! ### The search -/

/-- `Candidate3D` (fcsm3d.cc:88-115). -/
structure Candidate (K : Type) where
  scan : Nat
  offset : I3
  score : K
  low : K

variable {K : Type} [LinearOrder K] [OrderBot K]

/-- What the search works with: the grids, the options `branch_and_bound_depth`, `full_resolution_depth` and
`min_low_resolution_score`, the window sizes, the full resolution cell indices of the scans, the score for a number of points
and a sum of cell values, `low_resolution_matcher` applied to the pose of a candidate, the value of
`low_resolution_score` in a new candidate, and the result of `std::sort`. -/
structure Setting (K : Type) where
  stack : List Grid8
  depth : Nat
  f : Nat
  wxy : Int
  wz : Int
  scans : List (List I3)
  toScore : Nat → Int → K
  lowScore : Nat → I3 → K
  minLow : K
  zero : K
  sort : List (Candidate K) → List (Candidate K)

/-- `search_window_start` (fcsm3d.cc:219-222). -/
def Setting.start (e : Setting K) : I3 := ⟨-e.wxy, -e.wxy, -e.wz⟩

/-- The cell index of a point at depth `f' + i` (fcsm3d.cc:224-240), `r = i + 1`. -/
def lowCell (start : I3) (r : Nat) (c : I3) : I3 :=
  (shiftRight (c.add start) r).add ((shiftRight start r).mul (-1))

/-- `cell_indices_per_depth` of `DiscretizeScan` (fcsm3d.cc:200-243). -/
def cellIndicesPerDepth (e : Setting K) (cells : List I3) : Option (List (List I3)) :=
  let f' := min e.f e.depth
  if 1 ≤ f' then
    some (List.replicate f' cells ++ (List.range (e.depth - f')).map (fun i => cells.map (lowCell e.start (i + 1))))
  else none

/-- The score of a candidate at some depth (fcsm3d.cc:330-351). -/
def scoreAt (e : Setting K) (d scan : Nat) (offset : I3) : Option K := do
  let cells ← e.scans[scan]?
  let perDepth ← cellIndicesPerDepth e cells
  let grid ← e.stack[d]?
  let l ← perDepth[d]?
  let off := shiftRight offset (max 0 ((d : Int) - e.f + 1)).toNat
  let vs ← l.mapM (fun c => grid.value 0 (c.add off))
  some (e.toScore l.length ((vs.map (fun v : Nat => (v : Int))).sum))

/-- `ScoreCandidates` (fcsm3d.cc:330-354) for candidates given by scan and offset. -/
def scoreCandidates (e : Setting K) (d : Nat) (l : List (Nat × I3)) : Option (List (Candidate K)) := do
  let cs ← l.mapM (fun c => do
    let s ← scoreAt e d c.1 c.2
    some (⟨c.1, c.2, s, e.zero⟩ : Candidate K))
  some (e.sort cs)

/-- The candidates of one scan in `GenerateLowestResolutionCandidates` (fcsm3d.cc:311-325). -/
def lowestOfScan (e : Setting K) (step : Int) (k : Nat) : List (Nat × I3) :=
  (FastCorrelative.lowestOffsets step (-e.wz) e.wz).flatMap fun z =>
    (FastCorrelative.lowestOffsets step (-e.wxy) e.wxy).flatMap fun y =>
      (FastCorrelative.lowestOffsets step (-e.wxy) e.wxy).map fun x => (k, ⟨x, y, z⟩)

/-- `GenerateLowestResolutionCandidates` (fcsm3d.cc:292-328). -/
def generateLowest (e : Setting K) : Option (List (Nat × I3)) :=
  let step : Int := 2 ^ (e.stack.length - 1)
  let nxy := (2 * e.wxy + step).tdiv step
  let nz := (2 * e.wz + step).tdiv step
  let l := (List.range e.scans.length).flatMap (lowestOfScan e step)
  if (l.length : Int) = e.scans.length * nxy ^ 2 * nz then some l else none

/-- The loop of `BranchAndBound` at depth 0 (fcsm3d.cc:382-398); `Candidate3D::Unsuccessful()` has the score `⊥`. -/
def leafLoop (e : Setting K) (minScore : K) : List (Candidate K) → Candidate K
  | [] => ⟨0, ⟨0, 0, 0⟩, ⊥, e.zero⟩
  | c :: cs =>
    if c.score ≤ minScore then ⟨0, ⟨0, 0, 0⟩, ⊥, e.zero⟩
    else if e.minLow ≤ e.lowScore c.scan c.offset then { c with low := e.lowScore c.scan c.offset }
    else leafLoop e minScore cs

/-- The candidates at the next higher resolution (fcsm3d.cc:411-433). -/
def children (e : Setting K) (half : Int) (c : Candidate K) : List (Nat × I3) :=
  (FastCorrelative.halves c.offset.z half e.wz).flatMap fun z =>
    (FastCorrelative.halves c.offset.y half e.wxy).flatMap fun y =>
      (FastCorrelative.halves c.offset.x half e.wxy).map fun x => (c.scan, ⟨x, y, z⟩)

/-- The loop of `BranchAndBound` at other depths (fcsm3d.cc:405-441). -/
def branchLoop (e : Setting K) (d : Nat) (search : List (Candidate K) → K → Option (Candidate K)) (minScore : K) :
    List (Candidate K) → Candidate K → Option (Candidate K)
  | [], best => some best
  | c :: cs, best =>
    if c.score ≤ minScore then some best
    else do
      let higher ← scoreCandidates e d (children e (2 ^ d) c)
      let r ← search higher best.score
      branchLoop e d search minScore cs (if best.score < r.score then r else best)

/-- `BranchAndBound` (fcsm3d.cc:376-443). -/
def branchAndBound (e : Setting K) : Nat → List (Candidate K) → K → Option (Candidate K)
  | 0, cs, minScore => some (leafLoop e minScore cs)
  | d + 1, cs, minScore => branchLoop e d (branchAndBound e d) minScore cs ⟨0, ⟨0, 0, 0⟩, minScore, e.zero⟩

/-- `MatchWithSearchParameters` after the scans have been discretized (fcsm3d.cc:183-198); `some none` is a null
pointer. -/
def search (e : Setting K) (minScore : K) : Option (Option (Candidate K)) := do
  let l ← generateLowest e
  let cs ← scoreCandidates e (e.stack.length - 1) l
  let best ← branchAndBound e (e.stack.length - 1) cs minScore
  some (if minScore < best.score then some best else none)

end Verif.Fast3D
