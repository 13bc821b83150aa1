import Verif.RayMask
import Verif.Grid2D

/-!
# Casting rays and growing grids with machine integers

The model of C20 computes with unbounded integers. Here the same functions compute as the machine does: every operation on `int` and on
`int64` whose exact result does not fit is undefined behaviour and has the outcome `none`.

Model of `cartographer/mapping/internal/2d/ray_to_pixel_mask.cc` (abbreviated rm), `GrowLimits` of
`cartographer/mapping/2d/grid_2d.cc` and of the limits with sub-pixels of
`cartographer/mapping/2d/probability_grid_range_data_inserter_2d.cc`. Division and remainder of checked arguments are those of
`Int`, as the arguments are not negative.
-/

namespace Verif.Machine

open Verif.Ray (Px)

/-- The result of an operation on `int`. -/
def i32 (v : Int) : Option Int := if -2147483648 ≤ v ∧ v ≤ 2147483647 then some v else none

/-- The result of an operation on `int64`. -/
def i64 (v : Int) : Option Int := if -9223372036854775808 ≤ v ∧ v ≤ 9223372036854775807 then some v else none

/-! ### Rays -/

/-- `if (!isEqual(pixel_mask.back(), current)) pixel_mask.push_back(current)` with `isEqual` as the sum of the absolute differences
(rm:25-27); the vector is in reverse order. -/
def push (acc : List Px) (c : Px) : Option (List Px) :=
  match acc.head? with
  | none => none
  | some b => do
    let dx ← i32 (b.1 - c.1)
    let dy ← i32 (b.2 - c.2)
    let ax ← i32 |dx|
    let ay ← i32 |dy|
    let norm ← i32 (ax + ay)
    some (if norm = 0 then acc else c :: acc)

/-- rm:56-58. -/
def vertical (x endY : Int) : Nat → Int → List Px → Option (List Px)
  | 0, _, _ => none
  | n + 1, y, acc =>
    if y ≤ endY then do
      let acc ← push acc (x, y)
      let y ← i32 (y + 1)
      vertical x endY n y acc
    else some acc

/-- rm:99-103, 118-122. -/
def climb (D x : Int) : Nat → Int → Int → List Px → Option (Int × Int × List Px)
  | 0, _, _, _ => none
  | n + 1, sub, y, acc =>
    if sub > D then do
      let sub ← i64 (sub - D)
      let y ← i32 (y + 1)
      let acc ← push acc (x, y)
      climb D x n sub y acc
    else some (sub, y, acc)

/-- rm:131-135, 148-152. -/
def drop (D x : Int) : Nat → Int → Int → List Px → Option (Int × Int × List Px)
  | 0, _, _, _ => none
  | n + 1, sub, y, acc =>
    if sub < 0 then do
      let sub ← i64 (sub + D)
      let y ← i32 (y - 1)
      let acc ← push acc (x, y)
      drop D x n sub y acc
    else some (sub, y, acc)

/-- rm:105-108. -/
def topBorder (D sub y : Int) : Option (Int × Int) :=
  if sub = D then do
    let sub ← i64 (sub - D)
    let y ← i32 (y + 1)
    some (sub, y)
  else some (sub, y)

/-- rm:137-140. -/
def bottomBorder (D sub y : Int) : Option (Int × Int) :=
  if sub = 0 then do
    let sub ← i64 (sub + D)
    let y ← i32 (y - 1)
    some (sub, y)
  else some (sub, y)

/-- `sub_y += dy * 2 * subpixel_scale` (rm:113, 144): the products are of `int64`. -/
def advance (dy s sub : Int) : Option Int := do
  let a ← i64 (dy * 2)
  let b ← i64 (a * s)
  i64 (sub + b)

/-- rm:97-114. -/
def ascend (D dy s endX : Int) (m : Nat) : Nat → Int → Int → Int → List Px → Option (Int × Int × List Px)
  | 0, _, _, _, _ => none
  | n + 1, x, y, sub, acc => do
    let acc ← push acc (x, y)
    let r ← climb D x m sub y acc
    let x ← i32 (x + 1)
    let t ← topBorder D r.1 r.2.1
    if x = endX then some (t.1, t.2, r.2.2)
    else (advance dy s t.1).bind fun sub => ascend D dy s endX m n x t.2 sub r.2.2

/-- rm:129-145. -/
def descend (D dy s endX : Int) (m : Nat) : Nat → Int → Int → Int → List Px → Option (Int × Int × List Px)
  | 0, _, _, _, _ => none
  | n + 1, x, y, sub, acc => do
    let acc ← push acc (x, y)
    let r ← drop D x m sub y acc
    let x ← i32 (x + 1)
    let t ← bottomBorder D r.1 r.2.1
    if x = endX then some (t.1, t.2, r.2.2)
    else (advance dy s t.1).bind fun sub => descend D dy s endX m n x t.2 sub r.2.2

/-- rm:115-125: from the last pixel border to the end. -/
def finishUp (D dy endX endY last : Int) (n : Nat) (r : Int × Int × List Px) : Option (List Px) := do
  let p ← i64 (dy * last)
  let sub ← i64 (r.1 + p)
  let acc ← push r.2.2 (endX, r.2.1)
  let t ← climb D endX n sub r.2.1 acc
  if t.1 ≠ D ∧ t.2.1 = endY then some t.2.2.reverse else none

/-- rm:146-155. -/
def finishDown (D dy endX endY last : Int) (n : Nat) (r : Int × Int × List Px) : Option (List Px) := do
  let p ← i64 (dy * last)
  let sub ← i64 (r.1 + p)
  let acc ← push r.2.2 (endX, r.2.1)
  let t ← drop D endX n sub r.2.1 acc
  if t.1 ≠ 0 ∧ t.2.1 = endY then some t.2.2.reverse else none

/-- rm:95-155. -/
def walk (D dy s last : Int) (n : Nat) (b e : Px) (sub : Int) : Option (List Px) :=
  if dy > 0 then (ascend D dy s (max b.1 e.1 / s) n n (b.1 / s) (b.2 / s) sub [(b.1 / s, b.2 / s)]).bind
    (finishUp D dy (max b.1 e.1 / s) (e.2 / s) last n)
  else (descend D dy s (max b.1 e.1 / s) n n (b.1 / s) (b.2 / s) sub [(b.1 / s, b.2 / s)]).bind
    (finishDown D dy (max b.1 e.1 / s) (e.2 / s) last n)

/-- rm:61-155. `dx` and `dy` are differences of `int`, `2 * subpixel_scale` and both distances to the pixel borders are of `int`. -/
def slanted (n : Nat) (b e : Px) (s : Int) : Option (List Px) := do
  let dx ← i32 (e.1 - b.1)
  let dy ← i32 (e.2 - b.2)
  let twoS ← i32 (2 * s)
  let D ← i64 (twoS * dx)
  let a ← i32 (2 * (b.2 % s))
  let a ← i32 (a + 1)
  let sub ← i64 (a * dx)
  let f ← i32 (2 * (b.1 % s))
  let f ← i32 (twoS - f)
  let first ← i32 (f - 1)
  let l ← i32 (2 * (e.1 % s))
  let last ← i32 (l + 1)
  let p ← i64 (dy * first)
  let sub ← i64 (sub + p)
  walk D dy s last n b e sub

/-- rm:43-155. -/
def maskOrdered (n : Nat) (b e : Px) (s : Int) : Option (List Px) :=
  if 0 ≤ b.1 ∧ 0 ≤ b.2 ∧ 0 ≤ e.2 then
    if b.1 / s = e.1 / s then
      (vertical (b.1 / s) (max b.2 e.2 / s) n (min b.2 e.2 / s) [(b.1 / s, min b.2 e.2 / s)]).map List.reverse
    else slanted n b e s
  else none

/-- `RayToPixelMask` (rm:34-156). -/
def rayToPixelMask (n : Nat) (b e : Px) (s : Int) : Option (List Px) :=
  if s = 0 then none else if b.1 > e.1 then maskOrdered n e b s else maskOrdered n b e s

/-! ### Grids -/

/-- The limits with sub-pixels (probability_grid_range_data_inserter_2d.cc:62-66) with the two products of `int`. -/
def superscaled (l : Grid2D.MapLimits) (scale : Nat) : Option Grid2D.MapLimits := do
  let nx ← i32 ((l.numX : Int) * scale)
  let ny ← i32 ((l.numY : Int) * scale)
  Grid2D.mkLimits (l.resolution / scale) l.maxX l.maxY nx.toNat ny.toNat

/-- `GetCellIndex` (map_limits.h:69-76); a result of `std::lround` that is not an `int` is treated like an overflow. -/
def getCellIndex (l : Grid2D.MapLimits) (px py : ℚ) : Option (Int × Int) := do
  let x ← i32 (l.getCellIndex px py).1
  let y ← i32 (l.getCellIndex px py).2
  some (x, y)

/-- `GetCellIndex` as it is compiled: the conversion from `long` to `int` keeps the low 32 bits. -/
def wrap (v : Int) : Int := (v + 2147483648) % 4294967296 - 2147483648

/-- The cell of a point as compiled. -/
def compiledCellIndex (l : Grid2D.MapLimits) (px py : ℚ) : Int × Int := (wrap (l.getCellIndex px py).1, wrap (l.getCellIndex px py).2)

/-- One iteration of `GrowLimits` (grid_2d.cc:135-148): the new limits, and `offset` and `new_size` of `int`. -/
def growStep (l : Grid2D.MapLimits) : Option Grid2D.MapLimits := do
  let nx ← i32 (2 * (l.numX : Int))
  let ny ← i32 (2 * (l.numY : Int))
  let l' ← Grid2D.growMapLimits l
  let a ← i32 (nx * ((l.numY : Int) / 2))
  let _ ← i32 ((l.numX : Int) / 2 + a)
  let _ ← i32 (nx * ny)
  some l'

/-- The loop of `GrowLimits` (grid_2d.cc:134-163), limits only. -/
def growLoop : Nat → Grid2D.MapLimits → ℚ → ℚ → Option Grid2D.MapLimits
  | 0, _, _, _ => none
  | n + 1, l, px, py => (getCellIndex l px py).bind fun i =>
    if l.contains i then some l else (growStep l).bind fun l' => growLoop n l' px py

/-- The limits of a new submap at `(ox, oy)` (`CreateGrid`, submap_2d.cc:192-214). -/
def initialLimits (resolution ox oy : ℚ) : Option Grid2D.MapLimits :=
  Grid2D.mkLimits resolution (ox + 50 * resolution) (oy + 50 * resolution) 100 100

end Verif.Machine
