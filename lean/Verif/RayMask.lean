/-!
# Ray casting in the plane

Model of `cartographer/mapping/internal/2d/ray_to_pixel_mask.cc`.  `int` and `int64` are `Int` (no overflow).  The
vector of pixels is kept in reverse order while it is built, so that `back()` is the head.  Every `while` loop is
bounded by a number of iterations; running out of it is `none`, like a failed `CHECK`.
-/

namespace Verif.Ray

/-- `Eigen::Array2i`. -/
abbrev Px := Int × Int

/-- `if (!isEqual(pixel_mask.back(), current)) pixel_mask.push_back(current)` (ray_to_pixel_mask.cc:57, 98, ...). -/
def push (acc : List Px) (c : Px) : List Px := if acc.head? = some c then acc else c :: acc

/-- The loop of the special case of a vertical line (ray_to_pixel_mask.cc:56-58). -/
def vertical (x endY : Int) : Nat → Int → List Px → Option (List Px)
  | 0, _, _ => none
  | n + 1, y, acc => if y ≤ endY then vertical x endY n (y + 1) (push acc (x, y)) else some acc

/-- `while (sub_y > denominator) {...}` (ray_to_pixel_mask.cc:99-103, 118-122); the result is `sub_y`, `current.y()`
and the mask. -/
def climb (D x : Int) : Nat → Int → Int → List Px → Option (Int × Int × List Px)
  | 0, _, _, _ => none
  | n + 1, sub, y, acc => if sub > D then climb D x n (sub - D) (y + 1) (push acc (x, y + 1)) else some (sub, y, acc)

/-- `while (sub_y < 0) {...}` (ray_to_pixel_mask.cc:131-135, 148-152). -/
def drop (D x : Int) : Nat → Int → Int → List Px → Option (Int × Int × List Px)
  | 0, _, _, _ => none
  | n + 1, sub, y, acc => if sub < 0 then drop D x n (sub + D) (y - 1) (push acc (x, y - 1)) else some (sub, y, acc)

/-- The outer loop for ascending lines (ray_to_pixel_mask.cc:97-114); `step` is `dy * 2 * subpixel_scale` and `m` bounds
the inner loops. -/
def ascend (D step endX : Int) (m : Nat) : Nat → Int → Int → Int → List Px → Option (Int × Int × List Px)
  | 0, _, _, _, _ => none
  | n + 1, x, y, sub, acc => do
    let (sub, y, acc) ← climb D x m sub y (push acc (x, y))
    let (sub, y) := if sub = D then (sub - D, y + 1) else (sub, y)
    if x + 1 = endX then some (sub, y, acc) else ascend D step endX m n (x + 1) y (sub + step) acc

/-- The outer loop for the other lines (ray_to_pixel_mask.cc:129-145). -/
def descend (D step endX : Int) (m : Nat) : Nat → Int → Int → Int → List Px → Option (Int × Int × List Px)
  | 0, _, _, _, _ => none
  | n + 1, x, y, sub, acc => do
    let (sub, y, acc) ← drop D x m sub y (push acc (x, y))
    let (sub, y) := if sub = 0 then (sub + D, y - 1) else (sub, y)
    if x + 1 = endX then some (sub, y, acc) else descend D step endX m n (x + 1) y (sub + step) acc

/-- `RayToPixelMask` after the exchange of the end points (ray_to_pixel_mask.cc:43-155).  `int` division truncates; the
checked arguments are non-negative, where this is the division of `Int`. -/
def maskOrdered (n : Nat) (b e : Px) (s : Int) : Option (List Px) :=
  if 0 ≤ b.1 ∧ 0 ≤ b.2 ∧ 0 ≤ e.2 then
    if b.1 / s = e.1 / s then do
      let x := b.1 / s
      let y := min b.2 e.2 / s
      let acc ← vertical x (max b.2 e.2 / s) n y [(x, y)]
      some acc.reverse
    else
      let dx := e.1 - b.1
      let dy := e.2 - b.2
      let D := 2 * s * dx
      let x := b.1 / s
      let y := b.2 / s
      let sub := (2 * (b.2 % s) + 1) * dx
      let first := 2 * s - 2 * (b.1 % s) - 1
      let last := 2 * (e.1 % s) + 1
      let endX := max b.1 e.1 / s
      let sub := sub + dy * first
      if dy > 0 then do
        let (sub, y, acc) ← ascend D (dy * 2 * s) endX n n x y sub [(x, y)]
        let (sub, y, acc) ← climb D endX n (sub + dy * last) y (push acc (endX, y))
        if sub ≠ D ∧ y = e.2 / s then some acc.reverse else none
      else do
        let (sub, y, acc) ← descend D (dy * 2 * s) endX n n x y sub [(x, y)]
        let (sub, y, acc) ← drop D endX n (sub + dy * last) y (push acc (endX, y))
        if sub ≠ 0 ∧ y = e.2 / s then some acc.reverse else none
  else none

/-- `RayToPixelMask` (ray_to_pixel_mask.cc:34-156); a scale of zero is a division by zero. -/
def rayToPixelMask (n : Nat) (b e : Px) (s : Int) : Option (List Px) :=
  if s = 0 then none else if b.1 > e.1 then maskOrdered n e b s else maskOrdered n b e s

end Verif.Ray
