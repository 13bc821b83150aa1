import Verif.Time

/-!
# Printed histograms

Model of `common/histogram.cc`. The values are rational numbers; NaN and infinities are left out. Arithmetic on `float` is
exact arithmetic followed by a rounding function `r`, which is `id` for exact arithmetic and `rnd32` for the arithmetic of
the type `float`. The result is the list of printed rows instead of the text; mean, bars and percentages are left out.
-/

namespace Verif.Histo

/-- The smallest and largest element of a non-empty list: `min_element` and `max_element` (histogram.cc 38-39). -/
def minimum : ℚ → List ℚ → ℚ
  | a, [] => a
  | a, b :: l => minimum (min a b) l

/-- See `minimum`. -/
def maximum : ℚ → List ℚ → ℚ
  | a, [] => a
  | a, b :: l => maximum (max a b) l

/-- A printed row. -/
structure Row where
  lower : ℚ
  upper : ℚ
  count : Nat
  total : Nat
deriving DecidableEq

/-- The upper bound of row `i` of `n` (histogram.cc 52-55). -/
def upperBound (r : ℚ → ℚ) (lo hi : ℚ) (n i : Nat) : ℚ :=
  if i + 1 = n then hi
  else r (r (r (hi * (i + 1 : Nat)) / n) + r (r (lo * (n - i - 1 : Nat)) / n))

/-- The condition under which a value is counted (histogram.cc 58-59). -/
def inRow (n i : Nat) (lower upper v : ℚ) : Bool :=
  decide (lower ≤ v) && (if i + 1 = n then decide (v ≤ upper) else decide (v < upper))

/-- The loop over the rows from row `i` on, with `k` rows to go (histogram.cc 51-78). -/
def loop (r : ℚ → ℚ) (lo hi : ℚ) (n : Nat) (values : List ℚ) : Nat → Nat → ℚ → Nat → List Row
  | 0, _, _, _ => []
  | k + 1, i, lower, total =>
    let upper := upperBound r lo hi n i
    let count := values.countP (inRow n i lower upper)
    ⟨lower, upper, count, total + count⟩ :: loop r lo hi n values k (i + 1) upper (total + count)

/-- `Histogram::ToString` (histogram.cc 33-80). No rows are printed if there are no values or all are the same. The abort
for fewer than one bucket is `none`. -/
def rows (r : ℚ → ℚ) (values : List ℚ) (buckets : Int) : Option (List Row) :=
  if buckets < 1 then none
  else match values with
    | [] => some []
    | v :: l =>
      if minimum v l = maximum v l then some []
      else some (loop r (minimum v l) (maximum v l) buckets.toNat (v :: l) buckets.toNat 0 (minimum v l) 0)

/-- The distance of neighbouring `float` values at `x`. -/
def ulp32 (x : ℚ) : ℚ := 2 ^ (max (Int.log 2 |x|) (-126) - 23)

/-- Rounding to `float`, ties to even. -/
def rnd32 (x : ℚ) : ℚ := Ticks.roundEven (x / ulp32 x) * ulp32 x

end Verif.Histo
