import Verif.Time

/-!
# Binary floating point numbers

The result of an operation on `float` or `double` is the exact result rounded to a number of the format. A number of the
format is a multiple of the distance of neighbouring numbers; the distance halves with every halving of the size, down to
the distance of the subnormal numbers. Infinities and NaN are left out.

`Verif.Ticks.rnd` of `Verif/Time.lean` is the case of `double` and rounding to nearest.
-/

namespace Verif.Fp

/-- A format: the number of significant bits and the exponent of the smallest normal number. -/
structure Format where
  prec : Nat
  emin : Int

/-- `float` (IEEE 754 binary32). -/
def single : Format := ⟨24, -126⟩

/-- `double` (IEEE 754 binary64). -/
def double : Format := ⟨53, -1022⟩

/-- The exponent of the distance of neighbouring numbers at `x`. -/
def Format.ulpExp (f : Format) (x : ℚ) : Int := max (Int.log 2 |x|) f.emin - (f.prec - 1)

/-- The distance of neighbouring numbers at `x`. -/
def Format.ulp (f : Format) (x : ℚ) : ℚ := 2 ^ f.ulpExp x

/-- Rounding to a number of the format, where `g` rounds to an integer in the direction of the rounding mode. -/
def Format.rndWith (f : Format) (g : ℚ → Int) (x : ℚ) : ℚ := g (x / f.ulp x) * f.ulp x

/-- Rounding to the nearest number of the format, ties to even. -/
def Format.rnd (f : Format) (x : ℚ) : ℚ := f.rndWith Ticks.roundEven x

/-- What all proofs about rounded arithmetic use: rounding is monotone, keeps the numbers of the format, and has a small
relative error `ε` or, for tiny numbers, a small absolute error `η`. -/
structure IsRounding (ε η : ℚ) (fl : ℚ → ℚ) : Prop where
  mono : ∀ {x y : ℚ}, x ≤ y → fl x ≤ fl y
  idem : ∀ x, fl (fl x) = fl x
  zero : fl 0 = 0
  err : ∀ x, |fl x - x| ≤ ε * |x| + η

/-- Rounding to `float` in some rounding mode. -/
def SingleRounding (fl : ℚ → ℚ) : Prop := IsRounding (1 / 2 ^ 23) (1 / 2 ^ 149) fl

end Verif.Fp
