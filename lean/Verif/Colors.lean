import Verif.FloatFormat
import Verif.FloatProbability

/-!
# The palette of colors

Model of cartographer/io/color.h and cartographer/io/color.cc.

Every operation on `float` is rounded by `fl`; a product that is added to or subtracted from something may be rounded together with the
sum (`fused`). There are no infinities and no NaN. `int` and `uint8` are integers, the conversion to `uint8` takes the lowest
byte. `none` is a failing `CHECK`.
-/

namespace Verif.Colors

open Verif.FloatProb (mulAdd)
open Verif.Prob (clamp roundToInt)

/-- `FloatColor` (color.h 29). -/
structure Color where
  r : ℚ
  g : ℚ
  b : ℚ
  deriving DecidableEq

/-- `kInitialHue`, `kSaturation`, `kValue` (color.cc 29-31). -/
def initialHue (fl : ℚ → ℚ) : ℚ := fl (69 / 100)
def saturation (fl : ℚ → ℚ) : ℚ := fl (85 / 100)
def value (fl : ℚ → ℚ) : ℚ := fl (77 / 100)

/-- `kGoldenRatioConjugate` (color.cc 65). -/
def golden (fl : ℚ → ℚ) : ℚ := fl (6180339887498949 / 10 ^ 16)

/-- `1.f - a * b`, rounded once or twice. -/
def oneMinus (fl : ℚ → ℚ) (fused : Bool) (a b : ℚ) : ℚ := if fused then fl (1 - a * b) else fl (1 - fl (a * b))

/-- `HsvToRgb` (color.cc 33-57). -/
def hsvToRgb (fl : ℚ → ℚ) (fused : Bool) (h s v : ℚ) : Color :=
  let h6 := if h = 1 then 0 else fl (6 * h)
  let i := ⌊h6⌋
  let f := fl (h6 - i)
  let p := fl (v * fl (1 - s))
  let q := fl (v * oneMinus fl fused f s)
  let t := fl (v * oneMinus fl fused (fl (1 - f)) s)
  if i = 0 then ⟨v, t, p⟩
  else if i = 1 then ⟨q, v, p⟩
  else if i = 2 then ⟨p, v, t⟩
  else if i = 3 then ⟨p, q, v⟩
  else if i = 4 then ⟨t, p, v⟩
  else if i = 5 then ⟨v, p, q⟩
  else ⟨0, 0, 0⟩

/-- The hue (color.cc 66): `std::fmod` is exact. -/
def hue (fl : ℚ → ℚ) (fused : Bool) (id : Int) : ℚ :=
  let x := mulAdd fl fused (golden fl) (fl id) (initialHue fl)
  x - ⌊x⌋

/-- `GetColor` (color.cc 61-68). -/
def getColor (fl : ℚ → ℚ) (fused : Bool) (id : Int) : Option Color :=
  if 0 ≤ id then some (hsvToRgb fl fused (hue fl fused id) (saturation fl) (value fl)) else none

/-- `FloatComponentToUint8` (color.h 35-38). -/
def toByte (fl : ℚ → ℚ) (c : ℚ) : Nat := (roundToInt (fl (clamp c 0 1 * 255)) % 256).toNat

/-- `Uint8ComponentToFloat` (color.h 40). -/
def ofByte (fl : ℚ → ℚ) (c : Nat) : ℚ := fl (c / 255)

/-- `ToUint8Color` (color.h 42-45). -/
def toBytes (fl : ℚ → ℚ) (c : Color) : Nat × Nat × Nat := (toByte fl c.r, toByte fl c.g, toByte fl c.b)

/-- `ToFloatColor` (color.h 47-50). -/
def ofBytes (fl : ℚ → ℚ) (c : Nat × Nat × Nat) : Color := ⟨ofByte fl c.1, ofByte fl c.2.1, ofByte fl c.2.2⟩

end Verif.Colors
