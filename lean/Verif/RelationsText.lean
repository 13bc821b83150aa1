import Verif.Rigid
import Verif.Time
import Mathlib.Data.Rat.Cast.Defs

/-!
# Relations given as text

Model of `ReadRelationsTextFile` (cartographer/ground_truth/relations_text_file.cc, abbreviated rtf) and of `RollPitchYaw`
(cartographer/transform/rigid_transform.cc 40-46).

`std::istream >> double` is modelled as in libstdc++ for the "C" locale: white space is skipped, the longest sequence of
characters that may begin a number is taken, and it is converted by `strtod`; if that does not use all of it, or the number is too
large, `failbit` is set. Doubles are rational numbers rounded to 53 bits (`Ticks.rnd`); sines and cosines are real, and infinities and
NaN cannot be written. `none` is a failing `CHECK` or signed overflow.
-/

namespace Verif.RelationsText

open Ticks (rnd fromSeconds fromUniversal toUniversal plus Time)
open Rigid (V3 Quat Rigid3 aroundZ)

/-! ### Numbers -/

/-- `isspace` in the "C" locale. -/
def isSpace (c : Char) : Bool := c == ' ' || c == '\t' || c == '\n' || c == '\x0b' || c == '\x0c' || c == '\r'

/-- A decimal digit. -/
def isDigit (c : Char) : Bool := decide (48 ≤ c.toNat ∧ c.toNat ≤ 57)

/-- Adds a character to what was taken. -/
def push (c : Char) (p : List Char × List Char) : List Char × List Char := (c :: p.1, p.2)

/-- The characters taken for a number and those left (libstdc++ `num_get::_M_extract_float`). `m`: a digit was found, `d`: a
point was found, `s`: an `e` was found, `j`: a sign may follow, which is at the beginning and after the `e`. -/
def accum (m d s j : Bool) : List Char → List Char × List Char
  | [] => ([], [])
  | c :: r =>
    if j && (c == '+' || c == '-') then push c (accum m d s false r)
    else if c == '.' && !d && !s then push '.' (accum m true s false r)
    else if isDigit c then push c (accum true d s false r)
    else if (c == 'e' || c == 'E') && !s && m then push 'e' (accum m d true true r)
    else ([], c :: r)

/-- A sign and what follows: whether it is a minus. -/
def takeSign : List Char → Bool × List Char
  | '-' :: r => (true, r)
  | '+' :: r => (false, r)
  | l => (false, l)

/-- Digits: `v` is the number read so far, `n` the number of digits. -/
def scan (v n : Nat) : List Char → Nat × Nat × List Char
  | [] => (v, n, [])
  | c :: r => if isDigit c then scan (10 * v + (c.toNat - 48)) (n + 1) r else (v, n, c :: r)

/-- The digits after a point, if there is one: the number with them, how many they are, what follows. -/
def scanFraction (v : Nat) : List Char → Nat × Nat × List Char
  | '.' :: r => scan v 0 r
  | r => (v, 0, r)

/-- The exponent, if there is one, and what follows. -/
def scanExponent : List Char → Int × List Char
  | 'e' :: r =>
    let (minus, r') := takeSign r
    let (v, n, rest) := scan 0 0 r'
    if n = 0 then (0, 'e' :: r) else (if minus then -(v : Int) else v, rest)
  | r => (0, r)

/-- `strtod`: the number before rounding and what follows it; `none` if there is no number. -/
def strtod (l : List Char) : Option (ℚ × List Char) :=
  let (minus, r) := takeSign l
  let (v, n, r) := scan 0 0 r
  let (v, k, r) := scanFraction v r
  if n + k = 0 then none
  else
    let (e, r) := scanExponent r
    some ((if minus then -1 else 1) * v * 10 ^ (e - k), r)

/-- Rounding to double; `none` if the result is not finite. -/
def toDouble (x : ℚ) : Option ℚ := if |rnd x| < 2 ^ 1024 then some (rnd x) else none

/-- `std::__convert_to_v`: the value, unless `strtod` leaves something or the value is too large. -/
def convert (l : List Char) : Option ℚ :=
  match strtod l with
  | some (x, []) => toDouble x
  | _ => none

/-! ### Streams -/

/-- An `std::ifstream`. -/
structure Stream where
  rest : List Char
  eof : Bool := false
  fail : Bool := false
  deriving DecidableEq, Repr

/-- `stream >> x`: the value if there is one. -/
def extract (s : Stream) : Option ℚ × Stream :=
  if s.eof || s.fail then (none, { s with fail := true })
  else
    match s.rest.dropWhile isSpace with
    | [] => (none, ⟨[], true, true⟩)
    | c :: r =>
      let (taken, left) := accum false false false true (c :: r)
      match convert taken with
      | none => (none, ⟨left, left.isEmpty, true⟩)
      | some x => (some x, ⟨left, left.isEmpty, false⟩)

/-- `n` extractions, one after the other: the values if all succeeded. -/
def extractMany : Nat → Stream → Option (List ℚ) × Stream
  | 0, s => (some [], s)
  | n + 1, s =>
    let (x, s) := extract s
    let (xs, s) := extractMany n s
    match x, xs with
    | some x, some xs => (some (x :: xs), s)
    | _, _ => (none, s)

/-! ### Poses and relations -/

/-- `AngleAxisd(angle, UnitX())` and `AngleAxisd(angle, UnitY())` as quaternions. -/
noncomputable def aroundX (angle : ℝ) : Quat := ⟨Real.cos (angle / 2), Real.sin (angle / 2), 0, 0⟩
noncomputable def aroundY (angle : ℝ) : Quat := ⟨Real.cos (angle / 2), 0, Real.sin (angle / 2), 0⟩

/-- `RollPitchYaw` (rigid_transform.cc 40-46). -/
noncomputable def rollPitchYaw (roll pitch yaw : ℝ) : Quat := ((aroundZ yaw).mul (aroundY pitch)).mul (aroundX roll)

/-- `kUtsEpochOffsetFromUnixEpochInSeconds * kUtsTicksPerSecond` (common/time.h 29-30, rtf 32-34). -/
def unixEpoch : Int := 719162 * 24 * 60 * 60 * 10000000

/-- `UnixToCommonTime` (rtf 31-36). -/
def unixToCommonTime (t : ℚ) : Option Time := do
  let d ← fromSeconds t
  plus (fromUniversal unixEpoch) d

/-- `proto::Relation`. -/
structure Relation where
  timestamp1 : Int
  timestamp2 : Int
  expected : Rigid3

/-- The body of the loop (rtf 47-55). -/
noncomputable def relation : List ℚ → Option Relation
  | [t1, t2, x, y, z, roll, pitch, yaw] => do
    let time1 ← unixToCommonTime t1
    let time2 ← unixToCommonTime t2
    some ⟨toUniversal time1, toUniversal time2, ⟨⟨x, y, z⟩, rollPitchYaw roll pitch yaw⟩⟩
  | _ => none

/-- The loop and the `CHECK` after it (rtf 45-57). Each relation takes a character at least, so the length of the file is enough
fuel. -/
noncomputable def readLoop : Nat → Stream → Option (List Relation)
  | 0, _ => none
  | fuel + 1, s =>
    match extractMany 8 s with
    | (none, s') => if s'.eof then some [] else none
    | (some xs, s') => do
      let r ← relation xs
      let rs ← readLoop fuel s'
      some (r :: rs)

/-- `ReadRelationsTextFile` (rtf 40-59); without a file the stream has failed from the beginning. -/
noncomputable def readFile : Option (List Char) → Option (List Relation)
  | none => readLoop 1 ⟨[], false, true⟩
  | some text => readLoop (text.length + 1) ⟨text, false, false⟩

end Verif.RelationsText
