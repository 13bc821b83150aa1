import Verif.LuaDictionary
import Verif.FloatFormat
import Mathlib.Data.List.Sort
import Mathlib.Data.List.Lex
import Mathlib.Data.Nat.Digits.Defs
import Mathlib.Order.Lex

/-!
# Configurations as text

Model of `LuaParameterDictionary::ToString` (/repo/cartographer/common/lua_parameter_dictionary.cc, abbreviated lp), which
`print_configuration_main.cc` prints after `return `, and of how Lua reads such a text.

Strings are lists of characters, which stand for bytes. A number is a double, given by its sign and magnitude, so that there
is a negative zero. The part of Lua is after the reference manual and the source of Lua 5.2 (`addquoted` in lstrlib.c,
`read_string`, `read_numeral` in llex.c, `constructor` in lparser.c), which is not in /repo: table constructors with values
and named fields, quoted strings, decimal numerals without exponent, `true`, `false`, `math.huge`, names of variables that
have no value, and the minus sign. Anything else is `none`, as errors are.
-/

namespace Verif.LuaText

abbrev Text := List Char

/-- The size of a double. -/
inductive Mag where
  | fin (q : ℚ)
  | inf
  | nan
  deriving DecidableEq

/-- The values of a table, see `Verif.Lua.Value`. -/
inductive Value where
  | bool (b : Bool)
  | str (s : Text)
  | num (neg : Bool) (m : Mag)
  | table (entries : List (Lua.Key Text × Value))
  | other (n : Nat)

abbrev Key := Lua.Key Text

/-- `lua_rawget`; `none` is `nil`. -/
def get {V : Type} (t : List (Key × V)) (k : Key) : Option V := (t.find? fun e => decide (e.1 = k)).map Prod.snd

/-! ### Printing -/

/-- A digit. -/
def digitChar (n : Nat) : Char := Char.ofNat (48 + n)

/-- A natural number in decimal. -/
def decimal (n : Nat) : Text := if n = 0 then ['0'] else (Nat.digits 10 n).reverse.map digitChar

/-- `std::to_string(double)` is `printf("%f")`: six digits after the point, correctly rounded. -/
def millionths (q : ℚ) : Nat := (Ticks.roundEven (q * 1000000)).toNat

def fixed (q : ℚ) : Text :=
  let k := millionths q
  decimal (k / 1000000) ++ '.' :: [100000, 10000, 1000, 100, 10, 1].map fun p => digitChar (k % 1000000 / p % 10)

def sign (neg : Bool) : Text := if neg then ['-'] else []

/-- lp:315-322; for NaN `printf` prints `nan` or `-nan`. -/
def number (neg : Bool) : Mag → Text
  | .fin q => sign neg ++ fixed q
  | .inf => sign neg ++ "math.huge".toList
  | .nan => sign neg ++ "nan".toList

def isDigit (c : Char) : Bool := decide (48 ≤ c.toNat) && decide (c.toNat ≤ 57)

/-- `iscntrl`. -/
def isControl (c : Char) : Bool := decide (c.toNat < 32) || decide (c.toNat = 127)

/-- Starts with a digit. -/
def digitNext : Text → Bool
  | [] => false
  | c :: _ => isDigit c

/-- Three digits. -/
def padded (n : Nat) : Text := [digitChar (n / 100 % 10), digitChar (n / 10 % 10), digitChar (n % 10)]

/-- The format `%q` without the quotes at both ends (`addquoted`). -/
def escape : Text → Text
  | [] => []
  | c :: s =>
    if c = '"' ∨ c = '\\' ∨ c = '\n' then '\\' :: c :: escape s
    else if isControl c then '\\' :: (if digitNext s then padded c.toNat else decimal c.toNat) ++ escape s
    else c :: escape s

/-- `QuoteStringOnStack` (lp 43-61). -/
def quote (s : Text) : Text := '"' :: escape s ++ ['"']

/-- The values of the keys 1, 2, … (lp:337-348); `n` is at least the number of entries. -/
def arrayOf {V : Type} (t : List (Key × V)) : Nat → Int → List V
  | 0, _ => []
  | n + 1, i =>
    match get t (.num i) with
    | none => []
    | some v => v :: arrayOf t n (i + 1)

/-- `GetKeys` (lp 209-221). -/
def keysOf {V : Type} (T : Lua.ToNumber Text) : List (Key × V) → Option (List Text)
  | [] => some []
  | (.num _, _) :: l => keysOf T l
  | (.str s, _) :: l => if (T s).isSome then keysOf T l else (keysOf T l).map fun ks => s :: ks
  | (.other _, _) :: _ => none

/-- One line (lp:342-347, 356-362). -/
def item (indent : Text) (key : Option Text) (value : Text) : Text :=
  '\n' :: indent ++ ' ' :: ' ' :: ((match key with | none => [] | some k => k ++ " = ".toList) ++ value ++ [','])

/-- All that are there, or nothing. -/
def all {V : Type} : List (Option V) → Option (List V)
  | [] => some []
  | none :: _ => none
  | some v :: l => (all l).map fun vs => v :: vs

/-- The values of the keys, `LOG(FATAL)` for a key without value (lp:329). -/
def valuesOf (t : List (Key × Option Text)) (keys : List Text) : List (Option (Text × Text)) :=
  keys.map fun k => ((get t (.str k)).getD none).map fun v => (k, v)

/-- `DoToString` (lp:300-372) with the texts of the values. -/
def layout (T : Lua.ToNumber Text) (indent : Text) (t : List (Key × Option Text)) : Option Text := do
  let array ← all (arrayOf t t.length 1)
  let keys ← keysOf T t
  let fields ← all (valuesOf t (keys.insertionSort (· ≤ ·)))
  if array.isEmpty && fields.isEmpty then some ['{', '}']
  else some ('{' :: (array.flatMap (item indent none) ++ (fields.flatMap fun f => item indent (some f.1) f.2) ++ '\n' :: indent ++ ['}']))

mutual

/-- `top_of_stack_to_string` (lp:304-332) in a dictionary with this indentation. -/
def text (T : Lua.ToNumber Text) (indent : Text) : Value → Option Text
  | .bool b => some (if b then "true".toList else "false".toList)
  | .str s => some (quote s)
  | .num neg m => some (number neg m)
  | .table es => layout T (indent ++ [' ', ' ']) (texts T (indent ++ [' ', ' ']) es)
  | .other _ => none

def texts (T : Lua.ToNumber Text) (indent : Text) : List (Key × Value) → List (Key × Option Text)
  | [] => []
  | (k, v) :: es => (k, text T indent v) :: texts T indent es

end

/-- `ToString` (lp:374). -/
def toText (T : Lua.ToNumber Text) (es : List (Key × Value)) : Option Text := layout T [] (texts T [] es)

/-! ### Reading -/

def isSpace (c : Char) : Bool := c = ' ' || c = '\n' || c = '\t' || c = '\r'

def skip : Text → Text := List.dropWhile isSpace

def isLetter (c : Char) : Bool :=
  (decide (65 ≤ c.toNat) && decide (c.toNat ≤ 90)) || (decide (97 ≤ c.toNat) && decide (c.toNat ≤ 122)) || c = '_'

def isWord (c : Char) : Bool := isLetter c || isDigit c

/-- Reserved words. -/
def reserved : List Text :=
  ["and", "break", "do", "else", "elseif", "end", "false", "for", "function", "goto", "if", "in", "local", "nil", "not", "or",
    "repeat", "return", "then", "true", "until", "while"].map String.toList

/-- A name: letters, digits and underscores, no digit first, not reserved. -/
def isName (s : Text) : Bool :=
  match s with
  | [] => false
  | c :: _ => isLetter c && s.all isWord && !(reserved.contains s)

def digitsValue (s : Text) : Nat := s.foldl (fun n c => 10 * n + (c.toNat - 48)) 0

/-- A numeral; `fl` rounds to a double. -/
def readNumber (fl : ℚ → ℚ) (s : Text) : Option (Value × Text) :=
  let whole := s.takeWhile isDigit
  match s.dropWhile isDigit with
  | '.' :: r =>
    let frac := r.takeWhile isDigit
    match r.dropWhile isDigit with
    | c :: r' => if isWord c || c = '.' then none else some (.num false (.fin (fl (digitsValue (whole ++ frac) / 10 ^ frac.length))), c :: r')
    | [] => some (.num false (.fin (fl (digitsValue (whole ++ frac) / 10 ^ frac.length))), [])
  | c :: r => if isWord c then none else some (.num false (.fin (fl (digitsValue whole))), c :: r)
  | [] => some (.num false (.fin (fl (digitsValue whole))), [])

/-- The character for `\c`. -/
def escaped : Char → Option Char
  | 'a' => some (Char.ofNat 7)
  | 'b' => some (Char.ofNat 8)
  | 'f' => some (Char.ofNat 12)
  | 'n' => some '\n'
  | 'r' => some '\r'
  | 't' => some '\t'
  | 'v' => some (Char.ofNat 11)
  | '\\' => some '\\'
  | '"' => some '"'
  | '\'' => some '\''
  | '\n' => some '\n'
  | _ => none

/-- A byte with this value. -/
def byte (n : Nat) : Option Char := if n ≤ 255 then some (Char.ofNat n) else none

/-- What comes after a backslash: a character, or up to three digits. -/
def readEscape : Text → Option (Char × Text)
  | [] => none
  | c :: s =>
    if isDigit c then
      let d := (c :: s).take 3 |>.takeWhile isDigit
      (byte (digitsValue d)).map fun b => (b, (c :: s).drop d.length)
    else (escaped c).map fun b => (b, s)

/-- A string after its first quote. -/
def readString : Nat → Text → Option (Text × Text)
  | 0, _ => none
  | _ + 1, [] => none
  | n + 1, c :: s =>
    if c = '"' then some ([], s)
    else if c = '\n' ∨ c = '\r' then none
    else if c = '\\' then
      match readEscape s with
      | none => none
      | some (b, r) => (readString n r).map fun x => (b :: x.1, x.2)
    else (readString n s).map fun x => (c :: x.1, x.2)

/-- A word: a constant, infinity, or a variable, which has no value (`none`). -/
def readWord (s : Text) : Option (Option Value × Text) :=
  let w := s.takeWhile isWord
  let r := s.dropWhile isWord
  if w = "true".toList then some (some (.bool true), r)
  else if w = "false".toList then some (some (.bool false), r)
  else if w = "math".toList then
    if r.takeWhile (fun c => isWord c || c = '.') = ".huge".toList then some (some (.num false .inf), r.drop 5) else none
  else if isName w then some (none, r)
  else none

/-- The minus sign; there is no arithmetic with `nil`. -/
def negate : Option Value × Text → Option (Option Value × Text)
  | (some (.num neg m), r) => some (some (.num (!neg) m), r)
  | _ => none

/-- An expression that begins like a number, string or word. -/
def readSimple (fl : ℚ → ℚ) (c : Char) (s : Text) : Option (Option Value × Text) :=
  if c = '"' then (readString (s.length + 1) s).map fun x => (some (.str x.1), x.2)
  else if isDigit c then (readNumber fl (c :: s)).map fun x => (some x.1, x.2)
  else if isLetter c then readWord (c :: s)
  else none

/-- A field `name =` at the beginning. -/
def readKey (s : Text) : Option (Text × Text) :=
  let w := s.takeWhile isWord
  if isName w then
    match skip (s.dropWhile isWord) with
    | '=' :: '=' :: _ => none
    | '=' :: r => some (w, r)
    | _ => none
  else none

/-- `t[k] = v`. -/
def put (t : List (Key × Value)) (k : Key) : Option Value → List (Key × Value)
  | none => t.filter fun e => decide (e.1 ≠ k)
  | some v => (t.filter fun e => decide (e.1 ≠ k)) ++ [(k, v)]

/-- After a field there is a comma, or the end of the table. -/
def separator (s : Text) : Option (Bool × Text) :=
  match skip s with
  | ',' :: r => some (false, r)
  | '}' :: r => some (true, r)
  | _ => none

mutual

/-- An expression. -/
def readExp (fl : ℚ → ℚ) : Nat → Text → Option (Option Value × Text)
  | 0, _ => none
  | n + 1, s =>
    match skip s with
    | [] => none
    | c :: r =>
      if c = '{' then (readFields fl n r 1 []).map fun x => (some (.table x.1), x.2)
      else if c = '-' then (readExp fl n r).bind negate
      else readSimple fl c r

/-- The fields of a table up to the closing brace; `i` is the index of the next value without a name. -/
def readFields (fl : ℚ → ℚ) : Nat → Text → Int → List (Key × Value) → Option (List (Key × Value) × Text)
  | 0, _, _, _ => none
  | n + 1, s, i, t =>
    match skip s with
    | [] => none
    | c :: r =>
      if c = '}' then some (t, r)
      else
        match readKey (c :: r) with
        | some (k, r') => do
          let (v, r'') ← readExp fl n r'
          let (last, rest) ← separator r''
          if last then some (put t (.str k) v, rest) else readFields fl n rest i (put t (.str k) v)
        | none => do
          let (v, r'') ← readExp fl n (c :: r)
          let (last, rest) ← separator r''
          if last then some (put t (.num i) v, rest) else readFields fl n rest (i + 1) (put t (.num i) v)

end

/-- The table that the text, after `return`, stands for. -/
def readTable (fl : ℚ → ℚ) (s : Text) : Option (List (Key × Value)) :=
  match readExp fl (s.length + 1) s with
  | some (some (.table es), rest) => if skip rest = [] then some es else none
  | _ => none

/-- `return` and the table. -/
def readReturn (fl : ℚ → ℚ) (s : Text) : Option (List (Key × Value)) :=
  if s.takeWhile isWord = "return".toList then readTable fl (s.dropWhile isWord) else none

end Verif.LuaText
