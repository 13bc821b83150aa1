import Mathlib.Data.Rat.Defs
import Mathlib.Algebra.Order.Group.Int
import Verif.SortedMap

/-!
# Parameter dictionaries

Model of `cartographer/common/lua_parameter_dictionary.cc` (abbreviated lp), from the point where the Lua code has been
evaluated to a table. Strings are taken from an arbitrary linear order `S`. Numbers are rationals. What Lua does to convert a
string to a number is a parameter. `none` is a failing `CHECK` or `LOG(FATAL)`, or undefined behaviour.
-/

namespace Verif.Lua

open Verif

variable {S : Type} [LinearOrder S]

/-- The keys of a table. `other` stands for booleans, functions and so on. -/
inductive Key (S : Type) where
  | str (s : S)
  | num (n : Int)
  | other (n : Nat)
  deriving DecidableEq

/-- The values of a table. `other` stands for functions and so on. A table is the list of its entries in the order of
`lua_next`; no key occurs twice. -/
inductive Value (S : Type) where
  | bool (b : Bool)
  | str (s : S)
  | num (q : ℚ)
  | table (entries : List (Key S × Value S))
  | other (n : Nat)

/-- A table. -/
abbrev Table (S : Type) := List (Key S × Value S)

/-- `lua_rawget`; `none` is `nil`. -/
def rawget (t : Table S) (k : Key S) : Option (Value S) := (t.find? fun e => decide (e.1 = k)).map Prod.snd

/-- How Lua converts strings to numbers (`lua_isnumber`, `lua_tonumber`). -/
abbrev ToNumber (S : Type) := S → Option ℚ

/-- `GetKeys` (lp 209-221). Keys that are numbers or strings that can be converted to one are skipped; `lua_tostring` of any
other key is a null pointer, from which no string can be made. -/
def getKeys (T : ToNumber S) (t : Table S) : Option (List S) :=
  match t with
  | [] => some []
  | (k, _) :: l =>
    match k with
    | .num _ => getKeys T l
    | .str s => if (T s).isSome then getKeys T l else (getKeys T l).map fun ks => s :: ks
    | .other _ => none

/-- `HasKey` (lp 223-225, 119-128). -/
def hasKey (t : Table S) (k : S) : Bool := (rawget t (.str k)).isSome

/-- A `LuaParameterDictionary`: the table, `reference_count_ == YES` and `reference_counts_`. -/
structure Dict (S : Type) where
  table : Table S
  counted : Bool
  counts : List (S × Nat) := []

/-- `CheckHasKeyAndReference` (lp 398-406), followed by `GetValueFromLuaTable`. -/
def reference (d : Dict S) (k : S) : Option (Value S × Dict S) :=
  match rawget d.table (.str k) with
  | none => none
  | some v => some (v, { d with counts := SMap.put k ((SMap.get? k d.counts).getD 0 + 1) d.counts })

/-- `CHECK(lua_isstring)` of `PopString` (lp 234): also true for numbers. -/
def isString : Value S → Bool
  | .str _ => true
  | .num _ => true
  | _ => false

/-- `lua_isnumber` and `lua_tonumber` (lp 251-252). -/
def asNumber (T : ToNumber S) : Value S → Option ℚ
  | .num q => some q
  | .str s => T s
  | _ => none

/-- `lua_tointeger`: the fraction is dropped. -/
def truncate (q : ℚ) : Int := Int.tdiv q.num q.den

/-- `CHECK(lua_isboolean)` (lp 277). -/
def isBool : Value S → Bool
  | .bool _ => true
  | _ => false

/-- The values for the keys 1, 2, … up to the first that is missing (lp 133-144). -/
def arrayFrom (t : Table S) : Nat → Int → List (Value S)
  | 0, _ => []
  | n + 1, i =>
    match rawget t (.num i) with
    | none => []
    | some v => v :: arrayFrom t n (i + 1)

/-- `GetArrayValues`; there are at most as many values as entries. -/
def arrayValues (t : Table S) : List (Value S) := arrayFrom t t.length 1

/-- `CheckAllKeysWereUsedExactlyOnceAndReset` (lp 408-416) and the destructor (lp 198-207). -/
def destroy (T : ToNumber S) (d : Dict S) : Option Unit :=
  if d.counted then
    match getKeys T d.table with
    | none => none
    | some keys => if keys.all fun k => decide (SMap.get? k d.counts = some 1) then some () else none
  else some ()

/-- The uses of a dictionary. A dictionary that is read from another one is used and then destroyed; the dictionaries of an
array are all used in the same way. -/
inductive Use (S : Type) where
  | hasKey (k : S)
  | getKeys
  | getString (k : S)
  | getDouble (k : S)
  | getInt (k : S)
  | getNonNegativeInt (k : S)
  | getBool (k : S)
  | getDictionary (k : S) (body : List (Use S))
  | arrayDoubles
  | arrayStrings
  | arrayDictionaries (body : List (Use S))

/-- A check that may fail. -/
def check (b : Bool) : Option Unit := if b then some () else none

/-- `PopDictionary` (lp 290-298), the uses of the new dictionary, and its destruction. -/
def consume (T : ToNumber S) (counted : Bool) (body : Dict S → Option (Dict S)) (v : Value S) : Option Unit :=
  match v with
  | .table t => do let d ← body { table := t, counted := counted }; destroy T d
  | _ => none

mutual
/-- One use of a dictionary: `HasKey`, `GetKeys`, `GetString` … `GetDictionary`, `GetArrayValuesAs…` (lp 209-298, 376-396,
418-422). -/
def use (T : ToNumber S) (d : Dict S) : Use S → Option (Dict S)
  | .hasKey _ => some d
  | .getKeys => (getKeys T d.table).map fun _ => d
  | .getString k => do let (v, d) ← reference d k; check (isString v); some d
  | .getDouble k => do let (v, d) ← reference d k; let _ ← asNumber T v; some d
  | .getInt k => do let (v, d) ← reference d k; let _ ← asNumber T v; some d
  | .getNonNegativeInt k => do let (v, d) ← reference d k; let q ← asNumber T v; check (decide (0 ≤ truncate q)); some d
  | .getBool k => do let (v, d) ← reference d k; check (isBool v); some d
  | .getDictionary k body => do
    let (v, d) ← reference d k
    consume T d.counted (fun d => uses T d body) v
    some d
  | .arrayDoubles => do check ((arrayValues d.table).all fun v => (asNumber T v).isSome); some d
  | .arrayStrings => do check ((arrayValues d.table).all isString); some d
  | .arrayDictionaries body => do
    check ((arrayValues d.table).all fun v => (consume T d.counted (fun d => uses T d body) v).isSome)
    some d

/-- Several uses, one after another. -/
def uses (T : ToNumber S) (d : Dict S) : List (Use S) → Option (Dict S)
  | [] => some d
  | u :: l => do let d ← use T d u; uses T d l
end

/-- The life of a dictionary: it is made from a table, used and destroyed. -/
def life (T : ToNumber S) (counted : Bool) (t : Table S) (l : List (Use S)) : Option Unit :=
  consume T counted (fun d => uses T d l) (.table t)

end Verif.Lua
