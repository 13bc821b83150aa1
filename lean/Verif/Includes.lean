/-!
# Configuration files that include others

Model of `include` and `read`, the functions that a Lua configuration can call (`LuaInclude`, `LuaRead`,
cartographer/common/lua_parameter_dictionary.cc:426-470, abbreviated lp), of the constructor that runs the main file (lp 160-181) and of
`ConfigurationFileResolver` (cartographer/common/configuration_file_resolver.cc, abbreviated cf).

What a script does between two calls of these functions is Lua's business: a script is a tree of its interactions, which depend on the
answers and on the global variables. Scripts that never end without including a file are left out. The file system does not change while the
configuration is read. A failing `CHECK`, `LOG(FATAL)` and an error in Lua end the process; `pcall` in a script cannot catch them, as they are
not Lua errors.
-/

namespace Verif.Includes

/-- A string of the file system or of Lua: any characters, also zero. -/
abbrev Str := List Char

/-- An argument of `include` or `read`. Lua takes numbers for strings (`lua_isstring`); `text` is how it prints the number. -/
inductive Arg where
  | str (s : Str)
  | num (text : Str)
  | other

/-- A script with global variables `G` and values `V`. -/
inductive Prog (G V : Type) where
  | ret (vs : List V)
  | error
  | get (k : G → Prog G V)
  | put (g : G) (k : Prog G V)
  | incl (args : List Arg) (k : List V → Prog G V)
  | read (args : List Arg) (k : Str → Prog G V)

/-- Why the process ends. -/
inductive Abort where
  | badArguments
  | notFound
  | twice
  | emptyName
  | luaError
  | tooDeep
  deriving DecidableEq

/-- The directories of the resolver (cf 29-33: those given, then `kConfigurationFilesDirectory`), the files that can be opened with their
contents, and Lua's parser. -/
structure World (G V : Type) where
  given : List Str
  standard : Str
  file : Str → Option Str
  parse : Str → Option (Prog G V)

variable {G V : Type}

/-- The loop of `GetFullPathOrDie` (cf 35-46). -/
def search (file : Str → Option Str) (base : Str) : List Str → Option Str
  | [] => none
  | d :: ds =>
    let filename := d ++ '/' :: base
    if (file filename).isSome then some filename else search file base ds

/-- `GetFullPathOrDie` (cf 35-46). -/
def fullPath (W : World G V) (base : Str) : Except Abort Str :=
  match search W.file base (W.given ++ [W.standard]) with
  | some f => .ok f
  | none => .error .notFound

/-- `GetFileContentOrDie` (cf 48-55). -/
def content (W : World G V) (base : Str) : Except Abort Str :=
  if base = [] then .error .emptyName
  else
    match fullPath W base with
    | .error e => .error e
    | .ok f =>
      match W.file f with
      | some c => .ok c
      | none => .ok []

/-- What remains of a string when it is passed as `char*`. -/
def cString (s : Str) : Str := s.takeWhile (fun c => c ≠ Char.ofNat 0)

/-- `CHECK_EQ(lua_gettop(L), 1)`, `CHECK(lua_isstring(L, -1))` and `lua_tostring` (lp 427-431, 461-467). -/
def nameOf : List Arg → Except Abort Str
  | [.str s] => .ok (cString s)
  | [.num t] => .ok (cString t)
  | _ => .error .badArguments

/-- `LuaInclude` up to the call of the script (lp 426-452): the script and `included_files_`. -/
def enter (W : World G V) (args : List Arg) (included : List Str) : Except Abort (Prog G V × List Str) :=
  match nameOf args with
  | .error e => .error e
  | .ok base =>
    match fullPath W base with
    | .error e => .error e
    | .ok f =>
      if f ∈ included then .error .twice
      else
        match content W base with
        | .error e => .error e
        | .ok c =>
          match W.parse c with
          | none => .error .luaError
          | some p => .ok (p, included ++ [f])

/-- `LuaRead` (lp 460-470). -/
def readFile (W : World G V) (args : List Arg) : Except Abort Str :=
  match nameOf args with
  | .error e => .error e
  | .ok base =>
    match content W base with
    | .error e => .error e
    | .ok c => .ok (cString c)

/-- What a script does; `nested` runs the script of an included file. The values of the file are those of the call (lp 453-456). -/
def runWith (W : World G V) (nested : Prog G V → List Str → G → Except Abort (List V × List Str × G)) :
    Prog G V → List Str → G → Except Abort (List V × List Str × G)
  | .ret vs, included, g => .ok (vs, included, g)
  | .error, _, _ => .error .luaError
  | .get k, included, g => runWith W nested (k g) included g
  | .put g' k, included, _ => runWith W nested k included g'
  | .read args k, included, g =>
    match readFile W args with
    | .error e => .error e
    | .ok s => runWith W nested (k s) included g
  | .incl args k, included, g =>
    match enter W args included with
    | .error e => .error e
    | .ok (p, included') =>
      match nested p included' g with
      | .error e => .error e
      | .ok (vs, included'', g') => runWith W nested (k vs) included'' g'

/-- A script, with at most `d` calls of C inside each other (`LUAI_MAXCCALLS`, a Lua error beyond). -/
def run (W : World G V) : Nat → Prog G V → List Str → G → Except Abort (List V × List Str × G)
  | 0 => runWith W fun _ _ _ => .error .tooDeep
  | d + 1 => runWith W (run W d)

/-- The constructor of `LuaParameterDictionary` (lp 160-181) with the code of the main file, which ends at a zero; of the values only the first is kept and has to be a
table. -/
def load (W : World G V) (isTable : V → Bool) (d : Nat) (code : Str) (g : G) : Except Abort (V × List Str) :=
  match W.parse (cString code) with
  | none => .error .luaError
  | some p =>
    match run W d p [] g with
    | .error e => .error e
    | .ok (vs, included, _) =>
      match vs with
      | v :: _ => if isTable v then .ok (v, included) else .error .badArguments
      | [] => .error .badArguments

end Verif.Includes
