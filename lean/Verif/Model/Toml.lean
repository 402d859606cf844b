/-! # Configuration files and includes

Models `/repo/src/config/v2/includes.rs`. A parsed TOML document is a tree of tables; the TOML parser and the file system are
parameters (which files exist and what they parse to). Paths are the characters of a Unix path. -/

namespace Verif.Config

/-- A value that is not a table: a scalar or an array; `other` is everything the program has no use for (dates,
floats, mixed arrays). The empty array is `strings []`. Library type: `toml::Value` (includes.rs:4). -/
inductive Atom where
  | strings (l : List (List Char))
  | str (s : String)
  | bool (b : Bool)
  | int (i : Int)
  | ints (l : List Int)
  | other (text : String)
deriving DecidableEq

/-- A TOML table (`toml::map::Map`, library; includes.rs:4): entries with a value that is not a table, and sub-tables.
-/
inductive Tbl where
  | nil
  | leaf (key : String) (a : Atom) (rest : Tbl)
  | sub (key : String) (t : Tbl) (rest : Tbl)
deriving DecidableEq

/-- A TOML value (`toml::Value`, library; includes.rs:4). -/
inductive Val where
  | atom (a : Atom)
  | table (t : Tbl)
deriving DecidableEq

/-- `Map::get` (library; includes.rs:20, 136). -/
def Tbl.get : Tbl → String → Option Val
  | .nil, _ => none
  | .leaf k a r, x => if x = k then some (.atom a) else r.get x
  | .sub k t r, x => if x = k then some (.table t) else r.get x

/-- `Map::insert` of a new key (library; includes.rs:156). -/
def Tbl.insert : Tbl → String → Val → Tbl
  | .nil, x, .atom a => .leaf x a .nil
  | .nil, x, .table t => .sub x t .nil
  | .leaf k a r, x, v => .leaf k a (r.insert x v)
  | .sub k t r, x, v => .sub k t (r.insert x v)

/-- Replacing a sub-table in place (`get_mut`, library; includes.rs:136-139). -/
def Tbl.setTable : Tbl → String → Tbl → Tbl
  | .nil, _, _ => .nil
  | .leaf k a r, x, t' => .leaf k a (r.setTable x t')
  | .sub k t r, x, t' => if x = k then .sub k t' r else .sub k t (r.setTable x t')

/-- `Map::remove` (library; includes.rs:93). -/
def Tbl.remove : Tbl → String → Tbl
  | .nil, _ => .nil
  | .leaf k a r, x => if x = k then r else .leaf k a (r.remove x)
  | .sub k t r, x => if x = k then r else .sub k t (r.remove x)

/-- Keys of a table (`Map::keys`, library; used in statements). -/
def Tbl.keys : Tbl → List String
  | .nil => []
  | .leaf k _ r => k :: r.keys
  | .sub k _ r => k :: r.keys

/-- Errors of includes.rs:19-161. -/
inductive IErr where
  | notArray | emptyPath | absolutePath | badComponent | unreadable | parse | nested | mismatch | duplicate
deriving DecidableEq

/-- `merge_tables` (includes.rs:130-161). The path is only used in messages. -/
def mergeTables (base : Tbl) : Tbl → Except IErr Tbl
  | .nil => .ok base
  | .leaf k a rest =>
    match base.get k with
    | some (.table _) => .error .mismatch
    | some (.atom _) => .error .duplicate
    | none => mergeTables (base.insert k (.atom a)) rest
  | .sub k t rest =>
    match base.get k with
    | some (.table b) =>
      match mergeTables b t with
      | .error e => .error e
      | .ok m => mergeTables (base.setTable k m) rest
    | some (.atom _) => .error .mismatch
    | none => mergeTables (base.insert k (.table t)) rest

/-- Components of a path (`std::path::Component` on Unix, standard library; includes.rs:60-64). -/
inductive Comp where
  | root | cur | parent
  | normal (s : List Char)
deriving DecidableEq

/-- Pieces between slashes (part of `Path::components`, standard library). -/
def pieces : List Char → List (List Char)
  | [] => [[]]
  | c :: cs =>
    if c = '/' then [] :: pieces cs
    else
      match pieces cs with
      | [] => [[c]]
      | p :: ps => (c :: p) :: ps

/-- A piece as a component: empty pieces and dots disappear, except a dot that begins a relative path (part of
`Path::components`, standard library). -/
def pieceComp (first : Bool) (s : List Char) : Option Comp :=
  if s = [] then none
  else if s = ['.'] then (if first then some .cur else none)
  else if s = ['.', '.'] then some .parent
  else some (.normal s)

/-- `Path::is_absolute` on Unix (standard library; includes.rs:54). -/
def isAbsolute (p : List Char) : Bool := p.head? = some '/'

/-- `Path::components` on Unix (standard library; includes.rs:60). -/
def components (p : List Char) : List Comp :=
  if isAbsolute p then .root :: (pieces p).filterMap (pieceComp false)
  else
    match pieces p with
    | [] => []
    | s :: ss => (pieceComp true s).toList ++ ss.filterMap (pieceComp false)

/-- `PathBuf::join` on Unix (standard library; includes.rs:96). -/
def join (dir p : List Char) : List Char :=
  if isAbsolute p then p
  else if dir = [] then p
  else if dir.getLast? = some '/' then dir ++ p
  else dir ++ '/' :: p

/-- `validate_include_path` (includes.rs:46-72); `ws` are the white-space characters `str::trim` removes. -/
def validateIncludePath (ws : Char → Bool) (p : List Char) : Except IErr Unit :=
  if p.all ws then .error .emptyPath
  else if isAbsolute p then .error .absolutePath
  else if (components p).any fun c => c = .parent || c = .root then .error .badComponent
  else .ok ()

/-- One entry of `parse_include_array` (includes.rs:31-42): the path and whether the file is optional. -/
def parseEntry (ws : Char → Bool) (s : List Char) : Except IErr (List Char × Bool) :=
  let (p, optional) := if s.getLast? = some '?' then (s.dropLast, true) else (s, false)
  match validateIncludePath ws p with
  | .error e => .error e
  | .ok () => .ok (p, optional)

/-- All entries, up to the first error (`map` and `collect`, includes.rs:30-43). -/
def parseEntries (ws : Char → Bool) : List (List Char) → Except IErr (List (List Char × Bool))
  | [] => .ok []
  | s :: ss =>
    match parseEntry ws s with
    | .error e => .error e
    | .ok p =>
      match parseEntries ws ss with
      | .error e => .error e
      | .ok ps => .ok (p :: ps)

/-- `parse_include_array` (includes.rs:19-44). -/
def parseIncludeArray (ws : Char → Bool) (root : Tbl) : Except IErr (List (List Char × Bool)) :=
  match root.get "include" with
  | none => .ok []
  | some (.atom (.strings l)) => parseEntries ws l
  | some _ => .error .notArray

/-- What reading and parsing a file gives (includes.rs:98-112). -/
inductive FileRes where
  | notFound | ioError | notToml
  | ok (t : Tbl)

/-- The loop of `resolve_includes` (includes.rs:95-125). -/
def includeAll (files : List Char → FileRes) (dir : List Char) (base : Tbl) : List (List Char × Bool) → Except IErr Tbl
  | [] => .ok base
  | (p, optional) :: rest =>
    match files (join dir p) with
    | .notFound => if optional then includeAll files dir base rest else .error .unreadable
    | .ioError => .error .unreadable
    | .notToml => .error .parse
    | .ok t =>
      if (t.get "include").isSome then .error .nested
      else
        match mergeTables base t with
        | .error e => .error e
        | .ok m => includeAll files dir m rest

/-- `resolve_includes` (includes.rs:84-127). -/
def resolveIncludes (ws : Char → Bool) (files : List Char → FileRes) (dir : List Char) (root : Tbl) : Except IErr Tbl :=
  match parseIncludeArray ws root with
  | .error e => .error e
  | .ok es => includeAll files dir (root.remove "include") es

end Verif.Config
