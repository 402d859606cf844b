import Verif.Model.Archive

/-! # Archives in a directory

`/repo/src/archive/fs_store.rs` over a file system of directories and files. Simplifications: no links, owners or
permissions (a system call that is refused is a fault, and any of them may be), no NUL in names. -/

namespace Verif.Dir
open Verif Verif.Disk Verif.Archive

/-- A file's place: the names from the root (the `PathBuf` at fs_store.rs:6, resolved). -/
abbrev Path := List Name

/-- What is at a place (operating system, used by fs_store.rs:13, 25-28, 35). -/
inductive Node where
  | dir
  | file (b : Bytes)
deriving DecidableEq

/-- A file system (operating system, used by fs_store.rs:13, 25-28, 35). -/
abbrev FS := Path → Option Node

/-- A path's text cut at the slashes (library `std::path`, used at fs_store.rs:23-24). -/
def split : List Char → List Name
  | [] => [[]]
  | c :: cs => if c = '/' then [] :: split cs else match split cs with
    | [] => [[c]]
    | h :: t => (c :: h) :: t

/-- The names in a path's text; empty ones and `.` mean nothing (library `std::path`, used at fs_store.rs:23-24). -/
def parts (n : Name) : List Name := (split n).filter fun p => p ≠ [] && p ≠ ['.']

/-- `..` (operating system; in the names at fs_store.rs:23, 34). -/
def dotdot : Name := ['.', '.']

/-- Where a name is resolved from: `path.push(name)` replaces the path if `name` begins with a slash (fs_store.rs:22-23, 33-34).
The base path is absolute and without `..`. -/
def start (base : Path) (n : Name) : Path := if n.head? = some '/' then [] else base

/-- The text ends in a slash or `/.`: it cannot name a file (operating system, used at fs_store.rs:28, 35). -/
def endsInSlash (n : Name) : Bool := match (split n).getLast? with
  | some p => p = [] || p = ['.']
  | none => true

/-- Following a path through directories (operating system, used at fs_store.rs:35). -/
def walk (fs : FS) (cur : Path) : List Name → Option Path
  | [] => match fs cur with | some .dir => some cur | _ => none
  | c :: cs => match fs cur with
    | some .dir => if c = dotdot then walk fs cur.dropLast cs else walk fs (cur ++ [c]) cs
    | _ => none

/-- What goes wrong in a put (operating system, used at fs_store.rs:25-28): a directory cannot be made after `k` have been, the file
cannot be opened, writing stops after `k` bytes. -/
inductive Fault where
  | none
  | mkdir (k : Nat)
  | openFails
  | cut (k : Nat)

/-- `fs::create_dir_all` (library, called at fs_store.rs:13, 26): make the directories that are missing; fails at a file or when the `budget` is used up. -/
def mkdirs (budget : Option Nat) (fs : FS) (cur : Path) : List Name → FS × Option Path
  | [] => (fs, some cur)
  | c :: cs =>
    if c = dotdot then mkdirs budget fs cur.dropLast cs
    else match fs (cur ++ [c]) with
      | some .dir => mkdirs budget fs (cur ++ [c]) cs
      | some (.file _) => (fs, none)
      | none => if budget = some 0 then (fs, none) else mkdirs (budget.map (· - 1)) (upd fs (cur ++ [c]) (some .dir)) (cur ++ [c]) cs

/-- `fs::write` (library, called at fs_store.rs:28): empties or makes the file, then fills it. -/
def write (fs : FS) (p : Path) (d : Bytes) (f : Fault) : FS × Bool :=
  match fs p with
  | some .dir => (fs, false)
  | _ => match f with
    | .openFails => (fs, false)
    | .cut k => (upd fs p (some (.file (d.take k))), false)
    | _ => (upd fs p (some (.file d)), true)

/-- How many directories can be made (fs_store.rs:26). -/
def Fault.budget : Fault → Option Nat
  | .mkdir k => some k
  | _ => Option.none

/-- `FileSystemStore::try_put_object` (fs_store.rs:21-30): the file system after it, and whether it returned Ok. -/
def tryPut (base : Path) (fs : FS) (n : Name) (d : Bytes) (f : Fault) : FS × Bool :=
  match (parts n).getLast? with
  | none => (fs, false)
  | some l => match mkdirs f.budget fs (start base n) (parts n).dropLast with
    | (fs', none) => (fs', false)
    | (fs', some p) => if l = dotdot || endsInSlash n then (fs', false) else write fs' (p ++ [l]) d f

/-- `FileSystemStore::try_get_object` (fs_store.rs:32-37); `fail` if the system refuses. -/
def tryGet (base : Path) (fs : FS) (n : Name) (fail : Bool) : Option Bytes :=
  if fail then none
  else match (parts n).getLast? with
    | none => none
    | some l => if l = dotdot || endsInSlash n then none else match walk fs (start base n) (parts n).dropLast with
      | none => none
      | some p => match fs (p ++ [l]) with
        | some (.file b) => some b
        | _ => none

/-- `FileSystemStore` (fs_store.rs:5-9) with the file system. -/
structure Store where
  fs : FS
  puts : List (Name × Bool) := []
  gets : List (Name × Option Bytes) := []

/-- `FileSystemStore::new` (fs_store.rs:12-19); `none` if the directory cannot be made. -/
def Store.new (base : Path) (fs : FS) (budget : Option Nat) : FS × Option Store :=
  match mkdirs budget fs [] base with
  | (fs', none) => (fs', none)
  | (fs', some _) => (fs', some { fs := fs' })

/-- `start_put_object` (fs_store.rs:41-44). -/
def Store.startPut (base : Path) (s : Store) (n : Name) (d : Bytes) (f : Fault) : Store :=
  { s with fs := (tryPut base s.fs n d f).1, puts := s.puts ++ [(n, (tryPut base s.fs n d f).2)] }

/-- `start_get_object` (fs_store.rs:46-49). -/
def Store.startGet (base : Path) (s : Store) (n : Name) (fail : Bool) : Store :=
  { s with gets := s.gets ++ [(n, tryGet base s.fs n fail)] }

/-- `put_object` (archive/mod.rs:31-48, fs_store.rs:51-53): the first poll brings a result with the name; `none` if the time is up before
it. -/
def Store.putObject (base : Path) (s : Store) (n : Name) (d : Bytes) (f : Fault) (timeUp : Bool) : Store × Option Bool :=
  let s1 := s.startPut base n d f
  if timeUp then (s1, none) else ({ s1 with puts := [] }, (s1.puts.find? (·.1 = n)).map (·.2))

/-- `get_object` (archive/mod.rs:52-69, fs_store.rs:55-57); `none` if the time is up. -/
def Store.getObject (base : Path) (s : Store) (n : Name) (fail timeUp : Bool) : Store × Option (Option Bytes) :=
  let s1 := s.startGet base n fail
  if timeUp then (s1, none) else ({ s1 with gets := [] }, (s1.gets.find? (·.1 = n)).map (·.2))

/-! ## Calls -/

/-- A call, with what goes wrong in it; or something done by another program (archive/mod.rs:31, 52; fs_store.rs). -/
inductive Op where
  | put (n : Name) (d : Bytes) (f : Fault)
  | get (n : Name) (fail : Bool)
  | other (fs : FS)

/-- What a call returns (archive/mod.rs:31, 52). -/
inductive Ans where
  | put (ok : Bool)
  | got (x : Option Bytes)
deriving DecidableEq

/-- One call of `put_object` or `get_object` before its time is up (archive/mod.rs:31-69), or the act of another program. -/
def Store.act (base : Path) (s : Store) : Op → Store × Option Ans
  | .put n d f => ((s.putObject base n d f false).1, (s.putObject base n d f false).2.map .put)
  | .get n fail => ((s.getObject base n fail false).1, (s.getObject base n fail false).2.map .got)
  | .other fs => ({ s with fs := fs }, none)

/-- A sequence of calls with their answers (archive/mod.rs:31-69). -/
def Store.acts (base : Path) (s : Store) : List Op → Store × List (Option Ans)
  | [] => (s, [])
  | o :: os => (((s.act base o).1.acts base os).1, (s.act base o).2 :: ((s.act base o).1.acts base os).2)

/-! ## The archiver on a directory -/

/-- One step of the archiver (archiver.rs:102-128) whose puts go to a directory (fs_store.rs:41-44). `s.store` is what the archiver's
puts that returned Ok have stored. -/
inductive ArchStep (c : Cfg) (base : Path) : St → FS → Lab → St → FS → Prop where
  /-- a step that starts no put -/
  | act {s s' : St} {fs : FS} {l : Lab} : Step c s l s' → s'.log = s.log → s'.store = s.store → (∀ e ∈ s'.puts, e ∈ s.puts) →
      ArchStep c base s fs l s' fs
  /-- a step that starts a put, which is carried out at once -/
  | put {s s' : St} {fs : FS} {l : Lab} (ps : List (Name × Bytes × Bool)) (n : Name) (d : Bytes) (f : Fault) : Step c s l s' →
      s'.log = s.log ++ [n] → s'.puts = ps ++ [(n, d, false)] →
      ArchStep c base s fs l
        { s' with puts := ps ++ [(n, d, (tryPut base fs n d f).2)],
                  store := if (tryPut base fs n d f).2 then upd s'.store n (some d) else s'.store }
        (tryPut base fs n d f).1

/-- Runs of the archiver on a directory (archiver.rs:104-122). -/
inductive ArchRun (c : Cfg) (base : Path) : St → FS → List Lab → St → FS → Prop where
  | nil (s : St) (fs : FS) : ArchRun c base s fs [] s fs
  | snoc {s s' s'' : St} {fs fs' fs'' : FS} {ls : List Lab} {l : Lab} : ArchRun c base s fs ls s' fs' → ArchStep c base s' fs' l s'' fs'' →
      ArchRun c base s fs (ls ++ [l]) s'' fs''

end Verif.Dir
