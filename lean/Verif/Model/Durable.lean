import Verif.Spec.Durable

/-! # What the commands ask of the file system

The system calls by which `init-metadata`, `archive` (into a directory), `export-archive` and `xts` change files, in order. Reading,
permissions and the contents themselves are in other models. -/

namespace Verif.Durable
open Verif Verif.Dir Verif.Disk Verif.Archive

/-! ## init-metadata -/

/-- `ensure_metadata_file` (backends/common/mod.rs:365-438): the calls, and whether it returns Ok. `bare`: the path is a file name
without a directory, whose parent is the empty path, which cannot be opened (419-427). The type and permission checks (388-405) are left
out. -/
def ensureCalls (s : Files) (bare : Bool) (p : Path) (minimum : Nat) : List Call × Bool :=
  let created := (s.cur p).isNone
  let cs := (if created then [.create p] else []) ++ (if (s.bytes p).length < minimum then [.setLen p minimum] else []) ++ [.syncFile p]
  if created then (if bare then (cs, false) else (cs ++ [.syncDir p.dropLast], true)) else (cs, true)

/-- `save_to_bdev` (metadata/save.rs:16-63): one write of the whole device and a flush, which syncs the file with either engine
(block_device/bdev_sync.rs:76-88, bdev_uring.rs:107-116); a file opened for synchronous writes, which needs no flush, is not told apart. -/
def saveCalls (p : Path) (buf : Bytes) : List Call := [.write p 0 buf, .syncFile p]

/-- `init_metadata` (backends/common/mod.rs:331-363). -/
def initCalls (s : Files) (bare : Bool) (p : Path) (minimum : Nat) (buf : Bytes) : List Call × Bool :=
  match ensureCalls s bare p minimum with
  | (cs, false) => (cs, false)
  | (cs, true) => (cs ++ saveCalls p buf, true)

/-! ## Archives in a directory -/

/-- `fs::create_dir_all` (library, called at archive/fs_store.rs:13, 26): the directories it makes. -/
def mkdirCalls (budget : Option Nat) (fs : FS) (cur : Path) : List Name → List Call
  | [] => []
  | c :: cs =>
    if c = dotdot then mkdirCalls budget fs cur.dropLast cs
    else match fs (cur ++ [c]) with
      | some .dir => mkdirCalls budget fs (cur ++ [c]) cs
      | some (.file _) => []
      | none => if budget = some 0 then [] else
          .mkdir (cur ++ [c]) :: mkdirCalls (budget.map (· - 1)) (upd fs (cur ++ [c]) (some .dir)) (cur ++ [c]) cs

/-- `fs::write` (library, called at archive/fs_store.rs:28). -/
def writeCalls (fs : FS) (p : Path) (d : Bytes) (f : Fault) : List Call :=
  match fs p with
  | some .dir => []
  | _ => match f with
    | .openFails => []
    | .cut k => [.create p, .truncate p, .write p 0 (d.take k)]
    | _ => [.create p, .truncate p, .write p 0 d]

/-- `FileSystemStore::try_put_object` (archive/fs_store.rs:21-30). -/
def putCalls (base : Path) (fs : FS) (n : Name) (d : Bytes) (f : Fault) : List Call :=
  match (parts n).getLast? with
  | none => []
  | some l => mkdirCalls f.budget fs (start base n) (parts n).dropLast ++
    match mkdirs f.budget fs (start base n) (parts n).dropLast with
    | (_, none) => []
    | (fs', some p) => if l = dotdot || endsInSlash n then [] else writeCalls fs' (p ++ [l]) d f

/-- One step of the archiver on a directory, as in `Dir.ArchStep` (archiver.rs:102-128, archive/fs_store.rs:41-44). -/
inductive ArchStep (c : Cfg) (base : Path) : St → Files → Lab → St → Files → Prop where
  /-- a step that starts no put -/
  | act {s s' : St} {fs : Files} {l : Lab} : Step c s l s' → s'.log = s.log → s'.store = s.store → (∀ e ∈ s'.puts, e ∈ s.puts) →
      ArchStep c base s fs l s' fs
  /-- a step that starts a put, which is carried out at once -/
  | put {s s' : St} {fs : Files} {l : Lab} (ps : List (Name × Bytes × Bool)) (n : Name) (d : Bytes) (f : Fault) : Step c s l s' →
      s'.log = s.log ++ [n] → s'.puts = ps ++ [(n, d, false)] →
      ArchStep c base s fs l
        { s' with puts := ps ++ [(n, d, (tryPut base fs.cur n d f).2)],
                  store := if (tryPut base fs.cur n d f).2 then upd s'.store n (some d) else s'.store }
        (fs.calls (putCalls base fs.cur n d f))

/-- Runs of the archiver on a directory (archiver.rs:104-122). -/
inductive ArchRun (c : Cfg) (base : Path) : St → Files → List Lab → St → Files → Prop where
  | nil (s : St) (fs : Files) : ArchRun c base s fs [] s fs
  | snoc {s s' s'' : St} {fs fs' fs'' : Files} {ls : List Lab} {l : Lab} : ArchRun c base s fs ls s' fs' → ArchStep c base s' fs' l s'' fs'' →
      ArchRun c base s fs (ls ++ [l]) s'' fs''

/-! ## Other commands that write files -/

/-- `export_archive` (export_archive.rs:33-89): the file is made or emptied, given its length, and the stripes are written in the order
they arrive. An archive without stripes gives an empty file (33-37). -/
def exportCalls (p : Path) (total : Nat) (stripes : List (Nat × Bytes)) : List Call :=
  if total = 0 then [.create p, .truncate p]
  else [.create p, .truncate p, .setLen p total] ++ stripes.map fun x => .write p x.1 x.2

/-- `xts decode` (bin/xts.rs:89-122): chunks appended to a new file through a buffer. -/
def decodeCalls (p : Path) (chunks : List (Nat × Bytes)) : List Call :=
  [.create p, .truncate p] ++ chunks.map fun x => .write p x.1 x.2

/-- `xts encode` (bin/xts.rs:163-207): chunks written through a block device to a new file of the right length; no flush. -/
def encodeCalls (p : Path) (size : Nat) (chunks : List (Nat × Bytes)) : List Call :=
  [.create p, .truncate p, .setLen p size] ++ chunks.map fun x => .write p x.1 x.2

end Verif.Durable
