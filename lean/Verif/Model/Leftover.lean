import Verif.Model.Archive

/-! # What an interrupted archive run leaves behind

A `FileSystemStore` writes an object with `fs::write`, which empties the file and then fills it. -/

namespace Verif.Archive
open Verif

/-- The objects found after the archiver's process has died in state `s` (fs_store.rs:21-30 under archiver.rs:102-128): an object whose put
was started and not reported may hold any first part of its bytes. For an object store, where a put happens at one
moment, `st = s.store`. -/
def Left (s : St) (st : Name → Option Bytes) : Prop :=
  ∀ n, st n = s.store n ∨ ∃ d x k, (n, d, x) ∈ s.puts ∧ st n = some (d.take k)

end Verif.Archive
