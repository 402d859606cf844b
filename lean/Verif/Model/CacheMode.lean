import Verif.Model.Assemble
import Verif.Model.FrontSetup
import Verif.Model.Tracker
import Verif.Model.WriteThrough

/-! # Model of the cache mode a vhost-user backend announces

The features offered and the `writeback` field (/repo/src/backends/vhost/backend.rs), and the engine that serves the data file, as the
configuration selects it. The features the driver accepts are logged and nothing else (backend.rs:144-151), so no definition below depends on
them. -/

namespace Verif.CacheMode
open Verif Verif.Disk

/-- `features` (backend.rs:130-142). -/
def features : Nat :=
  2 ^ 2 ||| 2 ^ 6 ||| 2 ^ 1 ||| 2 ^ 9 ||| 2 ^ 10 ||| 2 ^ 12 ||| 2 ^ 11 ||| 2 ^ 29 ||| 2 ^ 32 ||| 2 ^ 28 ||| 2 ^ 30

/-- The configuration space of a backend with `[tuning]` section `t` on a disk of that many sectors (backend.rs:50-63, 251-282). -/
def space (t : Config.Tuning) (sectors : Nat) : Bytes :=
  Tracker.getConfig ⟨sectors, t.segSizeMax, t.segCountMax, Setup.queues t, t.writeThrough⟩ 0 60

/-- The histories of a file opened by `create_io_engine_device` (common/mod.rs:441-462; bdev_sync.rs:13-101, bdev_uring.rs:13-163): which engine,
and whether for write-through. -/
def Serves {D : Type} (f : Assemble.File) (v : Nat → D) (es : List (Ev D)) : Prop :=
  match f.sync, f.writeThrough with
  | true, true => ∃ as s, WriteThrough.SyncRun v as s ∧ es = as.flatMap SyncIo.Act.view
  | true, false => ∃ as s, SyncIo.Run v as s ∧ es = as.flatMap SyncIo.Act.view
  | false, true => ∃ as s, WriteThrough.Run f.queue true v as s ∧ es = as.flatMap Uring.Act.view
  | false, false => ∃ as s, Uring.Run f.queue false true v as s ∧ es = as.flatMap Uring.Act.view

end Verif.CacheMode
