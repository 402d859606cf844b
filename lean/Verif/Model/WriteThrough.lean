import Verif.Model.Uring
import Verif.Model.SyncIo
import Verif.Spec.WriteThrough

/-! # Model of devices opened for write-through

With `tuning.write_through` both engines open the file with O_SYNC (/repo/src/block_device/bdev_uring.rs:24-62, bdev_sync.rs:19-41), and the
io_uring channel answers a flush at once (bdev_uring.rs:106-110). The channels are those of `Model/Uring` and `Model/SyncIo`. Here the kernel
under them is a file opened with O_SYNC, open(2): a write that it reports as carried out is on stable storage. Nothing is assumed of a write
that fails. `fsync`, which only the synchronous engine asks for, is as in `Model/SyncIo`. A success is reported only for a request carried out
in full. -/

namespace Verif.WriteThrough
open Verif.Disk

variable {D : Type}

/-- The kernel ends request `o` of a file opened with O_SYNC (bdev_uring.rs:136-149, bdev_sync.rs:62-88). -/
def complete (d : Disk D) (o : Nat × Nat) (ok : Bool) : Disk D :=
  match d.ops o with
  | some (.write off cnt _ _) => Dev.leave (if ok then Dev.settle d off cnt else d) o
  | _ => Dev.complete d o ok

/-- Not the end of a request (bdev_uring.rs:74-156). -/
def inner : Uring.Act D → Bool
  | .done .. => false
  | _ => true

/-- One step of an io_uring device (bdev_uring.rs:13-163): as in `Model/Uring`, but requests end as they do with O_SYNC. `sync` is `sync_io`. -/
inductive Step (cap : Nat) (sync : Bool) : Uring.Sys D → Uring.Act D → Uring.Sys D → Prop where
  | other {s s' : Uring.Sys D} {a : Uring.Act D} (ha : inner a = true) (h : Uring.Step cap sync true s a s') : Step cap sync s a s'
  | done (s : Uring.Sys D) (c id : Nat) (res : Int) (op : Op D) (h : s.dev.ops (c, id) = some op) (hw : 0 ≤ res → op.finished) :
      Step cap sync s (.done c id res)
        { dev := complete s.dev (c, id) (decide (0 ≤ res)),
          ch := upd s.ch c ((s.ch c).post id res (s.dev.result (c, id) (decide (0 ≤ res)))) }

/-- Runs of an io_uring device opened for write-through on a disk with contents `v` (bdev_uring.rs:13-163). -/
inductive Run (cap : Nat) (sync : Bool) (v : Nat → D) : List (Uring.Act D) → Uring.Sys D → Prop where
  | nil : Run cap sync v [] (Uring.Sys.fresh v)
  | snoc {as : List (Uring.Act D)} {a : Uring.Act D} {s s' : Uring.Sys D} :
      Run cap sync v as s → Step cap sync s a s' → Run cap sync v (as ++ [a]) s'

/-- Not the end of a request (bdev_sync.rs:44-101). -/
def innerSync : SyncIo.Act D → Bool
  | .done .. => false
  | _ => true

/-- One step of a device of the synchronous engine (bdev_sync.rs:44-101), opened for write-through. -/
inductive SyncStep : SyncIo.Sys D → SyncIo.Act D → SyncIo.Sys D → Prop where
  | other {s s' : SyncIo.Sys D} {a : SyncIo.Act D} (ha : innerSync a = true) (h : SyncIo.Step s a s') : SyncStep s a s'
  | done (s : SyncIo.Sys D) (c id : Nat) (ok : Bool) (h : (s.ch c).cur = some id) (hm : s.dev.mayComplete (c, id) ok) :
      SyncStep s (.done c id ok)
        { dev := complete s.dev (c, id) ok,
          ch := upd s.ch c { cur := none, finished := (s.ch c).finished ++ [(id, ok, s.dev.result (c, id) ok)] } }

/-- Runs of a device of the synchronous engine opened for write-through (bdev_sync.rs:13-101). -/
inductive SyncRun (v : Nat → D) : List (SyncIo.Act D) → SyncIo.Sys D → Prop where
  | nil : SyncRun v [] (SyncIo.Sys.fresh v)
  | snoc {as : List (SyncIo.Act D)} {a : SyncIo.Act D} {s s' : SyncIo.Sys D} :
      SyncRun v as s → SyncStep s a s' → SyncRun v (as ++ [a]) s'

end Verif.WriteThrough
