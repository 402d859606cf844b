import Verif.Util.Bytes
import Verif.Spec.Disk

/-! # I/O accounting and the virtio config space

Models `/repo/src/backends/common/io_tracking.rs`, and `VirtioBlockConfig` (`/repo/src/utils/block.rs:5-35`) with
`UbiBlkBackend::new` and `get_config` of `/repo/src/backends/vhost/backend.rs`. The tracker's atomics are read and written
one operation at a time. -/

namespace Verif.Tracker
open Verif

/-- `IoKind` (io_tracking.rs:12-16); 0 in the record is "none". -/
inductive Kind where
  | read | write | flush
deriving DecidableEq, Repr

/-- `IoRecord` (io_tracking.rs:18-22). -/
structure Rec where
  kind : Option Kind
  off : Nat
  len : Nat
deriving DecidableEq, Repr

/-- `IoTracker` (io_tracking.rs:24-32). -/
structure Trk where
  ios : List Rec
  bytesRead : Nat
  bytesWritten : Nat
  readOps : Nat
  writeOps : Nat
  flushOps : Nat
deriving DecidableEq, Repr

/-- EXTRA_TRACKING_SLOTS (io_tracking.rs:10). -/
def EXTRA : Nat := 8

/-- `new` (io_tracking.rs:35-58). -/
def Trk.new (size : Nat) : Trk := ⟨List.replicate (size + EXTRA) ⟨none, 0, 0⟩, 0, 0, 0, 0, 0⟩

/-- `add_read` (io_tracking.rs:60-84). -/
def Trk.addRead (t : Trk) (slot off len : Nat) : Trk :=
  let t := { t with bytesRead := (t.bytesRead + len * 512 % 2 ^ 64) % 2 ^ 64, readOps := (t.readOps + 1) % 2 ^ 64 }
  if slot ≥ t.ios.length then t else { t with ios := t.ios.set slot ⟨some .read, off, len⟩ }

/-- `add_write` (io_tracking.rs:86-110). -/
def Trk.addWrite (t : Trk) (slot off len : Nat) : Trk :=
  let t := { t with bytesWritten := (t.bytesWritten + len * 512 % 2 ^ 64) % 2 ^ 64, writeOps := (t.writeOps + 1) % 2 ^ 64 }
  if slot ≥ t.ios.length then t else { t with ios := t.ios.set slot ⟨some .write, off, len⟩ }

/-- `add_flush` (io_tracking.rs:112-125). -/
def Trk.addFlush (t : Trk) (slot : Nat) : Trk :=
  let t := { t with flushOps := (t.flushOps + 1) % 2 ^ 64 }
  if slot ≥ t.ios.length then t else { t with ios := t.ios.modify slot fun r => { r with kind := some .flush } }

/-- `clear` (io_tracking.rs:135-141). -/
def Trk.clear (t : Trk) (slot : Nat) : Trk :=
  if slot ≥ t.ios.length then t else { t with ios := t.ios.modify slot fun r => { r with kind := none } }

/-- `snapshot` (io_tracking.rs:143-166). -/
def Trk.snapshot (t : Trk) : List (Kind × Nat × Nat) := t.ios.filterMap fun r => r.kind.map fun k => (k, r.off, r.len)

/-- `cumulative_stats` (io_tracking.rs:169-182). -/
def Trk.stats (t : Trk) : Nat × Nat × Nat × Nat × Nat := (t.bytesRead, t.bytesWritten, t.readOps, t.writeOps, t.flushOps)

/-- Calls of the tracker's methods (io_tracking.rs:60-141). -/
inductive Call where
  | read (slot off len : Nat)
  | write (slot off len : Nat)
  | flush (slot : Nat)
  | clear (slot : Nat)

/-- One call (io_tracking.rs:60-141). -/
def Trk.call (t : Trk) : Call → Trk
  | .read s o l => t.addRead s o l
  | .write s o l => t.addWrite s o l
  | .flush s => t.addFlush s
  | .clear s => t.clear s

/-- A sequence of calls (io_tracking.rs:60-141) on a new tracker (35-58). -/
def Trk.after (size : Nat) (cs : List Call) : Trk := cs.foldl Trk.call (Trk.new size)

/-! ## The virtio config space -/

/-- What the configuration of the device is made from (backend.rs:50-63): the number of sectors and the tuning section. -/
structure Cfg where
  sectors : Nat
  segSizeMax : Nat
  segCountMax : Nat
  numQueues : Nat
  writeThrough : Bool

/-- The packed bytes of `VirtioBlockConfig` (utils/block.rs:5-35) with the values of backend.rs:50-63, little endian. -/
def Cfg.bytes (c : Cfg) : Bytes :=
  le 8 c.sectors ++ le 4 c.segSizeMax ++ le 4 c.segCountMax ++ (le 2 0 ++ le 1 0 ++ le 1 0) ++ le 4 512 ++ le 1 0 ++ le 1 0 ++
    le 2 1 ++ le 4 1 ++ le 1 (if c.writeThrough then 0 else 1) ++ le 1 0 ++ le 2 c.numQueues ++
    le 4 0 ++ le 4 0 ++ le 4 0 ++ le 4 0 ++ le 4 0 ++ le 1 0 ++ zeros 3

/-- `get_config` (backend.rs:251-282). -/
def getConfig (c : Cfg) (_offset size : Nat) : Bytes :=
  let n := min size c.bytes.length
  splice (zeros size) 0 (c.bytes.take n)

end Verif.Tracker
