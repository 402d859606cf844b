import Verif.Model.Restore

/-! # Model of archiving a volume that is in use

The archive tool opens the two files of a volume read-only (/repo/src/bin/archive.rs:90-102). Nothing locks them, and nothing asks
whether a backend is running on them. Here the tool runs beside a backend (`Model/Lazy`) that goes on serving its guest.

The tool sees what a read of the devices returns at the moment a sector is transferred (`vol`); it is a reader only. Fetch retries,
buffers, hashing and uploads are in `Model/Archive`; `Delivered` below connects the two. -/

namespace Verif.LiveArchive
open Verif Verif.Metadata Verif.Disk

variable {D : Type}

/-- What the tool has read so far (bin/archive.rs:88-135, archiver.rs:23-38). -/
structure Tool (D : Type) where
  /-- sectors of the metadata device transferred into the buffer of `load_from_bdev` (bdev_lazy/metadata/load.rs:11-34) -/
  sectors : Nat → Option Bytes
  /-- the metadata, once parsed; the tool keeps them to its end (archiver.rs:57-84) -/
  md : Option Meta
  /-- content recorded for each sector of the disk -/
  out : Nat → Option D

/-- The tool is started (bin/archive.rs:88-100). -/
def Tool.new : Tool D := { sectors := fun _ => none, md := none, out := fun _ => none }

/-- `stripe_should_be_archived` (archiver.rs:262-279), by header. -/
def recorded (h : UInt8) : Bool := Lazy.flag h WRITTEN || Lazy.flag h HAS_SOURCE

/-- One step of the tool while the volume is in state `s` (bin/archive.rs:99-135, archiver.rs:146-161). -/
inductive Tool.Step (c : Lazy.Cfg D) (s : Lazy.Sys D) : Tool D → Tool D → Prop where
  /-- a sector of the one large read of the metadata arrives (load.rs:11-34) -/
  | sector (t : Tool D) (x : Nat) (hx : x < c.msec) (hm : t.md = none) :
      Tool.Step c s t { t with sectors := upd t.sectors x (some (s.m.vol x)) }
  /-- all sectors have arrived and parse (load.rs:30-34, bin/archive.rs:100) -/
  | load (t : Tool D) (v : Nat → Bytes) (md : Meta) (hm : t.md = none) (hv : ∀ x, x < c.msec → t.sectors x = some (v x))
      (hl : fromBytes (Lazy.devBytes c.msec v) = .ok md) :
      Tool.Step c s t { t with md := some md }
  /-- a sector of a stripe that is read from the block device arrives (archiver.rs:146-156) -/
  | disk (t : Tool D) (md : Meta) (x : Nat) (hm : t.md = some md) (hx : x < c.tsec)
      (hr : recorded (md.headers.getD (x / c.ss) 0) = true) (hd : Restore.fromDisk (md.headers.getD (x / c.ss) 0) = true) :
      Tool.Step c s t { t with out := upd t.out x (some (s.t.vol x)) }
  /-- a sector of a stripe that is read from the stripe source arrives (archiver.rs:157-160) -/
  | source (t : Tool D) (md : Meta) (x : Nat) (v : D) (hm : t.md = some md) (hx : x < c.tsec)
      (hr : recorded (md.headers.getD (x / c.ss) 0) = true) (hd : Restore.fromDisk (md.headers.getD (x / c.ss) 0) = false)
      (hv : c.src x = some v) :
      Tool.Step c s t { t with out := upd t.out x (some v) }

/-- The tool is started when the volume is in state `s0`; `ls` is what the backend does from then on. Power stays on and the backend
is not restarted in between. The tool takes no lock and opens the files read-only (bin/archive.rs:99-102). -/
inductive Beside (c : Lazy.Cfg D) (s0 : Lazy.Sys D) : List (Lazy.Lab D) → Lazy.Sys D → Tool D → Prop where
  | start : Beside c s0 [] s0 Tool.new
  | volume {ls ls' : List (Lazy.Lab D)} {s s' : Lazy.Sys D} {t : Tool D} {a : Lazy.Act D} :
      Beside c s0 ls s t → Lazy.Step c s a ls' s' → Beside c s0 (ls ++ ls') s' t
  | tool {ls : List (Lazy.Lab D)} {s : Lazy.Sys D} {t t' : Tool D} :
      Beside c s0 ls s t → Tool.Step c s t t' → Beside c s0 ls s t'

/-- `a` is the archiver of this tool (archiver.rs:40-86) and `als` its run: a fetch that succeeded delivered the sectors of its
stripe as read. -/
structure Delivered (c : Lazy.Cfg Bytes) (t : Tool Bytes) (a : Archive.Cfg) (als : List Archive.Lab) : Prop where
  ssc : a.ssc = c.ss
  headers : ∃ md, t.md = some md ∧ a.headers = md.headers
  /-- `stripe_count` (block_device/mod.rs:31-33) -/
  count : a.count = divCeil c.tsec c.ss
  /-- sectors past the end of the disk or of the image are not determined -/
  delivered : ∀ k buf, Archive.Lab.fetched k true buf ∈ als → ∀ i, i < c.ss → ∀ md, t.md = some md →
    k * c.ss + i < c.tsec → (Restore.fromDisk (md.headers.getD k 0) = true ∨ (c.src (k * c.ss + i)).isSome = true) →
    t.out (k * c.ss + i) = some (slice buf (i * 512) 512)

end Verif.LiveArchive
