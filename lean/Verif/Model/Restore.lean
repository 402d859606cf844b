import Verif.Model.Lazy
import Verif.Model.ArchiveRead

/-! # Model of archiving a stopped volume and initialising a new one from the archive

Ties the archiver (`Model/Archive`) to the volume whose devices it reads (`Model/Lazy`), and a new volume to the archive
source (`Model/ArchiveRead`). Models /repo/src/bin/archive.rs:88-135, `start_fetch_stripe`
(/repo/src/archive/archiver.rs:149-160) and the construction of the source (/repo/src/stripe_source/builder.rs:43-60). -/

namespace Verif.Restore
open Verif Verif.Metadata Verif.Archive

/-- `start_fetch_stripe` (archiver.rs:149-160): which stripes are read from the block device, by header. -/
def fromDisk (h : UInt8) : Bool := Lazy.flag h WRITTEN || Lazy.flag h FETCHED

/-- What the archiver's buffer holds for sector `x` of a stripe with header `h` once fetched: the sector of the data
device (`disk_dev`, bin/archive.rs:102, which is the device itself, not the lazy one), or of the stripe source. `none`:
not determined by either (past the end of the disk, or past the end of the image). -/
def fetchedSector (c : Lazy.Cfg Bytes) (tv : Nat → Bytes) (h : UInt8) (x : Nat) : Option Bytes :=
  if fromDisk h then (if x < c.tsec then some (tv x) else none) else c.src x

/-- `a` is the archiver started on a stopped volume `c` whose data device holds `tv` and whose metadata load as `md`
(bin/archive.rs:99-133, archiver.rs:40-86), and `ls` a run of it: every fetch that succeeded delivered the stripe's
sectors. -/
structure Taken (c : Lazy.Cfg Bytes) (tv : Nat → Bytes) (md : Meta) (a : Archive.Cfg) (ls : List Archive.Lab) : Prop where
  ssc : a.ssc = c.ss
  headers : a.headers = md.headers
  /-- `stripe_count` (block_device/mod.rs:31-33) -/
  count : a.count = divCeil c.tsec c.ss
  delivered : ∀ k buf, Lab.fetched k true buf ∈ ls → ∀ i, i < c.ss → ∀ v,
    fetchedSector c tv (md.headers.getD k 0) (k * c.ss + i) = some v → slice buf (i * 512) 512 = v

/-- The archive as the fetcher of a volume with stripes of `ss` sectors sees it: stripe `x / ss` is requested into a
buffer of `ss` sectors (stripe_fetcher.rs:62-66, stripe_source/archive.rs:207-226). `none`: the request fails. -/
def archiveSrc (P : Prims) (src : Src) (store : Name → Option Bytes) (ss : Nat) : Nat → Option Bytes := fun x =>
  match readStripe P src store (x / ss) (ss * 512) with
  | .ok b => some (slice b (x % ss * 512) 512)
  | .error _ => none

/-- Volume `c` is initialised from the opened archive `src` and starts (backends/common/mod.rs:331-363; builder.rs:53-60).
The stripe size of the archive is compared with nothing. -/
structure Restored (P : Prims) (src : Src) (store : Name → Option Bytes) (shift : UInt8) (c : Lazy.Cfg Bytes) (mv : Nat → Bytes) : Prop where
  ss : c.ss = 2 ^ shift.toNat
  source : c.src = archiveSrc P src store c.ss
  /-- `sector_count` (stripe_source/archive.rs:257-263), in stripes of the volume -/
  srcStripes : c.srcStripes = divCeil (src.stripes * src.ssc) c.ss
  boot : Lazy.Bootable c (Meta.newFromSource shift c.n src.hasStripe).headers mv

end Verif.Restore
