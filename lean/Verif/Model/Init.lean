import Verif.Model.Metadata
import Verif.Model.Crypt

/-! # Model of initialising a volume

`init_metadata` and `ensure_metadata_file` (/repo/src/backends/common/mod.rs:331-438), the range check of
/repo/src/bin/init-metadata.rs, `save_to_bdev` and `load_from_bdev`
(/repo/src/block_device/bdev_lazy/metadata/{save,load}.rs). Failures of the operating system (stat, chmod, resize, sync)
are not shown: they end the run with an error. -/

namespace Verif.Init
open Verif Verif.Metadata Verif.Disk

/-- The ways initialisation is refused (backends/common/mod.rs:331-438, bin/init-metadata.rs:37-45,
metadata/save.rs:16-46); messages are left out. -/
inductive IErr where
  | shift | noPath | dataSize | imageSize | stripeSize | notFile | metaSize | tooBig | format (e : Metadata.Err)
deriving DecidableEq, Repr

/-- What is found at the metadata path (opened at backends/common/mod.rs:365-438). -/
inductive Node where
  | absent
  /-- a symbolic link, directory, device or socket -/
  | other
  | file (mode size : Nat)
deriving DecidableEq, Repr

/-- `ensure_metadata_file` (backends/common/mod.rs:365-438): mode and size of the file afterwards. Opening refuses
symbolic links and directories (`O_NOFOLLOW`, write access), the type check everything else that is not a file. -/
def ensureFile (n : Node) (minimum : Nat) : Except IErr (Nat × Nat) :=
  match n with
  | .absent => .ok (0o600, if 0 < minimum then minimum else 0)
  | .other => .error .notFile
  | .file mode size => .ok (if mode ≠ 0o600 then 0o600 else mode, if size < minimum then minimum else size)

/-- The configured stripe source (config/v2/stripe_source.rs:23-33) as far as initialisation looks at it
(stripe_source/builder.rs:42-95). `raw`: size in bytes of the image; `archive`: the stripe numbers of its mapping (its
own stripe size is not looked at); `remote`: stripe size and header bytes of the served volume. -/
inductive Source where
  | none
  | raw (size : Nat)
  | archive (stripes : List Nat)
  | remote (ssc : Nat) (headers : Bytes)

/-- `StripeSourceBuilder::build` (stripe_source/builder.rs:43-89) with the checks of `UringBlockDevice::new` /
`SyncBlockDevice::new` and `RemoteStripeSource::new` (stripe_source/remote.rs:171-178), then `has_stripe`
(stripe_source/bdev.rs:57-60, archive.rs:270-272, remote.rs:313-321). -/
def Source.build (ssc : Nat) : Source → Except IErr (Nat → Bool)
  | .none => .ok fun _ => false
  | .raw size => if size % 512 ≠ 0 then .error .imageSize else .ok fun k => decide (k * ssc < size / 512)
  | .archive ids => .ok fun k => decide (k ∈ ids)
  | .remote rs hs =>
    if rs ≠ ssc then .error .stripeSize
    else .ok fun k =>
      if k ≥ hs.length then false else decide (hs.getD k 0 &&& WRITTEN ≠ 0) || decide (hs.getD k 0 &&& HAS_SOURCE ≠ 0)

/-- `save_to_bdev` up to the write (metadata/save.rs:16-46) on a device of `sectors` sectors: the buffer. -/
def saveBuf (m : Meta) (sectors : Nat) : Except IErr Bytes :=
  if sectors ≥ 2 ^ 32 then .error .tooBig
  else
    let total := sectors * 512
    if metadataSize m > total then .error .tooBig
    else
      match writeToBuf m (zeros (metadataSize m)) with
      | .ok b => .ok (b ++ zeros (total - metadataSize m))
      | .error e => .error (.format e)

/-- What `init_metadata` looks at (backends/common/mod.rs:331-345): whether `metadata_path` is set, the size of the
data file in bytes, the stripe source. -/
structure Setup where
  metadataPath : Bool
  dataSize : Nat
  source : Source

/-- What initialisation leaves behind (backends/common/mod.rs:355-362): mode and size of the metadata file, the
metadata, and the buffer written. -/
structure Job where
  mode : Nat
  size : Nat
  md : Meta
  buf : Bytes

/-- The metadata of a new volume (backends/common/mod.rs:343-354). -/
def newMeta (src : Source) (shift : UInt8) (ssc base : Nat) : Except IErr Meta :=
  match src with
  | .none => .ok (Meta.new shift base 0)
  | src => (src.build ssc).map (Meta.newFromSource shift base)

/-- `run` of init-metadata (bin/init-metadata.rs:37-53) and `init_metadata` (backends/common/mod.rs:331-362). -/
def init (s : Setup) (node : Node) (shift : UInt8) : Except IErr Job :=
  if ¬(6 ≤ shift.toNat ∧ shift.toNat ≤ 16) then .error .shift
  else if s.metadataPath = false then .error .noPath
  else if s.dataSize % 512 ≠ 0 then .error .dataSize
  else
    let ssc := 2 ^ shift.toNat
    let base := divCeil (s.dataSize / 512) ssc
    match newMeta s.source shift ssc base with
    | .error e => .error e
    | .ok md =>
      match ensureFile node (metadataSize md) with
      | .error e => .error e
      | .ok (mode, size) =>
        if size % 512 ≠ 0 then .error .metaSize
        else
          match saveBuf md (size / 512) with
          | .error e => .error e
          | .ok buf => .ok { mode, size, md, buf }

/-- The requests `save_to_bdev` makes and the answers it waits for (metadata/save.rs:55-62): write everything, wait,
flush, wait. `METADATA_WRITE_ID` is 0, `METADATA_FLUSH_ID` 1; channel 0. -/
def saveEvents (buf : Bytes) (sectors : Nat) : List (Ev Crypt.Sector) :=
  [.issue 0 0 (.write 0 sectors (Crypt.bufData buf 0 sectors)), .resp 0 0 true [], .issue 0 1 .flush, .resp 0 1 true []]

/-- `load_from_bdev` (metadata/load.rs:11-33) on the sectors its read delivered. -/
def load (out : List (Option Crypt.Sector)) : Except Metadata.Err Meta := fromBytes (Crypt.readBuf out)

end Verif.Init
