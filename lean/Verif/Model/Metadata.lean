import Verif.Model.Crc32

/-! Model of /repo/src/block_device/bdev_lazy/metadata/types.rs (the metadata codec) and of the
whole-device save/load of metadata/save.rs and metadata/load.rs at the level of bytes. -/

namespace Verif.Metadata
open Verif Verif.Crc32

/-- `SECTOR_SIZE` (/repo/src/backends/common/mod.rs, used throughout types.rs). -/
scoped notation "SECTOR_SIZE" => (512 : Nat)
/-- `CRC32_SIZE` (types.rs:10). -/
scoped notation "CRC32_SIZE" => (4 : Nat)
/-- `STRIPE_HEADERS_PER_SECTOR` (types.rs:11). -/
scoped notation "PER_SECTOR" => (508 : Nat)
/-- `UBI_MAGIC` = `b"BDEV_UBI\0"` (types.rs:5-6). -/
def magicBytes : Bytes := [0x42, 0x44, 0x45, 0x56, 0x5F, 0x55, 0x42, 0x49, 0x00]
/-- `METADATA_VERSION_MAJOR.to_le_bytes()` (types.rs:7). -/
def versionMajor : Bytes := le 2 2
/-- `METADATA_VERSION_MINOR.to_le_bytes()` (types.rs:8). -/
def versionMinor : Bytes := le 2 0
/-- `MAX_STRIPE_SECTOR_COUNT_SHIFT` (types.rs:13). -/
scoped notation "MAX_SHIFT" => (17 : Nat)

/-- `metadata_flags::FETCHED` (types.rs:19). -/
def FETCHED : UInt8 := 1
/-- `metadata_flags::WRITTEN` (types.rs:21). -/
def WRITTEN : UInt8 := 2
/-- `metadata_flags::HAS_SOURCE` (types.rs:24). -/
def HAS_SOURCE : UInt8 := 4

/-- `UbiMetadata` (types.rs:29-43). -/
structure Meta where
  magic : Bytes
  verMajor : Bytes
  verMinor : Bytes
  shift : UInt8
  headers : Bytes
deriving DecidableEq

/-- Errors of the codec (types.rs:190-303, the `ubiblk_error!`s); `panic` is a failed `assert!` or an out-of-range
slice. -/
inductive Err where
  | tooSmall | notMultiple | headerCrc | badMagic | badVersion | badShift | badCount
  | groupCrc (g : Nat) | countTooBig | panic
deriving DecidableEq, Repr

/-- Ceiling division: `usize::div_ceil` of the standard library, used in types.rs. -/
def divCeil (a b : Nat) : Nat := (a + b - 1) / b

/-- `write_sector_with_crc32` (types.rs:52-61) on a 512-byte buffer: zero fill, copy `contents`, then
checksum of the first 508 bytes stored little endian in the last four. The previous buffer contents do
not matter because of the fill. Callers pass at most 508 bytes. -/
def writeSector (contents : Bytes) : Bytes :=
  let body := (contents ++ zeros SECTOR_SIZE).take PER_SECTOR
  body ++ crcBytes body

/-- `sector_crc32_is_valid` (types.rs:64-68) on a 512-byte sector. -/
def sectorValid (sector : Bytes) : Bool :=
  (sector.drop PER_SECTOR).take CRC32_SIZE == crcBytes (sector.take PER_SECTOR)

/-- `UbiMetadata::stripe_header_sector_count` (types.rs:83-87). -/
def headerSectorCount (m : Meta) : Nat := divCeil m.headers.length PER_SECTOR
/-- `UbiMetadata::metadata_size` (types.rs:89-92). -/
def metadataSize (m : Meta) : Nat := SECTOR_SIZE + headerSectorCount m * SECTOR_SIZE
/-- `UbiMetadata::stripe_id_to_sector` (types.rs:95-97). -/
def stripeIdToSector (k : Nat) : Nat := k / PER_SECTOR + 1
/-- `UbiMetadata::stripe_id_to_group` (types.rs:100-102). -/
def stripeIdToGroup (k : Nat) : Nat := k / PER_SECTOR
/-- `UbiMetadata::stripe_sector_count` (types.rs:104-106). -/
def stripeSectorCount (m : Meta) : Nat := 2 ^ m.shift.toNat

/-- `UbiMetadata::new` (types.rs:134-159). -/
def Meta.new (shift : UInt8) (baseStripes imageStripes : Nat) : Meta :=
  { magic := magicBytes, verMajor := versionMajor, verMinor := versionMinor, shift,
    headers := (List.range baseStripes).map fun i => if i < imageStripes then HAS_SOURCE else 0 }

/-- `UbiMetadata::new_from_stripe_source` (types.rs:161-186); the source enters only through
`has_stripe`. -/
def Meta.newFromSource (shift : UInt8) (baseStripes : Nat) (hasStripe : Nat → Bool) : Meta :=
  { magic := magicBytes, verMajor := versionMajor, verMinor := versionMinor, shift,
    headers := (List.range baseStripes).map fun i => if hasStripe i then HAS_SOURCE else 0 }

/-- `has_fetched_all_stripes` (types.rs:345-349). -/
def hasFetchedAll (m : Meta) : Bool :=
  m.headers.all fun h => (h &&& HAS_SOURCE) == 0 || (h &&& FETCHED) != 0

/-- The loop of `from_bytes` (types.rs:274-287): `n` groups starting at group `g`. -/
def readGroups (buf : Bytes) : Nat → Nat → Bytes → Except Err Bytes
  | _, 0, acc => .ok acc
  | g, n + 1, acc =>
    let start := SECTOR_SIZE + g * SECTOR_SIZE
    if start + SECTOR_SIZE ≤ buf.length then
      let sector := slice buf start SECTOR_SIZE
      if sectorValid sector then readGroups buf (g + 1) n (acc ++ sector.take PER_SECTOR)
      else .error (.groupCrc g)
    else .error .panic                                            -- assert! at types.rs:276

/-- `UbiMetadata::from_bytes` (types.rs:190-300). -/
def fromBytes (buf : Bytes) : Except Err Meta :=
  if buf.length < SECTOR_SIZE then .error .tooSmall
  else if buf.length % SECTOR_SIZE ≠ 0 then .error .notMultiple
  else if sectorValid (buf.take SECTOR_SIZE) = false then .error .headerCrc
  else
    let magic := buf.take 9
    if magic ≠ magicBytes then .error .badMagic
    else
      let vmaj := slice buf 9 2
      let vmin := slice buf 11 2
      if vmaj ≠ versionMajor ∨ vmin ≠ versionMinor then .error .badVersion
      else
        let shift := buf.getD 13 0
        if shift.toNat > MAX_SHIFT then .error .badShift
        else
          let count := fromLe (slice buf 14 4)
          let maxCount := (buf.length - SECTOR_SIZE) / SECTOR_SIZE * PER_SECTOR
          if count > maxCount then .error .badCount
          else
            match readGroups buf 0 (divCeil count PER_SECTOR) [] with
            | .error e => .error e
            | .ok all =>
              if count ≤ all.length then
                .ok { magic, verMajor := vmaj, verMinor := vmin, shift, headers := all.take count }
              else .error .panic                                  -- assert! at types.rs:290

/-- Header sector contents (types.rs:313-327). -/
def headerContents (m : Meta) : Bytes :=
  m.magic ++ m.verMajor ++ m.verMinor ++ [m.shift] ++ le 4 m.headers.length

/-- The slice of headers stored in group `g` (types.rs:334-336; metadata_flusher.rs:207-210). -/
def groupHeaders (headers : Bytes) (g : Nat) : Bytes :=
  (headers.drop (g * PER_SECTOR)).take PER_SECTOR

/-- The loop of `write_to_buf` (types.rs:333-341): groups `g .. g+n`. -/
def writeGroups (headers : Bytes) : Nat → Nat → Bytes → Except Err Bytes
  | _, 0, buf => .ok buf
  | g, n + 1, buf =>
    let start := SECTOR_SIZE + g * SECTOR_SIZE
    if start + SECTOR_SIZE ≤ buf.length then
      writeGroups headers (g + 1) n (splice buf start (writeSector (groupHeaders headers g)))
    else .error .panic                                            -- assert! at types.rs:339

/-- `UbiMetadata::write_to_buf` (types.rs:304-343): the new buffer contents. -/
def writeToBuf (m : Meta) (buf : Bytes) : Except Err Bytes :=
  if buf.length < metadataSize m then .error .tooSmall
  else if m.headers.length ≥ 2 ^ 32 then .error .countTooBig      -- u32::try_from at types.rs:320
  else writeGroups m.headers 0 (headerSectorCount m) (splice buf 0 (writeSector (headerContents m)))

/-- One incremental metadata update as issued by `MetadataFlusher::start_writes`
(/repo/src/block_device/bdev_lazy/metadata_flusher.rs:207-214): the sector holding stripe `k` is
rebuilt from the in-memory headers and written at `stripe_id_to_sector(k)`. -/
def writeStripeSector (headers : Bytes) (k : Nat) (dev : Bytes) : Bytes :=
  splice dev (stripeIdToSector k * SECTOR_SIZE) (writeSector (groupHeaders headers (stripeIdToGroup k)))

end Verif.Metadata
