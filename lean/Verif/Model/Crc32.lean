import Verif.Util.Bytes

/-! CRC-32 (IEEE, reflected, polynomial 0xEDB88320), the function computed by `crc32fast::hash`,
called at /repo/src/block_device/bdev_lazy/metadata/types.rs:46-48. The crate itself is outside the
repository; this is the standard bit-at-a-time definition of the checksum it documents. -/

namespace Verif.Crc32
open Verif

/-- The reflected generator polynomial of `crc32fast::hash` (library, called at metadata/types.rs:47). -/
def poly : BitVec 32 := 0xEDB88320#32

/-- One bit of the reflected CRC register (library `crc32fast`, called at metadata/types.rs:47). -/
def bitStep (s : BitVec 32) : BitVec 32 :=
  if s.getLsbD 0 then (s >>> 1) ^^^ poly else s >>> 1

/-- Eight register shifts (library `crc32fast`, called at metadata/types.rs:47). -/
def shift8 (s : BitVec 32) : BitVec 32 :=
  bitStep (bitStep (bitStep (bitStep (bitStep (bitStep (bitStep (bitStep s)))))))

/-- Feed one byte (library `crc32fast`, called at metadata/types.rs:47). -/
def byteStep (s : BitVec 32) (b : UInt8) : BitVec 32 :=
  shift8 (s ^^^ (b.toBitVec.zeroExtend 32))

/-- Register after a message (library `crc32fast`, called at metadata/types.rs:47). -/
def run (s : BitVec 32) (m : Bytes) : BitVec 32 := m.foldl byteStep s

/-- `crc32fast::hash` (types.rs:47). -/
def crc32 (m : Bytes) : BitVec 32 := ~~~ (run 0xFFFFFFFF#32 m)

/-- `compute_sector_crc32` (types.rs:46-48): the checksum as little-endian bytes. -/
def crcBytes (m : Bytes) : Bytes := le 4 (crc32 m).toNat

end Verif.Crc32
