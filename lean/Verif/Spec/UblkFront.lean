import Verif.Spec.Front

/-! # The disk the kernel sees through ublk

Specification vocabulary for C68: which disk request an io descriptor asks for, and what its buffer holds when it is completed.
Written in terms of the fields of the descriptor and the buffer of the tag only. -/

namespace Verif.Ublk
open Verif Verif.Metadata Verif.Disk Verif.Vhost

/-- What the kernel hands over on a tag: `op_flags`, `start_sector`, `nr_sectors` and the buffer. -/
structure Ask where
  flags : Nat
  off : Nat
  cnt : Nat
  data : Bytes

/-- The disk request it asks for (UBLK_IO_OP_READ, WRITE and FLUSH are 0, 1 and 2 in the low byte of `op_flags`); other operations
and transfers above the device's limit ask for none. -/
def Ask.wanted (maxIo : Nat) (a : Ask) : Option (Req Bytes) :=
  if a.cnt * 512 > maxIo then none
  else if a.flags % 256 = 0 then some (.read a.off a.cnt)
  else if a.flags % 256 = 1 then some (.write a.off a.cnt fun x => sectorOf (a.data.take (a.cnt * 512)) (x - a.off))
  else if a.flags % 256 = 2 then some .flush
  else none

/-- What the kernel finds on completion: for a successful read, the sectors in the buffer. -/
def kfound (buf : Bytes) : Req Bytes → Bool → List (Option Bytes)
  | .read _ cnt, true => (List.range cnt).map fun j => some (sectorOf buf j)
  | _, _ => []

/-- What happens at the queues of the device. -/
inductive KLab where
  /-- the kernel hands over a request -/
  | asked (q tag : Nat) (a : Ask)
  /-- the request `a` is completed: bytes transferred, or an error, and the buffer -/
  | completed (q tag : Nat) (a : Ask) (res : Option Nat) (buf : Bytes)
  | crash

/-- The kernel's reading of that: disk requests and their answers. -/
def KLab.view (maxIo : Nat) : KLab → List (Ev Bytes)
  | .asked q tag a =>
    match a.wanted maxIo with
    | some r => [.issue q tag r]
    | none => []
  | .completed q tag a res buf =>
    match a.wanted maxIo with
    | some r => [.resp q tag res.isSome (kfound buf r res.isSome)]
    | none => []
  | .crash => [.crash]

end Verif.Ublk
