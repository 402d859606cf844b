import Verif.Spec.Vhost
import Verif.Spec.Disk

/-! # The disk a guest driver sees on its virtqueues

Specification vocabulary for C67: which disk request a descriptor chain asks for, and what the guest finds in its memory when the
chain comes back. Written in terms of guest memory and chains only. -/

namespace Verif.Vhost
open Verif Verif.Metadata Verif.Disk

/-- Sector `j` of a buffer. -/
def sectorOf (buf : Bytes) (j : Nat) : Bytes := (buf.drop (j * 512)).take 512

/-- A chain made as the virtio specification asks for: a readable header, buffers (writable ones for a read), a writable
status byte; a flush has sector 0. -/
def wellFormed (m : GMem) (ds : List Desc) : Bool :=
  match ds.head?, statusDesc ds with
  | some h, some s =>
    !h.write && (span h.addr 16).all m.ok && (s.write && decide (1 ≤ s.len) && m.ok s.addr) &&
    (decide (headerType m h.addr ≠ 4) || decide (headerSector m h.addr = 0)) &&
    (decide (headerType m h.addr ≠ 0) || (dataDescs ds).all (·.write))
  | _, _ => false

/-- The disk request a chain asks for: a read or write of whole sectors, or a flush. Other chains ask for none. -/
def wanted (m : GMem) (ds : List Desc) : Option (Req Bytes) :=
  match ds.head? with
  | none => none
  | some h =>
    if wellFormed m ds = false then none
    else if headerType m h.addr = 0 then
      if total (dataOf ds) % 512 = 0 then some (.read (headerSector m h.addr) (total (dataOf ds) / 512)) else none
    else if headerType m h.addr = 1 then
      if total (dataOf ds) % 512 = 0 ∧ (places (dataOf ds)).all m.ok = true then
        some (.write (headerSector m h.addr) (total (dataOf ds) / 512)
          fun x => sectorOf ((places (dataOf ds)).map m.bytes) (x - headerSector m h.addr))
      else none
    else if headerType m h.addr = 4 then some .flush
    else none

/-- What the guest finds when its request comes back: for a successful read, the sectors in its buffers. -/
def found (m : GMem) (ds : List Desc) : Req Bytes → Bool → List (Option Bytes)
  | .read _ cnt, true => (List.range cnt).map fun j => some (sectorOf ((places (dataOf ds)).map m.bytes) j)
  | _, _ => []

/-- What happens at the queues. Chains are numbered per queue as they are taken from it. -/
inductive FLab where
  /-- chain `n` is taken from queue `q`, guest memory being `m` -/
  | popped (q n : Nat) (m : GMem) (ds : List Desc)
  /-- it is returned; memory was `m0` when it was taken and is `m` now -/
  | returned (q n : Nat) (m0 : GMem) (ds : List Desc) (st : Option UInt8) (m : GMem)
  /-- the client has disconnected and another one is served -/
  | client
  | crash

/-- The guest's reading of that: disk requests and their answers. -/
def FLab.view : FLab → List (Ev Bytes)
  | .popped q n m ds =>
    match wanted m ds with
    | some r => [.issue q n r]
    | none => []
  | .returned q n m0 ds st m =>
    match wanted m0 ds with
    | some r => [.resp q n (decide (st = some S_OK)) (found m ds r (decide (st = some S_OK)))]
    | none => []
  | .client => []
  | .crash => [.crash]

/-- A chain a driver would make: no address twice in its buffers and status byte, less than 4 GiB of data. -/
def Sane (ds : List Desc) : Prop :=
  (places (dataOf ds)).Nodup ∧ (∀ s, statusDesc ds = some s → s.addr ∉ places (dataOf ds)) ∧ total (dataOf ds) < 2 ^ 32

end Verif.Vhost
