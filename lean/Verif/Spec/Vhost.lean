import Verif.Model.Vhost

/-! # What a guest's descriptor chain means

Specification vocabulary for C37-C40, independent of how requests are parsed: a chain is a header descriptor, then
data descriptors as long as the "next" flag is set, then the status descriptor. -/

namespace Verif.Vhost
open Verif Verif.Metadata

/-- The data descriptors of a chain. -/
def dataDescs (ds : List Desc) : List Desc := ds.tail.takeWhile (·.next)

/-- The guest buffers of a chain: addresses and lengths. -/
def dataOf (ds : List Desc) : List (Nat × Nat) := (dataDescs ds).map fun d => (d.addr, d.len)

/-- The status descriptor of a chain. -/
def statusDesc (ds : List Desc) : Option Desc := (ds.tail.dropWhile (·.next)).head?

/-- Guest address of each data byte, in the order of the concatenated buffers. -/
def places (data : List (Nat × Nat)) : List Nat := data.flatMap fun p => span p.1 p.2

/-- Bytes of data of a request. -/
def total (data : List (Nat × Nat)) : Nat := (data.map Prod.snd).sum

/-- The request header at an address: 4 bytes type, 4 reserved, 8 bytes sector, little endian. -/
def headerType (m : GMem) (a : Nat) : Nat := fromLe ((span a 4).map m.bytes)
def headerSector (m : GMem) (a : Nat) : Nat := fromLe ((span (a + 8) 8).map m.bytes)

/-- Chains popped so far, in a trace. -/
def poppedIds (es : List VEv) : List Nat := es.filterMap fun e => match e with | .popped u _ _ => some u | _ => none

/-- Chains returned to the guest, in a trace. -/
def returnedIds (es : List VEv) : List Nat := es.filterMap fun e => match e with | .returned u _ _ => some u | _ => none

end Verif.Vhost
