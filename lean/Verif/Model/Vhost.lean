import Verif.Util.Bytes
import Verif.Model.Metadata
import Verif.Spec.Disk

/-! # The vhost-user front end: request parsing and request slots

Models `/repo/src/backends/vhost/request.rs` and `/repo/src/backends/vhost/backend_thread.rs`.

Outside the model: the virtqueue itself (`virtio-queue`: the iterator over a descriptor chain is given as the list of
descriptors it yields; `add_used` succeeds), CPU pinning, and, here, event-index suppression, eventfds and the polling loop of
`handle_event` (any order of the steps below; see `Model/Wake` for these). Guest memory is a map of bytes with a fixed set of mapped addresses;
the guest may change its bytes between steps. The I/O channel accepts requests and later reports each of them once
(C10, C19, C54). Arithmetic is that of a release build (wrapping `u32` addition in `request_len`). -/

namespace Verif.Vhost
open Verif Verif.Metadata Verif.Disk

/-- Guest memory (library vm-memory; `mem`, backend_thread.rs:51): contents and which addresses are mapped. -/
structure GMem where
  bytes : Nat → UInt8
  ok : Nat → Bool

/-- The `n` addresses from `a`. No counterpart in the code: used to describe accesses of guest memory. -/
def span (a n : Nat) : List Nat := (List.range n).map (a + ·)

/-- Reading `n` bytes (library vm-memory: `read_obj`, request.rs:219-246; `write_all_volatile_to`,
backend_thread.rs:308): fails unless every address is mapped. -/
def GMem.read (m : GMem) (a n : Nat) : Option Bytes :=
  if (span a n).all m.ok then some ((span a n).map m.bytes) else none

/-- Storing bytes at consecutive addresses as long as they are mapped (library vm-memory, which fills region by
region: `write_obj`, `write_slice`, `read_exact_volatile_from`, backend_thread.rs:190, 373, 215): the new memory and
whether everything was stored. -/
def GMem.write (m : GMem) (a : Nat) : Bytes → GMem × Bool
  | [] => (m, true)
  | b :: bs =>
    if m.ok a then GMem.write { m with bytes := upd m.bytes a b } (a + 1) bs else (m, false)

/-- A descriptor as the chain iterator of the library virtio-queue yields it (request.rs:219-258): `is_write_only`,
`has_next`. -/
structure Desc where
  addr : Nat
  len : Nat
  write : Bool
  next : Bool

/-- `RequestType` (request.rs:84-100); the types the backend does not serve are one. -/
inductive RType where
  | in | out | flush | getId | other
deriving DecidableEq

/-- `RequestType::from` (request.rs:102-114); the VIRTIO_BLK_T_* constants are 0, 1, 4, 8. -/
def RType.ofCode (n : Nat) : RType :=
  if n = 0 then .in else if n = 1 then .out else if n = 4 then .flush else if n = 8 then .getId else .other

/-- `Request` (request.rs:125-137). -/
structure Request where
  ty : RType
  data : List (Nat × Nat)
  sector : Nat
  status : Nat

/-- `Error` (request.rs:49-63). -/
inductive PErr where
  | tooShort | tooSmall | guestMemory | flushSector | readOnly | writeOnly
deriving DecidableEq

/-- `check_status_desc` (request.rs:171-193). -/
def checkStatus (m : GMem) (d : Desc) : Option PErr :=
  if !d.write then some .readOnly
  else if d.len < 1 then some .tooSmall
  else if !m.ok d.addr then some .guestMemory
  else none

/-- The loop of `parse` over data descriptors (request.rs:247-258). -/
def parseData (m : GMem) (r : Request) : List Desc → Except PErr Request
  | [] => .error .tooShort
  | d :: ds =>
    if d.next then
      if !d.write && r.ty = .in then .error .readOnly
      else parseData m { r with data := r.data ++ [(d.addr, d.len)] } ds
    else
      match checkStatus m d with
      | some e => .error e
      | none => .ok { r with status := d.addr }

/-- `Request::parse` (request.rs:219-260). -/
def parse (m : GMem) : List Desc → Except PErr Request
  | [] => .error .tooShort
  | d :: ds =>
    if d.write then .error .writeOnly
    else
      match m.read d.addr 16 with
      | none => .error .guestMemory
      | some h =>
        let ty := fromLe (slice h 0 4)
        let sector := fromLe (slice h 8 8)
        if ty = 4 ∧ sector ≠ 0 then .error .flushSector
        else parseData m ⟨RType.ofCode ty, [], sector, 0⟩ ds

/-- A popped chain (backend_thread.rs:390-393): its number (chains are numbered as they are popped), head index and
descriptors. -/
structure Chain where
  uid : Nat
  head : Nat
  descs : List Desc

/-- `RequestSlot` (backend_thread.rs:35-45); `len` is the length of `buf`. -/
structure Slot where
  used : Bool
  ty : RType
  sector : Nat
  reqLen : Nat
  buf : Bytes
  status : Nat
  uid : Nat
  head : Nat
  data : List (Nat × Nat)

/-- What is handed to the I/O channel: `add_read`, `add_write` (with the buffer's contents), `add_flush`
(backend_thread.rs:276, 328, 345). -/
inductive DevReq where
  | read (sector count : Nat)
  | write (sector count : Nat) (data : Bytes)
  | flush

/-- What is observable of the backend thread (backend_thread.rs:61-453). -/
inductive VEv where
  | popped (uid head : Nat) (descs : List Desc)
  | dev (id : Nat) (r : DevReq)
  /-- chain returned to the guest; the status byte written before, if any -/
  | returned (uid head : Nat) (status : Option UInt8)
  /-- used-queue notification -/
  | signal

/-- The backend thread (backend_thread.rs:47-59) with guest memory and the requests its channel has not reported. -/
structure Vq where
  mem : GMem
  slots : List Slot
  inflight : Nat → Option DevReq
  popped : Nat
  pendingSignal : Bool

/-- VIRTIO_BLK_S_OK (library virtio-bindings; backend_thread.rs:243, 376). -/
def S_OK : UInt8 := 0

/-- VIRTIO_BLK_S_IOERR (library virtio-bindings; backend_thread.rs:245 and others). -/
def S_IOERR : UInt8 := 1

/-- VIRTIO_BLK_S_UNSUPP (library virtio-bindings; backend_thread.rs:408). -/
def S_UNSUPP : UInt8 := 2

/-- `complete_io` (backend_thread.rs:181-200). -/
def complete (v : Vq) (uid head status : Nat) (st : UInt8) : Vq × List VEv :=
  let w := v.mem.write status [st]
  let v := { v with mem := w.1, pendingSignal := true }
  if w.2 then (v, [.returned uid head (some st)]) else (v, [])

/-- `complete_bad_chain` (backend_thread.rs:63-71). -/
def completeBad (v : Vq) (c : Chain) : Vq × List VEv := (v, [.returned c.uid c.head none])

/-- The slot a request gets (backend_thread.rs:124-137): the first free one that is large enough. -/
def findSlot (slots : List Slot) (len : Nat) : Option Nat := slots.findIdx? fun s => decide (len ≤ s.buf.length) && !s.used

/-- `get_request_slot` (backend_thread.rs:118-152). -/
def getSlot (v : Vq) (len : Nat) (r : Request) (c : Chain) : Vq × Nat :=
  match findSlot v.slots len with
  | some i =>
    let buf := ((v.slots[i]?).map Slot.buf).getD []
    ({ v with slots := v.slots.set i ⟨true, r.ty, r.sector, len, buf, r.status, c.uid, c.head, r.data⟩ }, i)
  | none =>
    ({ v with slots := v.slots ++ [⟨true, r.ty, r.sector, len, zeros len, r.status, c.uid, c.head, r.data⟩] }, v.slots.length)

/-- `put_request_slot` (backend_thread.rs:154-157). -/
def putSlot (v : Vq) (id : Nat) : Vq := { v with slots := v.slots.modify id fun s => { s with used := false } }

/-- `request_len` (backend_thread.rs:252-258): a `u32` sum. -/
def requestLen (r : Request) : Nat := (r.data.map Prod.snd).sum % 2 ^ 32

/-- Result of a function of backend_thread.rs:202-379 that may panic. -/
inductive Res (α : Type) where
  | ok (a : α)
  | panic

/-- The loop of `process_write` (backend_thread.rs:303-313): slicing past the buffer panics; a failed read leaves the
(unused) rest of the slice as it is. -/
def gather (m : GMem) : List (Nat × Nat) → Nat → Bytes → Bool → Res (Bytes × Bool)
  | [], _, buf, failed => .ok (buf, failed)
  | (a, l) :: ds, pos, buf, failed =>
    if pos + l > buf.length then .panic
    else
      match m.read a l with
      | some bs => gather m ds (pos + l) (buf.take pos ++ bs ++ buf.drop (pos + l)) failed
      | none => gather m ds (pos + l) buf true

/-- The loop of `write_to_guest` (backend_thread.rs:213-221). -/
def scatter (m : GMem) : List (Nat × Nat) → Nat → Bytes → Res (GMem × Bool)
  | [], _, _ => .ok (m, true)
  | (a, l) :: ds, pos, buf =>
    if pos + l > buf.length then .panic
    else
      let w := m.write a (slice buf pos l)
      if w.2 then scatter w.1 ds (pos + l) buf else .ok (w.1, false)

/-- `process_read` (backend_thread.rs:260-284). -/
def processRead (v : Vq) (r : Request) (c : Chain) : Res (Vq × List VEv) :=
  let len := requestLen r
  if len % 512 ≠ 0 then .ok (complete v c.uid c.head r.status S_IOERR)
  else
    let (v, id) := getSlot v len r c
    let q := DevReq.read r.sector (len / 512)
    .ok ({ v with inflight := upd v.inflight id (some q) }, [.dev id q])

/-- `process_write` (backend_thread.rs:286-336). -/
def processWrite (v : Vq) (r : Request) (c : Chain) : Res (Vq × List VEv) :=
  let len := requestLen r
  if len % 512 ≠ 0 then .ok (complete v c.uid c.head r.status S_IOERR)
  else
    let (v, id) := getSlot v len r c
    match gather v.mem r.data 0 (((v.slots[id]?).map Slot.buf).getD []) false with
    | .panic => .panic
    | .ok (buf, failed) =>
      let v := { v with slots := v.slots.modify id fun s => { s with buf } }
      if failed then
        let (v, es) := complete v c.uid c.head r.status S_IOERR
        .ok (putSlot v id, es)
      else
        let q := DevReq.write r.sector (len / 512) (buf.take (len / 512 * 512))
        .ok ({ v with inflight := upd v.inflight id (some q) }, [.dev id q])

/-- `process_flush` (backend_thread.rs:338-347). -/
def processFlush (v : Vq) (r : Request) (c : Chain) : Res (Vq × List VEv) :=
  let (v, id) := getSlot v 0 r c
  .ok ({ v with inflight := upd v.inflight id (some .flush) }, [.dev id .flush])

/-- The device id, cut or zero padded to 20 bytes (backend_thread.rs:368-371). -/
def idBytes (deviceId : Bytes) : Bytes := deviceId.take 20 ++ zeros (20 - deviceId.length)

/-- `process_get_device_id` (backend_thread.rs:349-379); `request.data()[0]` panics on an empty list. -/
def processGetId (deviceId : Bytes) (v : Vq) (r : Request) (c : Chain) : Res (Vq × List VEv) :=
  match r.data with
  | [] => .panic
  | (a, l) :: _ =>
    if l < 20 then .ok (complete v c.uid c.head r.status S_IOERR)
    else
      let w := v.mem.write a (idBytes deviceId)
      .ok (complete { v with mem := w.1 } c.uid c.head r.status (if w.2 then S_OK else S_IOERR))

/-- One iteration of the loop of `process_queue` (backend_thread.rs:390-418) on a chain with the given head and
descriptors. -/
def processChain (deviceId : Bytes) (v : Vq) (head : Nat) (descs : List Desc) : Res (Vq × List VEv) :=
  let c : Chain := ⟨v.popped, head, descs⟩
  let v := { v with popped := v.popped + 1 }
  match parse v.mem descs with
  | .error _ => .ok (completeBad v c)
  | .ok r =>
    match r.ty with
    | .in => processRead v r c
    | .out => processWrite v r c
    | .flush => processFlush v r c
    | .getId => processGetId deviceId v r c
    | .other => .ok (complete v c.uid c.head r.status S_UNSUPP)

/-- One iteration of the loop of `poll_io` (backend_thread.rs:229-249) for a reported request. -/
def pollOne (v : Vq) (id : Nat) (success : Bool) : Res (Vq × List VEv) :=
  match v.slots[id]? with
  | none => .panic
  | some s =>
    if s.ty = .in ∧ success = true then
      match scatter v.mem s.data 0 s.buf with
      | .panic => .panic
      | .ok (m, ok) =>
        let (v, es) := complete { v with mem := m } s.uid s.head s.status (if ok then S_OK else S_IOERR)
        .ok (putSlot v id, es)
    else
      let (v, es) := complete v s.uid s.head s.status (if success then S_OK else S_IOERR)
      .ok (putSlot v id, es)

/-- The channel reports request `id` (`poll`, backend_thread.rs:229): a read has put `data` into the beginning of the
slot's buffer. -/
def devDone (v : Vq) (id : Nat) (data : Bytes) : Vq :=
  { v with
    inflight := upd v.inflight id none
    slots := v.slots.modify id fun s => { s with buf := data ++ s.buf.drop data.length } }

/-- What the channel may put into the buffer (`add_read`, backend_thread.rs:276): for a read of `count` sectors that
many bytes, otherwise nothing. -/
def DevReq.filled : DevReq → Bytes → Prop
  | .read _ count, d => d.length = count * 512
  | _, d => d = []

/-- Steps of the backend thread (backend_thread.rs:387-452). -/
inductive Step (deviceId : Bytes) : Vq → List VEv → Vq → Prop where
  /-- the guest changes its memory -/
  | guest (v : Vq) (bytes : Nat → UInt8) : Step deviceId v [] { v with mem := { v.mem with bytes } }
  /-- a chain is popped and processed -/
  | pop (v v' : Vq) (head : Nat) (descs : List Desc) (es : List VEv) (hlen : ∀ d ∈ descs, d.len < 2 ^ 32) :
      processChain deviceId v head descs = .ok (v', es) → Step deviceId v (.popped v.popped head descs :: es) v'
  /-- the channel reports a request -/
  | poll (v v' : Vq) (id : Nat) (q : DevReq) (data : Bytes) (success : Bool) (es : List VEv) : v.inflight id = some q →
      q.filled data → pollOne (devDone v id data) id success = .ok (v', es) → Step deviceId v es v'
  /-- end of `process_queue` without event index (backend_thread.rs:425-449) -/
  | notify (v : Vq) : Step deviceId v (if v.pendingSignal then [.signal] else []) { v with pendingSignal := false }

/-- Runs of the backend thread (backend_thread.rs:387-452). -/
inductive Run (deviceId : Bytes) : Vq → List VEv → Vq → Prop where
  | nil (v : Vq) : Run deviceId v [] v
  | snoc {v v' v'' : Vq} {es es' : List VEv} : Run deviceId v es v' → Step deviceId v' es' v'' → Run deviceId v (es ++ es') v''

/-- A new thread (backend_thread.rs:72-116): `queue_size` free slots with buffers of `bufSize` bytes. -/
def Vq.init (mem : GMem) (queueSize bufSize : Nat) : Vq :=
  { mem, slots := List.replicate queueSize ⟨false, .other, 0, 0, zeros bufSize, 0, 0, 0, []⟩, inflight := fun _ => none, popped := 0,
    pendingSignal := false }

/-- Stripes a lazily fetched disk looks at for a request (bdev_lazy/device.rs:197-207, 246-256), in `u64` arithmetic:
first and last. -/
def stripeRange (shift off cnt : Nat) : Nat × Nat := (off / 2 ^ shift, (off + cnt + 2 ^ 64 - 1) % 2 ^ 64 / 2 ^ shift)

end Verif.Vhost
