import Verif.Model.Remote
import Verif.Model.Rpc

/-! # The buffers that peers make a process hold

The calls of `Model/Remote` with the sizes of the buffers they make, and the line buffer of an RPC connection. Models
`/repo/src/stripe_server/client.rs:25-183`, `/repo/src/stripe_server/session.rs:42-177`, `/repo/src/block_device/bdev_lazy/metadata/types.rs:252-295` and
`/repo/src/backends/common/rpc.rs:160-192`. Not counted: buffers of the operating system and of TLS, what an allocator adds, a vector's
spare capacity while it grows (for the line buffer it is counted). -/

namespace Verif.Hold
open Verif Verif.Metadata Verif.Remote

/-- A call of the client and the sizes of the buffers it made, oldest first (client.rs:25-183). -/
structure Use (α : Type) where
  val : Call α
  bufs : List Nat

/-- `read_exact` into a fresh buffer of `n` bytes (client.rs:33-34, 41-42, 65-66 and so on). -/
def recv {α : Type} (n : Nat) (cs : List Bytes) (f : Bytes → List Bytes → Use α) : Use α :=
  match readExact n cs with
  | none => ⟨(.error .io, []), [n]⟩
  | some (b, cs) => ⟨(f b cs).val, n :: (f b cs).bufs⟩

/-- A call that ends without a further buffer (client.rs:36-38, 49-62 and so on). -/
def done {α : Type} (r : Except CErr α) (cs : List Bytes) : Use α := ⟨(r, cs), []⟩

/-- The vector of headers that `from_bytes` collects from the buffer (types.rs:252-285); counted in full also when a sector's checksum fails
on the way. -/
def parsed (buf : Bytes) : List Nat :=
  if buf.length < SECTOR_SIZE then []
  else if buf.length % SECTOR_SIZE ≠ 0 then []
  else if sectorValid (buf.take SECTOR_SIZE) = false then []
  else if buf.take 9 ≠ magicBytes then []
  else if slice buf 9 2 ≠ versionMajor ∨ slice buf 11 2 ≠ versionMinor then []
  else if (buf.getD 13 0).toNat > MAX_SHIFT then []
  else if fromLe (slice buf 14 4) > (buf.length - SECTOR_SIZE) / SECTOR_SIZE * PER_SECTOR then []
  else [divCeil (fromLe (slice buf 14 4)) PER_SECTOR * PER_SECTOR]

/-- `fetch_metadata` (client.rs:32-71). -/
def metadata (cs : List Bytes) : Use Meta :=
  recv 1 cs fun st cs =>
    let st := st.headD 0
    if st ≠ STATUS_OK then done (.error (.remoteStatus st)) cs
    else recv 8 cs fun szb cs =>
      let sz := fromLe szb
      if sz < SECTOR_SIZE then done (.error .protocol) cs
      else if sz > MAX_REMOTE_METADATA_SIZE then done (.error .protocol) cs
      else recv sz cs fun buf cs => ⟨(decodeMeta buf, cs), parsed buf⟩

/-- `hello` (client.rs:82-109). -/
def hello (cs : List Bytes) : Use Unit :=
  recv 1 cs fun st cs =>
    let st := st.headD 0
    if st = STATUS_INVALID_COMMAND then done (.error .protocol) cs
    else if st ≠ STATUS_OK then done (.error (.remoteStatus st)) cs
    else recv 4 cs fun v cs => if fromLe v ≠ PROTOCOL_VERSION then done (.error .protocol) cs else done (.ok ()) cs

/-- `connect_to_stripe_server` once the stream is up (client.rs:230-234). -/
def connect (cs : List Bytes) : Use Meta :=
  match (hello cs).val with
  | (.error e, cs') => ⟨(.error e, cs'), (hello cs).bufs⟩
  | (.ok _, cs') => ⟨(metadata cs').val, (hello cs).bufs ++ (metadata cs').bufs⟩

/-- `fetch_stripe` (client.rs:126-183); the request itself is an array of nine bytes (134). -/
def fetch (md : Option Meta) (cs : List Bytes) : Use Bytes :=
  match md with
  | none => done (.error .missingMetadata) cs
  | some m =>
    let r := recv 1 cs fun st cs =>
      let st := st.headD 0
      if st = STATUS_OK then
        recv 8 cs fun szb cs =>
          if fromLe szb ≠ stripeSize m then done (.error .sizeMismatch) cs
          else recv (stripeSize m) cs fun data cs => done (.ok data) cs
      else if st = STATUS_INVALID_STRIPE then done (.error .invalidStripe) cs
      else if st = STATUS_NO_DATA ∨ st = STATUS_NOT_FETCHED then done (.error .unavailable) cs
      else done (.error (.remoteStatus st)) cs
    ⟨r.val, 9 :: r.bufs⟩

/-- The buffers of `handle_read_stripe_request` (session.rs:114-149, 151-177). -/
def readBufs (s : Srv) (k : Nat) : List Nat :=
  match s.md.headers[k]? with
  | none => []
  | some h =>
    if stripeNotFetched h then
      match s.src with
      | none => []
      | some _ => [stripeSize s.md]
    else if !stripeHasData h then [] else [stripeSize s.md]

/-- `handle_single_request` (session.rs:42-70) with the buffers it makes. -/
def single (s : Srv) (i : Nat) (cs : List Bytes) : Turn × List Nat :=
  match readExact 1 cs with
  | none => (⟨[], [], false⟩, [1])
  | some (opb, cs) =>
    let op := opb.headD 0
    if op = HELLO_CMD then (⟨Srv.handleHello.1, cs, Srv.handleHello.2⟩, [1])
    else if op = METADATA_CMD then (⟨s.handleMetadata.1, cs, s.handleMetadata.2⟩, [1, metadataSize s.md])
    else if op = READ_STRIPE_CMD then
      match readExact 8 cs with
      | none => (⟨[], [], false⟩, [1, 8])
      | some (idb, cs) => (⟨(s.handleRead i (fromLe idb)).1, cs, (s.handleRead i (fromLe idb)).2⟩, [1, 8] ++ readBufs s (fromLe idb))
    else (⟨[STATUS_INVALID_COMMAND], cs, true⟩, [1])

/-- `handle_requests` (session.rs:13-40): the buffers of each request of a session, which are dropped at its end. -/
def sessionN (s : Srv) : Nat → Nat → List Bytes → List (List Nat)
  | 0, _, _ => []
  | n + 1, i, cs => (single s i cs).2 :: (if (single s i cs).1.goOn then sessionN s n (i + 1) (single s i cs).1.rest else [])

/-! ## The line buffer of an RPC connection -/

/-- Growing a vector of bytes to hold `need` (standard library, used by `read_line`, rpc.rs:166): at least twice as large, at least
eight. -/
def grow (cap need : Nat) : Nat := if need ≤ cap then cap else max (max (2 * cap) need) 8

/-- `line` in `handle_client` (rpc.rs:162, 165): its contents, its capacity, and the lines it has held. -/
structure Rd where
  line : Bytes
  cap : Nat
  lines : List Bytes

/-- `String::new` (rpc.rs:162). -/
def Rd.new : Rd := ⟨[], 0, []⟩

/-- `read_line` appends a piece of what the socket gave, up to and including a newline (rpc.rs:166); after the line has been answered it is
cleared and keeps its capacity (rpc.rs:165). -/
def Rd.piece (r : Rd) (p : Bytes) : Rd :=
  if p.getLast? = some 10 then ⟨[], grow r.cap (r.line ++ p).length, r.lines ++ [r.line ++ p]⟩
  else ⟨r.line ++ p, grow r.cap (r.line ++ p).length, r.lines⟩

/-- What one `read` of the socket gave (rpc.rs:161, 166; `BufReader`, 8192 bytes): its lines and the beginning of one, piece by
piece. -/
def Rd.chunk (r : Rd) (c : Bytes) : Rd := (Rpc.rawLines c).foldl Rd.piece r

/-- A connection that has received these (rpc.rs:160-192). -/
def Rd.run (cs : List Bytes) : Rd := cs.foldl Rd.chunk Rd.new

/-- The bytes the connection's buffers occupy: the `BufReader` and the line (rpc.rs:161-162). -/
def Rd.held (r : Rd) : Nat := 8192 + r.cap

end Verif.Hold
