import Verif.Model.Metadata
import Verif.Spec.Disk

/-! # The stripe server, its client, and the remote stripe source

Models `/repo/src/stripe_server/{mod,session,client,prepare,legacy}.rs` and `/repo/src/stripe_source/remote.rs`.

The TLS-PSK layer (`psk.rs`) is in Model/Psk. Sockets, timeouts and logging are not modelled: a connection is a sequence of byte
chunks as `read` returns them, and a timeout or a closed connection is the end of that sequence. Answers that arrive after a timeout
are in Model/RemoteLate. -/

namespace Verif.Remote
open Verif Verif.Metadata Verif.Disk

/-! ## Wire constants -/

/-- `METADATA_CMD` (stripe_server/mod.rs:17). -/
def METADATA_CMD : UInt8 := 0
/-- `READ_STRIPE_CMD` (mod.rs:18). -/
def READ_STRIPE_CMD : UInt8 := 1
/-- `HELLO_CMD` (mod.rs:19). -/
def HELLO_CMD : UInt8 := 2
/-- `PROTOCOL_VERSION` (mod.rs:23). -/
def PROTOCOL_VERSION : Nat := 1
/-- `STATUS_OK` (mod.rs:25). -/
def STATUS_OK : UInt8 := 0
/-- `STATUS_INVALID_STRIPE` (mod.rs:26). -/
def STATUS_INVALID_STRIPE : UInt8 := 1
/-- `STATUS_NO_DATA` (mod.rs:27). -/
def STATUS_NO_DATA : UInt8 := 2
/-- `STATUS_NOT_FETCHED` (mod.rs:28). -/
def STATUS_NOT_FETCHED : UInt8 := 3
/-- `STATUS_INVALID_COMMAND` (mod.rs:29). -/
def STATUS_INVALID_COMMAND : UInt8 := 0xFE
/-- `STATUS_SERVER_ERROR` (mod.rs:30). -/
def STATUS_SERVER_ERROR : UInt8 := 0xFF

/-- `UbiMetadata::stripe_size` (bdev_lazy/metadata/types.rs:108-110). -/
def stripeSize (m : Meta) : Nat := stripeSectorCount m * SECTOR_SIZE

/-- `stripe_header & flag != 0` (session.rs:99-112, remote.rs:317-319). -/
def has (h flag : UInt8) : Bool := (h &&& flag) != 0

/-! ## The server -/

/-- A session (mod.rs:41-46). The contents of the data device and of the stripe source are given by sector; whether
the device (source) read made for the `i`-th request of the session succeeds is given by `devOk i` (`srcOk i`). -/
structure Srv where
  md : Meta
  dev : Nat → Bytes
  devOk : Nat → Bool
  src : Option (Nat → Bytes)
  srcOk : Nat → Bool

/-- `n` sectors from sector `off`, concatenated: what a successful read puts into the buffer (session.rs:151-177). -/
def sectors (d : Nat → Bytes) (off n : Nat) : Bytes := (List.range n).flatMap fun i => d (off + i)

/-- `read_exact` of the standard library, on a stream whose successive `read` calls can return at most the given
chunks: `none` is an error (end of stream, timeout) before `n` bytes arrived. -/
def readExact : Nat → List Bytes → Option (Bytes × List Bytes)
  | 0, cs => some ([], cs)
  | _ + 1, [] => none
  | n + 1, c :: cs =>
    if n + 1 < c.length then some (c.take (n + 1), c.drop (n + 1) :: cs)
    else
      match readExact (n + 1 - c.length) cs with
      | none => none
      | some (r, cs') => some (c ++ r, cs')
termination_by _ cs => cs.length

/-- `stripe_not_fetched` (session.rs:99-104); `h` is the stripe's header. -/
def stripeNotFetched (h : UInt8) : Bool := has h HAS_SOURCE && !has h FETCHED
/-- `stripe_has_data` (session.rs:106-112). -/
def stripeHasData (h : UInt8) : Bool := has h WRITTEN || (has h HAS_SOURCE && has h FETCHED)

/-- `read_stripe` (session.rs:151-168): the data, or `none` when the device fails. -/
def Srv.readStripe (s : Srv) (i k : Nat) : Option Bytes :=
  let ssc := stripeSectorCount s.md
  if s.devOk i then some (sectors s.dev (k * ssc) ssc) else none

/-- `read_stripe_from_source` (session.rs:170-176) on source contents `f`; the source's own protocol is modelled
separately (Model/Lazy, Model/ArchiveRead and below). -/
def Srv.readFromSource (s : Srv) (f : Nat → Bytes) (i k : Nat) : Option Bytes :=
  let ssc := stripeSectorCount s.md
  if s.srcOk i then some (sectors f (k * ssc) ssc) else none

/-- Tail of `handle_read_stripe_request` (session.rs:137-148) and its two `inspect_err` (128, 134): what is written,
and whether the session goes on. -/
def Srv.sendStripe (s : Srv) : Option Bytes → Bytes × Bool
  | none => ([STATUS_SERVER_ERROR], false)
  | some data => ([STATUS_OK] ++ le 8 (stripeSize s.md) ++ data, true)

/-- `handle_read_stripe_request` (session.rs:114-149) for the `i`-th request. -/
def Srv.handleRead (s : Srv) (i k : Nat) : Bytes × Bool :=
  match s.md.headers[k]? with
  | none => ([STATUS_INVALID_STRIPE], true)                                -- stripe_id >= stripe_count
  | some h =>
    if stripeNotFetched h then
      match s.src with
      | none => ([STATUS_NOT_FETCHED], true)
      | some f => s.sendStripe (s.readFromSource f i k)
    else if !stripeHasData h then ([STATUS_NO_DATA], true)
    else s.sendStripe (s.readStripe i k)

/-- `handle_metadata_request` (session.rs:80-97). -/
def Srv.handleMetadata (s : Srv) : Bytes × Bool :=
  match writeToBuf s.md (zeros (metadataSize s.md)) with
  | .error _ => ([], false)
  | .ok buf => ([STATUS_OK] ++ le 8 (metadataSize s.md) ++ buf, true)

/-- `handle_hello_request` (session.rs:72-78). -/
def Srv.handleHello : Bytes × Bool := ([STATUS_OK] ++ le 4 PROTOCOL_VERSION, true)

/-- What one call of `handle_single_request` (session.rs:42-70) did: bytes written, bytes left to read, whether the
loop of `handle_requests` (13-40) goes on. -/
structure Turn where
  out : Bytes
  rest : List Bytes
  goOn : Bool

/-- `handle_single_request` (session.rs:42-70), the `i`-th of the session. Writes to the client succeed. -/
def Srv.handleSingle (s : Srv) (i : Nat) (cs : List Bytes) : Turn :=
  match readExact 1 cs with
  | none => ⟨[], [], false⟩
  | some (opb, cs) =>
    let op := opb.headD 0
    if op = HELLO_CMD then ⟨Srv.handleHello.1, cs, Srv.handleHello.2⟩
    else if op = METADATA_CMD then ⟨s.handleMetadata.1, cs, s.handleMetadata.2⟩
    else if op = READ_STRIPE_CMD then
      match readExact 8 cs with
      | none => ⟨[], [], false⟩
      | some (idb, cs) => ⟨(s.handleRead i (fromLe idb)).1, cs, (s.handleRead i (fromLe idb)).2⟩
    else ⟨[STATUS_INVALID_COMMAND], cs, true⟩

/-- `handle_requests` (session.rs:13-40): bytes sent by the session, given a bound on the number of requests. Every
request consumes at least one byte, so `serve` below passes a sufficient bound. -/
def Srv.serveN (s : Srv) : Nat → Nat → List Bytes → Bytes
  | 0, _, _ => []
  | n + 1, i, cs =>
    let t := s.handleSingle i cs
    t.out ++ (if t.goOn then s.serveN n (i + 1) t.rest else [])

/-- A whole session fed with `cs`: `handle_requests` (session.rs:13-40); the fuel covers every request, since each
reads at least a byte. -/
def Srv.serve (s : Srv) (cs : List Bytes) : Bytes := s.serveN (cs.flatten.length + 1) 0 cs

/-! ## The client -/

/-- Errors of the client (client.rs:25-183) and of the remote source (remote.rs:86-121, 150-194). -/
inductive CErr where
  | io
  | remoteStatus (status : UInt8)
  | protocol
  | metadata (e : Err)
  | missingMetadata
  | sizeMismatch
  | invalidStripe
  | unavailable
  | geometryChanged
  | badParameter
deriving DecidableEq

/-- `MAX_REMOTE_METADATA_SIZE` (client.rs:14). -/
def MAX_REMOTE_METADATA_SIZE : Nat := 64 * 1024 * 1024

/-- The client's calls (client.rs:25-183) read from the stream: the result, and the stream after the call. -/
abbrev Call (α : Type) := Except CErr α × List Bytes

/-- `read_exact` in the client (client.rs:34, 42, 66 and so on); on failure the rest of the stream is lost. -/
def recv {α} (n : Nat) (cs : List Bytes) (f : Bytes → List Bytes → Call α) : Call α :=
  match readExact n cs with
  | none => (.error .io, [])
  | some (b, cs) => f b cs

/-- Decoding the metadata (client.rs:68). -/
def decodeMeta (buf : Bytes) : Except CErr Meta :=
  match fromBytes buf with
  | .error e => .error (.metadata e)
  | .ok m => .ok m

/-- `fetch_metadata` after sending the command (client.rs:32-71). -/
def clientMetadata (cs : List Bytes) : Call Meta :=
  recv 1 cs fun st cs =>
    let st := st.headD 0
    if st ≠ STATUS_OK then (.error (.remoteStatus st), cs)
    else recv 8 cs fun szb cs =>
      let sz := fromLe szb
      if sz < SECTOR_SIZE then (.error .protocol, cs)
      else if sz > MAX_REMOTE_METADATA_SIZE then (.error .protocol, cs)
      else recv sz cs fun buf cs => (decodeMeta buf, cs)

/-- `hello` after sending the command (client.rs:82-109). -/
def clientHello (cs : List Bytes) : Call Unit :=
  recv 1 cs fun st cs =>
    let st := st.headD 0
    if st = STATUS_INVALID_COMMAND then (.error .protocol, cs)
    else if st ≠ STATUS_OK then (.error (.remoteStatus st), cs)
    else recv 4 cs fun v cs =>
      if fromLe v ≠ PROTOCOL_VERSION then (.error .protocol, cs) else (.ok (), cs)

/-- `fetch_stripe` after sending the command (client.rs:129-183). -/
def clientFetch (md : Option Meta) (cs : List Bytes) : Call Bytes :=
  match md with
  | none => (.error .missingMetadata, cs)
  | some m =>
    recv 1 cs fun st cs =>
      let st := st.headD 0
      if st = STATUS_OK then
        recv 8 cs fun szb cs =>
          if fromLe szb ≠ stripeSize m then (.error .sizeMismatch, cs)
          else recv (stripeSize m) cs fun data cs => (.ok data, cs)
      else if st = STATUS_INVALID_STRIPE then (.error .invalidStripe, cs)
      else if st = STATUS_NO_DATA ∨ st = STATUS_NOT_FETCHED then (.error .unavailable, cs)
      else (.error (.remoteStatus st), cs)

/-- `connect_to_stripe_server` once the stream is up (client.rs:230-234). -/
def clientConnect (cs : List Bytes) : Call Meta :=
  match clientHello cs with
  | (.error e, cs) => (.error e, cs)
  | (.ok _, cs) => clientMetadata cs

/-- Successive `fetch_stripe` calls (client.rs:126-183) on one connection. -/
def clientFetches (md : Option Meta) : Nat → List Bytes → List (Except CErr Bytes)
  | 0, _ => []
  | n + 1, cs => (clientFetch md cs).1 :: clientFetches md n (clientFetch md cs).2

/-- The request bytes of `fetch_stripe` (client.rs:134-137). -/
def readRequest (k : Nat) : Bytes := [READ_STRIPE_CMD] ++ le 8 k

/-! ## Legacy metadata and preparing a server -/

/-- `MAX_LEGACY_STRIPE_SECTOR_COUNT_SHIFT` (legacy.rs:46). -/
def MAX_LEGACY_SHIFT : Nat := 16

/-- `is_legacy_v0_2` (legacy.rs:73-75). -/
def isLegacy (buf : Bytes) : Bool :=
  decide (11 ≤ buf.length) && (buf.take 9 == magicBytes) && (buf.getD 9 0 == 0) && (buf.getD 10 0 == 0)

/-- Errors of loading for serving (legacy.rs:55-160). -/
inductive LErr where
  | tooSmall
  | badShift
  | tooFewHeaders
  | current (e : Err)
  | panic
  | noSource
deriving DecidableEq

/-- One translated header (legacy.rs:143-147). -/
def translateHeader (l : UInt8) : UInt8 := if l = 0 then HAS_SOURCE else WRITTEN

/-- `translate_v0_2_metadata` (legacy.rs:114-150). Slicing out of range is a panic. -/
def translate (buf : Bytes) (dataSectors : Nat) : Except LErr Meta :=
  if buf.length < SECTOR_SIZE then .error .tooSmall
  else
    match buf[13]? with
    | none => .error .panic
    | some shift =>
      if shift.toNat > MAX_LEGACY_SHIFT then .error .badShift
      else
        let count := divCeil dataSectors (2 ^ shift.toNat)
        let available := buf.length - SECTOR_SIZE
        if count > available then .error .tooFewHeaders
        else if SECTOR_SIZE + count > buf.length then .error .panic
        else
          let legacy := slice buf SECTOR_SIZE count
          let m := Meta.new shift count 0
          .ok { m with headers := List.zipWith (fun _ l => translateHeader l) m.headers legacy }

/-- `load_metadata_for_serving` (legacy.rs:55-69) on the bytes of the metadata device. -/
def loadForServing (buf : Bytes) (dataSectors : Nat) : Except LErr Meta :=
  if isLegacy buf then translate buf dataSectors
  else match fromBytes buf with
    | .error e => .error (.current e)
    | .ok m => .ok m

/-- `mark_no_source_stripes_written` (prepare.rs:16-22). -/
def markNoSource (m : Meta) : Meta :=
  { m with headers := m.headers.map fun h => if has h HAS_SOURCE then h else h ||| WRITTEN }

/-- `DEFAULT_STRIPE_SECTOR_COUNT_SHIFT` (bdev_lazy/metadata/save.rs:12). -/
def DEFAULT_SHIFT : UInt8 := 11

/-- Contents of a null block device (bdev_null.rs:31-38). -/
def nullSectors : Nat → Bytes := fun _ => zeros 512

/-- `prepare_stripe_server` (prepare.rs:24-75) and the source each session builds (mod.rs:71-84,
stripe_source/builder.rs:42-51): `metaDev` is the metadata device, `cfgSrc` the configured stripe source. A session
on a fully fetched volume gets a null source, one on a volume without metadata none. -/
def prepare (metaDev : Option Bytes) (dataSectors : Nat) (cfgSrc : Option (Nat → Bytes)) (track : Bool) :
    Except LErr (Meta × Option (Nat → Bytes)) :=
  match metaDev with
  | some buf => do
    let m ← loadForServing buf dataSectors
    let allFetched := hasFetchedAll m
    if !allFetched && cfgSrc.isNone then .error .noSource
    else
      let src := if allFetched then nullSectors else cfgSrc.getD nullSectors
      .ok (if track then m else markNoSource m, some src)
  | none =>
    let count := divCeil dataSectors (2 ^ DEFAULT_SHIFT.toNat)
    let m := Meta.new DEFAULT_SHIFT count count
    .ok ({ m with headers := m.headers.map fun h => h ||| (WRITTEN ||| FETCHED) }, none)

/-! ## Reconnecting -/

/-- One answer of a connection to `fetch_stripe`, as `fetch_with_reconnect` sees it (remote.rs:98-113). -/
inductive FetchRes where
  | ok (data : Bytes)
  | err (e : CErr)
  | panic
deriving DecidableEq

/-- A connection (`RemoteStripeProvider`, used in remote.rs:58-115): the metadata it fetched when it connected and its
answer to the next `fetch_stripe`. (One call of `fetch_with_reconnect` uses a connection for one fetch only; what a connection
carries from one call to the next is in Model/RemoteLate.) -/
structure Conn where
  md : Option Meta
  next : FetchRes

/-- `MetadataFingerprint::of` (remote.rs:29-36): stripe size and stripe count. -/
def fingerprint (m : Meta) : Nat × Nat := (stripeSectorCount m, m.headers.length)

/-- `RECONNECT_MAX_ATTEMPTS` (remote.rs:45). -/
def MAX_ATTEMPTS : Nat := 10
/-- `RECONNECT_INITIAL_BACKOFF`, in milliseconds (remote.rs:43). -/
def INITIAL_BACKOFF : Nat := 500
/-- `RECONNECT_MAX_BACKOFF`, in milliseconds (remote.rs:44). -/
def MAX_BACKOFF : Nat := 30000

/-- Result of `fetch_with_reconnect` (remote.rs:58-122): its value, the connection the worker keeps, the number of
dials, and the total time slept in milliseconds. -/
structure Fetched where
  val : Except CErr Bytes
  conn : Conn
  dials : Nat
  slept : Nat

/-- The fetch part of one attempt (remote.rs:98-114): `some` ends the loop. -/
def attemptFetch (c : Conn) : Option (Except CErr Bytes) :=
  match c.next with
  | .ok data => some (.ok data)
  | .err .io => none
  | .err e => some (.error e)
  | .panic => some (.error .io)

/-- The loop of `fetch_with_reconnect` (remote.rs:68-115) from `attempt`, with `n` attempts left; `dial i` is the
outcome of the `i`-th dial of this fetch. -/
def fetchLoop (dial : Nat → Except CErr Conn) (expected : Nat × Nat) :
    Nat → Nat → Conn → CErr → Nat → Nat → Nat → Fetched
  | 0, _, c, lastErr, _, dials, slept => ⟨.error lastErr, c, dials, slept⟩
  | n + 1, attempt, c, lastErr, delay, dials, slept =>
    if attempt = 0 then
      match attemptFetch c with
      | some v => ⟨v, c, dials, slept⟩
      | none => fetchLoop dial expected n (attempt + 1) c .io delay dials slept
    else
      let slept' := if attempt > 1 then slept + delay else slept
      let delay' := if attempt > 1 then min (delay * 2) MAX_BACKOFF else delay
      match dial dials with
      | .error e => fetchLoop dial expected n (attempt + 1) c e delay' (dials + 1) slept'
      | .ok fresh =>
        if fresh.md.map fingerprint = some expected then
          match attemptFetch fresh with
          | some v => ⟨v, fresh, dials + 1, slept'⟩
          | none => fetchLoop dial expected n (attempt + 1) fresh .io delay' (dials + 1) slept'
        else ⟨.error .geometryChanged, c, dials + 1, slept'⟩

/-- `fetch_with_reconnect` (remote.rs:58-122). -/
def fetchWithReconnect (c : Conn) (dial : Nat → Except CErr Conn) (expected : Nat × Nat) : Fetched :=
  fetchLoop dial expected (MAX_ATTEMPTS + 1) 0 c .io INITIAL_BACKOFF 0 0

/-! ## The remote stripe source -/

/-- `RemoteStripeSource::has_stripe` (remote.rs:313-321). -/
def hasStripe (headers : Bytes) (k : Nat) : Bool :=
  match headers[k]? with
  | none => false
  | some h => has h WRITTEN || has h HAS_SOURCE

/-- `rposition(header & (WRITTEN | HAS_SOURCE) != 0)` plus one, or zero (remote.rs:180-186). -/
def stripesWithData : Bytes → Nat
  | [] => 0
  | h :: t =>
    if stripesWithData t ≠ 0 then stripesWithData t + 1
    else if has h (WRITTEN ||| HAS_SOURCE) then 1 else 0

/-- The validation and `source_sector_count` of `RemoteStripeSource::new` (remote.rs:155-200) on the metadata of the
pool's connections: headers, sector count, expected fingerprint. -/
def newSource (pool : List (Option Meta)) (ssc : Nat) : Except CErr (Bytes × Nat × (Nat × Nat)) :=
  match pool with
  | [] => .error .badParameter
  | none :: _ => .error .missingMetadata
  | some m :: _ =>
    if stripeSectorCount m ≠ ssc then .error .badParameter
    else if stripesWithData m.headers * stripeSectorCount m ≥ 2 ^ 64 then .error .badParameter
    else .ok (m.headers, stripesWithData m.headers * stripeSectorCount m, (stripeSectorCount m, m.headers.length))

/-- `deliver` (remote.rs:238-265): the new buffer and whether it succeeded. -/
def deliver (data buf : Bytes) : Bytes × Bool :=
  if data.length > buf.length then (buf, false)
  else (data ++ zeros (buf.length - data.length), true)

/-- `RemoteStripeSource` (remote.rs:137-143) with its workers (204-223): the request channel, the fetches in progress,
the result channel, the `pending` map (stripe id → buffer), buffer contents. -/
structure Src where
  queue : List Nat
  working : List Nat
  results : List (Nat × Except CErr Bytes)
  pending : Nat → Option Nat
  bufs : Nat → Bytes

/-- A source just built (remote.rs:227-233). -/
def Src.init (bufs : Nat → Bytes) : Src := ⟨[], [], [], fun _ => none, bufs⟩

/-- `request` (remote.rs:269-277). The workers live as long as the source. -/
def Src.request (s : Src) (k buf : Nat) : Src :=
  { s with queue := s.queue ++ [k], pending := upd s.pending k (some buf) }

/-- One iteration of the loop of `poll` (remote.rs:282-300): the result taken from the channel and the completion
reported, if any. -/
def Src.pollOne (s : Src) (k : Nat) (res : Except CErr Bytes) : Src × Option (Nat × Bool) :=
  match s.pending k with
  | none => (s, none)
  | some b =>
    let s := { s with pending := upd s.pending k none }
    match res with
    | .error _ => (s, some (k, false))
    | .ok data =>
      let (nb, ok) := deliver data (s.bufs b)
      ({ s with bufs := upd s.bufs b nb }, some (k, ok))

/-- Observable events of the source (remote.rs:269-303), and the worker's internal ones (211-221). -/
inductive SrcEv where
  /-- the fetcher requested stripe `k` into buffer `b` -/
  | req (k b : Nat)
  /-- a worker finished stripe `k` with `r` -/
  | fetched (k : Nat) (r : Except CErr Bytes)
  /-- `poll` reported stripe `k` -/
  | done (k : Nat) (ok : Bool)

/-- Steps of the source: requests (remote.rs:269-277), a worker taking the oldest request (211), a worker delivering
its result (218; in any order across workers), and `poll` taking the oldest result (282). -/
inductive Src.Step : Src → List SrcEv → Src → Prop where
  | request (s : Src) (k b : Nat) : Step s [.req k b] (s.request k b)
  | take (s : Src) (k : Nat) (q : List Nat) : s.queue = k :: q →
      Step s [] { s with queue := q, working := k :: s.working }
  | finish (s : Src) (k : Nat) (r : Except CErr Bytes) : k ∈ s.working →
      Step s [.fetched k r] { s with working := s.working.erase k, results := s.results ++ [(k, r)] }
  | poll (s : Src) (k : Nat) (r : Except CErr Bytes) (t : List (Nat × Except CErr Bytes)) : s.results = (k, r) :: t →
      Step s ((Src.pollOne { s with results := t } k r).2.toList.map fun p => .done p.1 p.2)
        (Src.pollOne { s with results := t } k r).1

/-- Runs of the source from `s`: any interleaving of the calls and the workers of remote.rs:137-303. -/
inductive Src.Run : Src → List SrcEv → Src → Prop where
  | nil (s : Src) : Run s [] s
  | snoc {s s' s'' : Src} {es es' : List SrcEv} : Run s es s' → Step s' es' s'' → Run s (es ++ es') s''

/-- `busy` (remote.rs:305-307). -/
def Src.busy (s : Src) : Prop := ∃ k, s.pending k ≠ none

/-! ## Legacy key unwrapping -/

/-- Configuration of `LegacyKek` (legacy.rs:173-193): the method and its optional fields. -/
structure LegacyKek where
  gcm : Bool
  key : Option Bytes
  iv : Option Bytes
  aad : Option Bytes

/-- `into_key` (legacy.rs:332-338). -/
def intoKey (b : Bytes) : Option Bytes := if b.length = 32 then some b else none

/-- `decrypt_key` (legacy.rs:316-330), with AES-256-GCM given as a function of key, nonce, associated data and
ciphertext. -/
def decryptKey (dec : Bytes → Bytes → Bytes → Bytes → Option Bytes) (k iv aad w : Bytes) : Option Bytes :=
  (dec k iv aad w).bind intoKey

/-- `unwrap_xts_key` (legacy.rs:278-314). -/
def unwrapXtsKey (dec : Bytes → Bytes → Bytes → Bytes → Option Bytes) (w : Bytes × Bytes) (kek : LegacyKek) :
    Option Bytes :=
  if kek.gcm then do
    let k ← kek.key
    let iv ← kek.iv
    let aad := kek.aad.getD []
    if k.length ≠ 32 then none
    else if iv.length ≠ 12 then none
    else
      let a ← decryptKey dec k iv aad w.1
      let b ← decryptKey dec k iv aad w.2
      some (a ++ b)
  else do
    let a ← intoKey w.1
    let b ← intoKey w.2
    some (a ++ b)

end Verif.Remote
