import Verif.Model.Metadata
import Verif.Spec.Disk

/-! # Model of the lazily fetched disk

Models, as one transition system, /repo/src/block_device/bdev_lazy/: `device.rs` (guest queues),
`bgworker.rs`, `stripe_fetcher.rs`, `metadata_flusher.rs` (background worker) and
`metadata/shared_state.rs` (shared atomics), over a data device, a metadata device and a stripe source.

Granularity. One step is one iteration of a loop of the code (one queued request, one completion, one
message), executed atomically, and the steps of the worker and of every guest queue interleave freely. The
worker's fixed order inside `BgWorker::update` (bgworker.rs:99-110) is thereby over-approximated: any order is
allowed. Completions that the code drains in a batch are drained one at a time; a completion that waits in a
batch behaves like one the device delivers later. A request handed to a device may take effect at once, i.e.
before the `submit` that follows the `add_*` in the same function. Atomics are sequentially consistent cells
(the code uses Acquire/Release on single monotone cells). A failing `submit` is an input (`submitOk`) and is
taken to mean that the request was not accepted, which is what the code's comments assume. -/

namespace Verif.Lazy
open Verif Verif.Metadata Verif.Disk

/-- `NotFetched`/`Fetched`/`Failed`/`NoSource` (metadata/shared_state.rs:16-19). -/
inductive FS where
  | notFetched | fetched | failed | noSource
deriving DecidableEq

/-- `FetchState` (stripe_fetcher.rs:18-24). -/
inductive FetchState where
  | queued | fetching | flushing | fetched
deriving DecidableEq

/-- `BgWorkerRequest` (bgworker.rs:10-14); `Shutdown` is the absence of further worker steps. -/
inductive Msg where
  | fetch (k : Nat)
  | setWritten (k : Nat)
deriving DecidableEq

/-- Static parameters of a volume: those of `BgWorker::new` (bgworker.rs:26-53), `StripeFetcher::new`
(stripe_fetcher.rs:46-101), `MetadataFlusher::new` (metadata_flusher.rs:54-83) and `LazyBlockDevice::new`
(device.rs:338-352). -/
structure Cfg (D : Type) where
  /-- `stripe_sector_count` -/
  ss : Nat
  /-- number of stripes in the metadata -/
  n : Nat
  /-- `target_sector_count` -/
  tsec : Nat
  /-- size of the metadata device in sectors -/
  msec : Nat
  /-- which stripes carry HAS_SOURCE -/
  hs : Nat → Bool
  /-- contents of the source by absolute sector; `none`: the source leaves the buffer as it is
  (a raw image shorter than the stripe, stripe_source/bdev.rs:31-40) -/
  src : Nat → Option D
  /-- `StripeSource::request` accepts the stripe (e.g. bdev.rs:24-29) -/
  srcHas : Nat → Bool
  /-- `source_sector_count.div_ceil(stripe_sector_count)` (stripe_fetcher.rs:76) -/
  srcStripes : Nat
  /-- reads of missing stripes may go to the image (`copy_on_read` off, backends/common/mod.rs:203-211) -/
  image : Bool
  /-- `track_written` -/
  track : Bool
  /-- `autofetch` -/
  autofetch : Bool
  /-- what `add_write` of a sector leaves in the caller's buffer: the data, or on an encrypted disk their ciphertext,
  because `CryptIoChannel::add_write` encrypts in place (bdev_crypt.rs:43-51) -/
  enc : Nat → D → D := fun _ d => d

/-- `SharedMetadataState` (metadata/shared_state.rs:8-14). -/
structure Shared where
  fs : Nat → FS
  ws : Nat → Bool
  fetched : Nat
  source : Nat

/-- `RequestStage` (metadata_flusher.rs:27-31). -/
inductive Stage where
  | writing | flushing
deriving DecidableEq

/-- `HeaderUpdateStatus` (metadata_flusher.rs:33-41). The buffer is not kept: its contents are the data of the
device write. -/
structure Update where
  stage : Stage
  header : UInt8
  mask : UInt8
  sector : Nat

/-- `MetadataFlusher` (metadata_flusher.rs:43-51). The buffer pool is the number of free buffers
(the pool itself is modelled in `Model/Pool`). -/
structure Flusher where
  hdrs : Bytes
  busy : Nat → Bool
  updates : Nat → Option Update
  queue : List (Nat × UInt8)
  free : Nat

/-- `StripeFetcher` (stripe_fetcher.rs:26-43). `bufs` are the contents of the pooled buffers, `free` the FIFO of
available buffer indices, `srcIn` the requests in flight at the source. -/
structure Fetcher (D : Type) where
  queue : List Nat
  autoq : List Nat
  states : Nat → Option FetchState
  retries : Nat → Nat
  alloc : Nat → Option Nat
  free : List Nat
  bufs : Nat → Nat → D
  finished : List (Nat × Bool)
  disconnected : Bool
  srcIn : Nat → Bool

/-- `RWRequest` (device.rs:31-39); the stripe range is recomputed from the sectors. -/
structure QReq (D : Type) where
  id : Nat
  off : Nat
  cnt : Nat
  /-- `RequestType::Out` carries its data -/
  out : Option (Nat → D)

/-- `LazyIoChannel` (device.rs:41-50): the base channel is the data device; `img` are the reads in flight at
the image channel. -/
structure Chan (D : Type) where
  queue : List (QReq D)
  finished : List (Nat × Bool)
  requested : Nat → Bool
  img : Nat → Option (Nat × Nat)

/-- Who issued a request to the data device: a channel (`create_channel`, device.rs:356-371) of guest queue `c` with
request id, or the fetcher (stripe_fetcher.rs:240-270) for stripe `k`. -/
inductive Owner where
  | guest (c id : Nat)
  | fetch (k : Nat)
deriving DecidableEq

/-- The whole system: the shared atomics, the messages sent to the worker and not received (`mpsc`,
bgworker.rs:16-22), the two parts of the worker, the guest channels, the data device `t` and the metadata device `m`.
-/
structure Sys (D : Type) where
  sh : Shared
  msgs : List Msg
  fl : Flusher
  fe : Fetcher D
  ch : Nat → Chan D
  t : Dev Owner D
  m : Dev Nat Bytes

/-- What happens in a step: `ev` are the events the guest sees, the rest is for stating properties. No counterpart in
the code. -/
inductive Lab (D : Type) where
  | ev (e : Ev D)
  /-- a stripe is put on the fetch queue by `handle_fetch_request` -/
  | enqueue (k : Nat)
  /-- `StripeSource::request` is called -/
  | sourceRead (k : Nat)
  /-- a stripe is given up after the retries -/
  | fetchFailed (k : Nat)
  /-- the fetcher hands a stripe write to the data device -/
  | fetchWrite (k : Nat)
  /-- a guest request is handed to the data device -/
  | toBase (c : Nat) (r : QReq D)
  /-- a guest request starts to wait / stops waiting -/
  | wait (c id : Nat)
  | unwait (c id : Nat)

/-! ## Shared state -/

/-- One header flag bit is set (`metadata_flags`, types.rs:15-25). -/
def flag (h f : UInt8) : Bool := h &&& f != 0

/-- Fetch state after loading header `h` (shared_state.rs:28-45). -/
def loadFs (h : UInt8) : FS :=
  if flag h HAS_SOURCE then (if flag h FETCHED then .fetched else .notFetched) else .noSource

/-- `SharedMetadataState::new` (shared_state.rs:25-53). Stripes beyond the metadata do not exist; they get
dummy values that no step reads. -/
def Shared.load (hdrs : Bytes) : Shared :=
  { fs := fun k => loadFs (hdrs.getD k 0)
    ws := fun k => flag (hdrs.getD k 0) WRITTEN
    fetched := hdrs.countP (flag · FETCHED)
    source := hdrs.countP (flag · HAS_SOURCE) }

/-- `stripe_fetched_if_needed` (shared_state.rs:63-66). -/
def Shared.isLocal (s : Shared) (k : Nat) : Bool := s.fs k = .fetched || s.fs k = .noSource

/-- `set_stripe_header` (shared_state.rs:81-91). -/
def Shared.setHeader (s : Shared) (k : Nat) (h : UInt8) : Shared :=
  { s with
    fs := if flag h FETCHED then upd s.fs k .fetched else s.fs
    fetched := if flag h FETCHED && !s.isLocal k then s.fetched + 1 else s.fetched
    ws := if flag h WRITTEN then upd s.ws k true else s.ws }

/-- `set_stripe_failed` (shared_state.rs:93-95). -/
def Shared.setFailed (s : Shared) (k : Nat) : Shared := { s with fs := upd s.fs k .failed }

/-! ## Fetcher -/

/-- `handle_fetch_request` (stripe_fetcher.rs:111-128). -/
def handleFetch {D} (s : Sys D) (k : Nat) : Sys D × List (Lab D) :=
  if s.sh.isLocal k then (s, [])
  else if (s.fe.states k).isSome then (s, [])
  else ({ s with fe := { s.fe with queue := s.fe.queue ++ [k], states := upd s.fe.states k (some .queued) } },
        [.enqueue k])

/-- `MAX_FETCH_RETRIES` (stripe_fetcher.rs:16). -/
def maxRetries : Nat := 3
/-- `MAX_CONCURRENT_FETCHES` (stripe_fetcher.rs:15). -/
def maxFetches : Nat := 16
/-- `MAX_CONCURRENT_CHANGES` (metadata_flusher.rs:13). -/
def maxChanges : Nat := 16

/-- Returning the buffer of stripe `k` to the pool (stripe_fetcher.rs:275-279, aligned_buffer_pool.rs:40-62). -/
def Fetcher.release {D} (fe : Fetcher D) (k : Nat) : Fetcher D :=
  match fe.alloc k with
  | some b => { fe with alloc := upd fe.alloc k none, free := fe.free ++ [b] }
  | none => fe

/-- `fetch_completed` (stripe_fetcher.rs:272-301). `retries.remove` is a reset to 0, the value `or_insert`
gives an absent entry. -/
def fetchCompleted {D} (s : Sys D) (k : Nat) (ok : Bool) : Sys D × List (Lab D) :=
  let fe := s.fe.release k
  if ok then
    ({ s with fe := { fe with
        states := upd fe.states k (some .fetched), retries := upd fe.retries k 0,
        finished := fe.finished ++ [(k, true)] } }, [])
  else if fe.retries k < maxRetries then
    ({ s with fe := { fe with
        retries := upd fe.retries k (fe.retries k + 1), queue := fe.queue ++ [k],
        states := upd fe.states k (some .queued) } }, [])
  else
    ({ s with
        sh := s.sh.setFailed k
        fe := { fe with
          states := upd fe.states k none, retries := upd fe.retries k 0,
          finished := fe.finished ++ [(k, false)] } }, [.fetchFailed k])

/-- One iteration of `start_fetches` (stripe_fetcher.rs:173-187). `submitOk`: the source accepted the request
(besides knowing the stripe); after the disconnect the source is an empty device that knows no stripe
(stripe_fetcher.rs:144-146). -/
def startFetch {D} (c : Cfg D) (s : Sys D) (submitOk : Bool) : Option (Sys D × List (Lab D)) :=
  match s.fe.queue, s.fe.free with
  | k :: q, b :: free =>
    let fe := { s.fe with queue := q, free := free, alloc := upd s.fe.alloc k (some b) }
    if !s.fe.disconnected && c.srcHas k && submitOk then
      some ({ s with fe := { fe with
        states := upd fe.states k (some .fetching), srcIn := upd fe.srcIn k true } }, [.sourceRead k])
    else
      let r := fetchCompleted { s with fe := fe } k false
      some (r.1, .sourceRead k :: r.2)
  | _, _ => none

/-- Contents of a buffer after the source filled it with stripe `k`: sectors the source has are
overwritten, the others keep what was there (bdev.rs:31-40; archive.rs and remote.rs fill every sector). -/
def fillBuf {D} (c : Cfg D) (k : Nat) (buf : Nat → D) : Nat → D :=
  fun i => (c.src (k * c.ss + i)).getD (buf i)

/-- Sector count of a stripe on the target (stripe_fetcher.rs:242-244). -/
def stripeLen {D} (c : Cfg D) (k : Nat) : Nat := min c.ss (c.tsec - k * c.ss)

/-- Contents of a buffer after it was handed to `add_write` of the data device as stripe `k` (bdev_crypt.rs:43-51). -/
def sentBuf {D} (c : Cfg D) (k : Nat) (buf : Nat → D) : Nat → D :=
  fun i => if i < stripeLen c k then c.enc (k * c.ss + i) (buf i) else buf i

/-- A completion from the source (stripe_fetcher.rs:197-210) and `start_write` (240-259). A failed read may
leave anything in the buffer (`garbage`). A failed `submit` comes after `add_write`. -/
def sourceDone {D} (c : Cfg D) (s : Sys D) (k : Nat) (ok submitOk : Bool) (garbage : Nat → D) :
    Option (Sys D × List (Lab D)) :=
  if s.fe.srcIn k then
    let s := { s with fe := { s.fe with srcIn := upd s.fe.srcIn k false } }
    match s.fe.alloc k with
    | none => some (s, [])
    | some b =>
      if ok then
        let buf := fillBuf c k (s.fe.bufs b)
        let s := { s with fe := { s.fe with bufs := upd s.fe.bufs b (sentBuf c k buf) } }
        if submitOk then
          some ({ s with t := s.t.issueWrite (.fetch k) (k * c.ss) (stripeLen c k) fun x => buf (x - k * c.ss) },
                [.fetchWrite k])
        else some (fetchCompleted s k false)
      else some (fetchCompleted { s with fe := { s.fe with bufs := upd s.fe.bufs b garbage } } k false)
  else none

/-- A completion from the target channel (stripe_fetcher.rs:214-237) and `start_flush` (261-270). -/
def targetDone {D} (s : Sys D) (k : Nat) (ok submitOk : Bool) : Sys D × List (Lab D) :=
  let s := { s with t := s.t.complete (.fetch k) ok }
  if ok then
    match s.fe.states k with
    | some .fetching =>
      if submitOk then
        ({ s with
            t := s.t.issueFlush (.fetch k)
            fe := { s.fe with states := upd s.fe.states k (some .flushing) } }, [])
      else fetchCompleted s k false
    | some .flushing => fetchCompleted s k true
    | _ => (s, [])
  else fetchCompleted s k false

/-- `StripeFetcher::busy` (stripe_fetcher.rs:103-109): something queued, in flight or finished. `inFlight` is
decided over the stripes of the volume. -/
def Fetcher.idle {D} (n : Nat) (fe : Fetcher D) (t : Dev Owner D) : Bool :=
  fe.queue.isEmpty && fe.autoq.isEmpty && fe.finished.isEmpty &&
  (List.range n).all fun k => !fe.srcIn k && (t.ops (.fetch k)).isNone

/-! ## Metadata flusher -/

/-- One iteration of `start_writes` (metadata_flusher.rs:184-228) with its submit (235-241). -/
def startMeta {D} (s : Sys D) (submitOk : Bool) : Option (Sys D) :=
  match s.fl.queue with
  | [] => none
  | (k, mask) :: q =>
    if s.fl.free = 0 then none
    else if s.fl.busy (stripeIdToSector k) then none
    else if flag (s.fl.hdrs.getD k 0) mask then some { s with fl := { s.fl with queue := q } }
    else if submitOk then
      let h := s.fl.hdrs.getD k 0 ||| mask
      let hdrs := s.fl.hdrs.set k h
      let sector := stripeIdToSector k
      some { s with
        fl := { s.fl with
          hdrs := hdrs, queue := q, busy := upd s.fl.busy sector true, free := s.fl.free - 1
          updates := upd s.fl.updates k (some { stage := .writing, header := h, mask := mask, sector := sector }) }
        m := s.m.issueWrite k sector 1 fun _ => writeSector (groupHeaders hdrs (stripeIdToGroup k)) }
    else
      -- `cleanup_failed_submission` (108-118) undoes the entry: bit cleared, buffer returned, sector free
      some { s with fl := { s.fl with
        hdrs := s.fl.hdrs.set k ((s.fl.hdrs.getD k 0 ||| mask) &&& ~~~mask), queue := q } }

/-- Undoing an update (metadata_flusher.rs:131-143 and 108-118): clear the requested bit, free the sector, drop
the entry, and give the buffer back if it still holds one. -/
def Flusher.revert (fl : Flusher) (k : Nat) (u : Update) (giveBack : Bool) : Flusher :=
  { fl with
    hdrs := fl.hdrs.set k (fl.hdrs.getD k 0 &&& ~~~u.mask)
    busy := upd fl.busy u.sector false
    updates := upd fl.updates k none
    free := if giveBack then fl.free + 1 else fl.free }

/-- A completion from the metadata device (metadata_flusher.rs:124-178). -/
def metaDone {D} (s : Sys D) (k : Nat) (ok submitOk : Bool) : Sys D :=
  let s := { s with m := s.m.complete k ok }
  match s.fl.updates k with
  | none => s
  | some u =>
    if ok then
      match u.stage with
      | .writing =>
        if submitOk then
          { s with
            fl := { s.fl with updates := upd s.fl.updates k (some { u with stage := .flushing }), free := s.fl.free + 1 }
            m := s.m.issueFlush k }
        else { s with fl := { (s.fl.revert k u false) with free := s.fl.free + 1 } }
      | .flushing =>
        { s with
          fl := { s.fl with busy := upd s.fl.busy u.sector false, updates := upd s.fl.updates k none }
          sh := s.sh.setHeader k u.header }
    else { s with fl := s.fl.revert k u (u.stage = .writing) }

/-! ## Guest queues -/

/-- `sector_to_stripe_id` (shared_state.rs:59-61). -/
def firstStripe {D} (c : Cfg D) (r : QReq D) : Nat := r.off / c.ss
/-- Last stripe (device.rs:205-207). `cnt = 0` is excluded by `validReq`. -/
def lastStripe {D} (c : Cfg D) (r : QReq D) : Nat := (r.off + r.cnt - 1) / c.ss

/-- `stripe_id_first..=stripe_id_last` (device.rs:31-39, iterated at 75, 103, 119). -/
def stripes {D} (c : Cfg D) (r : QReq D) : List Nat :=
  (List.range (lastStripe c r + 1 - firstStripe c r)).map (firstStripe c r + ·)

/-- `StripesFetchStatus` (device.rs:24-29). -/
inductive Status where
  | pending | complete | failed
deriving DecidableEq

/-- `request_stripes_fetch_status` (device.rs:74-91). -/
def fetchStatus (sh : Shared) : List Nat → Status
  | [] => .complete
  | k :: ks =>
    match sh.fs k with
    | .fetched | .noSource => fetchStatus sh ks
    | .notFetched => .pending
    | .failed => .failed

/-- `start_stripe_fetches` (device.rs:102-116): messages sent and the new `requested` set. -/
def startFetches (sh : Shared) : List Nat → (Nat → Bool) → List Msg → (Nat → Bool) × List Msg
  | [], req, ms => (req, ms)
  | k :: ks, req, ms =>
    if !sh.isLocal k && !req k then startFetches sh ks (upd req k true) (ms ++ [.fetch k])
    else startFetches sh ks req ms

/-- `start_stripe_set_written` (device.rs:118-129). -/
def startWritten (sh : Shared) (ks : List Nat) : List Msg :=
  (ks.filter fun k => !sh.ws k).map .setWritten

/-- Hand a request to the base channel (device.rs:212, 263-264, 160-176). -/
def toBase {D} (s : Sys D) (c : Nat) (r : QReq D) : Sys D :=
  match r.out with
  | none => { s with t := s.t.issueRead (.guest c r.id) r.off r.cnt }
  | some data => { s with t := s.t.issueWrite (.guest c r.id) r.off r.cnt data }

/-- Replace one channel. No counterpart in the code (`&mut self` of device.rs:73-194). -/
def Sys.setCh {D} (s : Sys D) (c : Nat) (f : Chan D → Chan D) : Sys D :=
  { s with ch := upd s.ch c (f (s.ch c)) }

/-- Report `(id, false)` at the next poll (`finished_requests.push((id, false))`, device.rs:188-190, 237-240,
288-293). -/
def finishFalse {D} (s : Sys D) (c id : Nat) : Sys D :=
  s.setCh c fun ch => { ch with finished := ch.finished ++ [(id, false)] }

/-- Put a request on the waiting queue, sending the fetch (and written) messages. `sendOk = false`: the worker
is gone and every `send` fails (device.rs:235-243, 276-296). -/
def enqueueReq {D} (c : Cfg D) (s : Sys D) (q : Nat) (r : QReq D) (sendOk : Bool) : Sys D × List (Lab D) :=
  if sendOk then
    let (req, ms) := startFetches s.sh (stripes c r) (s.ch q).requested []
    let ms := if c.track && r.out.isSome then ms ++ startWritten s.sh (stripes c r) else ms
    ({ s.setCh q (fun ch => { ch with requested := req, queue := ch.queue ++ [r] }) with msgs := s.msgs ++ ms },
     [.wait q r.id])
  else (finishFalse s q r.id, [])

/-- `add_read` (device.rs:197-244). -/
def addRead {D} (c : Cfg D) (s : Sys D) (q id off cnt : Nat) (sendOk : Bool) : Sys D × List (Lab D) :=
  let r : QReq D := { id, off, cnt, out := none }
  match fetchStatus s.sh (stripes c r) with
  | .complete => (toBase s q r, [.toBase q r])
  | .failed => (finishFalse s q id, [])
  | .pending =>
    if firstStripe c r = lastStripe c r && c.image then
      (s.setCh q fun ch => { ch with img := upd ch.img id (some (off, cnt)) }, [])
    else enqueueReq c s q r sendOk

/-- `add_write` (device.rs:246-297). -/
def addWrite {D} (c : Cfg D) (s : Sys D) (q id off cnt : Nat) (data : Nat → D) (sendOk : Bool) :
    Sys D × List (Lab D) :=
  let r : QReq D := { id, off, cnt, out := some data }
  match fetchStatus s.sh (stripes c r) with
  | .failed => (finishFalse s q id, [])
  | .complete =>
    if !c.track || (stripes c r).all s.sh.ws then (toBase s q r, [.toBase q r])
    else enqueueReq c s q r sendOk
  | .pending => enqueueReq c s q r sendOk

/-- One iteration of `process_queued_rw_requests` (device.rs:134-179) with its submit (181-192). -/
def processQueue {D} (c : Cfg D) (s : Sys D) (q : Nat) (submitOk : Bool) : Option (Sys D × List (Lab D)) :=
  match (s.ch q).queue with
  | [] => none
  | r :: rest =>
    match fetchStatus s.sh (stripes c r) with
    | .pending => none
    | .failed =>
      some (finishFalse (s.setCh q fun ch => { ch with queue := rest }) q r.id, [.unwait q r.id])
    | .complete =>
      if c.track && r.out.isSome && !(stripes c r).all s.sh.ws then none
      else
        let s := s.setCh q fun ch =>
          { ch with queue := rest, requested := fun k => ch.requested k && !(stripes c r).contains k }
        if submitOk then some (toBase s q r, [.unwait q r.id, .toBase q r])
        else some (finishFalse s q r.id, [.unwait q r.id])

/-! ## The system -/

/-- Sector `x` has a defined preloaded content: its stripe has no source, or the source covers it. The other sectors
are those of a fetched stripe past the end of a raw image. No counterpart in the code (compare
stripe_source/bdev.rs:31-40). -/
def Cfg.good {D} (c : Cfg D) (x : Nat) : Bool := !c.hs (x / c.ss) || (c.src x).isSome

/-- Requests the model admits from the guest: not empty, inside the disk and inside the metadata. Requests
outside make the code panic (see C40). -/
def Cfg.validReq {D} (c : Cfg D) (off cnt : Nat) : Prop :=
  0 < cnt ∧ off + cnt ≤ c.tsec ∧ (off + cnt - 1) / c.ss < c.n

/-- Every sector of the request has a defined preloaded content. No counterpart in the code. -/
def Cfg.goodReq {D} (c : Cfg D) (off cnt : Nat) : Prop := ∀ x, covers off cnt x → c.good x = true

/-- The id is not in use on the queue (the front ends guarantee this, see C38 and C41). -/
def Sys.idFree {D} (s : Sys D) (q id : Nat) : Prop :=
  s.t.ops (.guest q id) = none ∧ (s.ch q).img id = none ∧
  (∀ r ∈ (s.ch q).queue, r.id ≠ id) ∧ (∀ p ∈ (s.ch q).finished, p.1 ≠ id)

/-- The actions of the system, one for each constructor of `Step`; the arguments are the choices made by the
environment. No counterpart in the code. -/
inductive Act (D : Type) where
  | read (q id off cnt : Nat) (sendOk : Bool)
  | write (q id off cnt : Nat) (data : Nat → D) (sendOk : Bool)
  | flush (q id : Nat)
  | processQueue (q : Nat) (submitOk : Bool)
  | reportFinished (q : Nat)
  | baseDone (q id : Nat) (ok : Bool)
  | imageDone (q id : Nat) (ok : Bool)
  | execData (o : Owner) (x : Nat)
  | execMeta (k x : Nat)
  | receive
  | autofetch
  | startFetch (submitOk : Bool)
  | sourceDone (k : Nat) (ok submitOk : Bool) (garbage : Nat → D)
  | targetDone (k : Nat) (ok submitOk : Bool)
  | takeFinished
  | startMeta (submitOk : Bool)
  | metaDone (k : Nat) (ok submitOk : Bool)
  | disconnect

/-- One step without a power loss; each constructor cites the function it models. -/
inductive Step {D : Type} (c : Cfg D) : Sys D → Act D → List (Lab D) → Sys D → Prop where
  /-- guest calls `add_read`. Excluded: reads past the end of a raw image that are answered by the image itself
  (`copy_on_read` off, one stripe, not fetched); the engine reports them as successful without filling the buffer
  (`C54_short_transfer_is_success`). -/
  | read (s q id off cnt sendOk) (hv : c.validReq off cnt)
      (hg : c.image = true → (off + cnt - 1) / c.ss = off / c.ss → s.sh.isLocal (off / c.ss) = false → c.goodReq off cnt)
      (hid : s.idFree q id) :
      Step c s (.read q id off cnt sendOk)
        (.ev (.issue q id (.read off cnt)) :: (addRead c s q id off cnt sendOk).2)
        (addRead c s q id off cnt sendOk).1
  /-- guest calls `add_write` -/
  | write (s q id off cnt data sendOk) (hv : c.validReq off cnt) (hid : s.idFree q id) :
      Step c s (.write q id off cnt data sendOk)
        (.ev (.issue q id (.write off cnt data)) :: (addWrite c s q id off cnt data sendOk).2)
        (addWrite c s q id off cnt data sendOk).1
  /-- guest calls `add_flush` (device.rs:299-301) -/
  | flush (s q id) (hid : s.idFree q id) :
      Step c s (.flush q id) [.ev (.issue q id .flush)] { s with t := s.t.issueFlush (.guest q id) }
  /-- `poll`: one waiting request is looked at (device.rs:311) -/
  | processQueue (s q submitOk s' ls) (h : processQueue c s q submitOk = some (s', ls)) :
      Step c s (.processQueue q submitOk) ls s'
  /-- `poll`: one of `finished_requests` is returned (device.rs:313) -/
  | reportFinished (s q id ok rest) (h : (s.ch q).finished = (id, ok) :: rest) :
      Step c s (.reportFinished q) [.ev (.resp q id ok [])]
        (s.setCh q fun ch => { ch with finished := rest })
  /-- `poll`: a completion of the base channel is returned (device.rs:314) -/
  | baseDone (s q id ok) (h : s.t.mayComplete (.guest q id) ok) :
      Step c s (.baseDone q id ok) [.ev (.resp q id ok (s.t.result (.guest q id) ok))]
        { s with t := s.t.complete (.guest q id) ok }
  /-- `poll`: a completion of the image channel is returned (device.rs:315-317) -/
  | imageDone (s q id ok off cnt) (h : (s.ch q).img id = some (off, cnt)) :
      Step c s (.imageDone q id ok)
        [.ev (.resp q id ok (if ok then (List.range cnt).map fun i => c.src (off + i) else []))]
        (s.setCh q fun ch => { ch with img := upd ch.img id none })
  /-- the data device transfers a sector -/
  | execData (s o x) : Step c s (.execData o x) [] { s with t := s.t.exec o x }
  /-- the metadata device transfers a sector -/
  | execMeta (s k x) : Step c s (.execMeta k x) [] { s with m := s.m.exec k x }
  /-- the worker takes one message (bgworker.rs:59-97) -/
  | receiveFetch (s k ms) (h : s.msgs = .fetch k :: ms) :
      Step c s .receive (handleFetch { s with msgs := ms } k).2 (handleFetch { s with msgs := ms } k).1
  | receiveWritten (s k ms) (h : s.msgs = .setWritten k :: ms) :
      Step c s .receive [] { s with msgs := ms, fl := { s.fl with queue := s.fl.queue ++ [(k, WRITTEN)] } }
  /-- `update_autofetch` (stripe_fetcher.rs:165-171) -/
  | autofetch (s k ks) (ha : c.autofetch = true) (hq : s.fe.queue = []) (h : s.fe.autoq = k :: ks) :
      Step c s .autofetch (handleFetch { s with fe := { s.fe with autoq := ks } } k).2
        (handleFetch { s with fe := { s.fe with autoq := ks } } k).1
  | startFetch (s submitOk s' ls) (h : startFetch c s submitOk = some (s', ls)) :
      Step c s (.startFetch submitOk) ls s'
  | sourceDone (s k ok submitOk garbage s' ls) (h : sourceDone c s k ok submitOk garbage = some (s', ls)) :
      Step c s (.sourceDone k ok submitOk garbage) ls s'
  | targetDone (s k ok submitOk) (h : s.t.mayComplete (.fetch k) ok) :
      Step c s (.targetDone k ok submitOk) (targetDone s k ok submitOk).2 (targetDone s k ok submitOk).1
  /-- one element of `take_finished_fetches` is handled (bgworker.rs:101-107) -/
  | takeFinished (s k ok rest) (h : s.fe.finished = (k, ok) :: rest) :
      Step c s .takeFinished []
        { s with
          fe := { s.fe with finished := rest }
          fl := if ok then { s.fl with queue := s.fl.queue ++ [(k, FETCHED)] } else s.fl }
  | startMeta (s submitOk s') (h : startMeta s submitOk = some s') : Step c s (.startMeta submitOk) [] s'
  | metaDone (s k ok submitOk) (h : s.m.mayComplete k ok) :
      Step c s (.metaDone k ok submitOk) [] (metaDone s k ok submitOk)
  /-- `disconnect_from_source_if_all_fetched` (stripe_fetcher.rs:136-154) -/
  | disconnect (s) (hd : s.fe.disconnected = false) (hb : s.fe.idle c.n s.t = true)
      (hc : s.sh.source = s.sh.fetched) :
      Step c s .disconnect [] { s with fe := { s.fe with disconnected := true } }

/-- Bytes of a metadata device with `n` sectors, as `load_from_bdev` reads them (metadata/load.rs:11-33). -/
def devBytes (n : Nat) (v : Nat → Bytes) : Bytes := (List.range n).flatMap v

/-- Start of the backend on devices with contents `tv` and `mv` and loaded headers `hdrs`
(build_with_bgworker, backends/common/mod.rs:135-183; StripeFetcher::new, MetadataFlusher::new). The pooled buffers
start with contents `buf0`. -/
def Sys.boot {D} (c : Cfg D) (hdrs : Bytes) (tv : Nat → D) (mv : Nat → Bytes) (buf0 : Nat → Nat → D) : Sys D :=
  { sh := Shared.load hdrs
    msgs := []
    fl := { hdrs, busy := fun _ => false, updates := fun _ => none, queue := [], free := maxChanges }
    fe := { queue := [], autoq := if c.autofetch then List.range c.srcStripes else [],
            states := fun _ => none, retries := fun _ => 0, alloc := fun _ => none,
            free := List.range maxFetches, bufs := buf0, finished := [], disconnected := false,
            srcIn := fun _ => false }
    ch := fun _ => { queue := [], finished := [], requested := fun _ => false, img := fun _ => none }
    t := Dev.fresh tv
    m := Dev.fresh mv }

/-- Runs of the system, with power losses: after one, the backend boots (backends/common/mod.rs:53-83) from whatever
survived on the two devices. -/
inductive Run {D : Type} (c : Cfg D) : Sys D → List (Lab D) → Sys D → Prop where
  | nil (s : Sys D) : Run c s [] s
  | step {s s' s'' : Sys D} {ls ls' : List (Lab D)} {a : Act D} :
      Run c s ls s' → Step c s' a ls' s'' → Run c s (ls ++ ls') s''
  | crash {s s' : Sys D} {ls : List (Lab D)} {tv : Nat → D} {mv : Nat → Bytes} {meta' : Meta}
      (buf0 : Nat → Nat → D) :
      Run c s ls s' → s'.t.survives tv → s'.m.survives mv →
      fromBytes (devBytes c.msec mv) = .ok meta' →
      Run c s (ls ++ [.ev .crash]) (Sys.boot c meta'.headers tv mv buf0)

/-- The events the guest sees. No counterpart in the code. -/
def visible {D} : List (Lab D) → List (Ev D)
  | [] => []
  | .ev e :: ls => e :: visible ls
  | _ :: ls => visible ls

/-- The plain disk to compare with: the image on the stripes still to be fetched, the local contents elsewhere. Where
the image does not reach (`c.src x = none`) its content is `g x`. No counterpart in the code: this is the
specification. -/
def preloadWith {D} (c : Cfg D) (g : Nat → D) (hdrs : Bytes) (tv : Nat → D) : Nat → D := fun x =>
  let h := hdrs.getD (x / c.ss) 0
  if flag h HAS_SOURCE && !flag h FETCHED then (c.src x).getD (g x) else tv x

/-- The same with the local contents past the end of the image. No counterpart in the code: this is the specification.
-/
def preload {D} (c : Cfg D) (hdrs : Bytes) (tv : Nat → D) : Nat → D := preloadWith c tv hdrs tv

/-- A volume that can be started: the metadata on the device load, describe `c.n` stripes with the source flags
`c.hs`, sectors have 512 bytes, and the geometry checks of start-up hold
(stripe_fetcher.rs:67-74, metadata_flusher.rs:62-71; `c.n` stripes cover the disk as init-metadata makes them). -/
structure Bootable {D} (c : Cfg D) (hdrs : Bytes) (mv : Nat → Bytes) : Prop where
  ss : 0 < c.ss
  load : ∃ md, fromBytes (devBytes c.msec mv) = .ok md ∧ md.headers = hdrs
  len : hdrs.length = c.n
  sectors : ∀ x, (mv x).length = 512
  hs : ∀ k, c.hs k = flag (hdrs.getD k 0) HAS_SOURCE
  srcStripes : c.srcStripes ≤ c.n

end Verif.Lazy
