import Verif.Spec.Lend

/-! # What the programs do with the memory they hand to disk channels

Models, for each user of an `IoChannel`, when buffers are allocated, used, handed in with a request and given back: the guest's
requests (`/repo/src/backends/vhost/backend_thread.rs`, `/repo/src/backends/ublk/io_handler.rs`), the copying of stripes
(`/repo/src/block_device/bdev_lazy/stripe_fetcher.rs`), the recording of stripe flags (`bdev_lazy/metadata_flusher.rs`), the archiver
(`/repo/src/archive/archiver.rs`) and the code that waits for single requests; and what the encrypting channel (`block_device/bdev_crypt.rs`)
and the lazy channel (`bdev_lazy/device.rs`) do in between. The contract is the comment of `block_device/bdev_uring.rs:65-72`.

Simplified: contents, sectors and metadata are left out, so decisions that depend on them are free. Each user has its own numbers for
buffers and channels. A loop over collected answers handles them one by one from `done`; nothing else happens until it is empty. -/

namespace Verif.Lend

/-- Bytes of a request of `n` sectors as the kernel is told (`len`, a `u32`, bdev_uring.rs:77, 93). -/
def sqeLen (n : Nat) : Nat := n * 512 % 2 ^ 32

/-- Runs of one user: `step` from `s0`, with `tr0` before. No counterpart in the code. -/
inductive Run {S : Type} (step : S → List Ev → S → Prop) (tr0 : List Ev) (s0 : S) : List Ev → S → Prop where
  | nil : Run step tr0 s0 tr0 s0
  | snoc {tr es : List Ev} {s s' : S} : Run step tr0 s0 tr s → step s es s' → Run step tr0 s0 (tr ++ es) s'

/-- What has happened at some moment of a run, also within a step. No counterpart in the code. -/
def upTo {S : Type} (step : S → List Ev → S → Prop) (tr0 : List Ev) (s0 : S) (tr : List Ev) : Prop :=
  ∃ tr' s, Run step tr0 s0 tr' s ∧ tr <+: tr'

/-- `count` buffers of `size` bytes (aligned_buffer_pool.rs:16-30, backend_thread.rs:79-95, io_handler.rs:36-62). -/
def allocs (count size : Nat) : List Ev := (List.range count).map fun b => .alloc b size

/-! ## The vhost front end -/

/-- `RequestSlot` (backend_thread.rs:34-45). `read`: the request is `In`. -/
structure Slot where
  used : Bool
  read : Bool
  buf : Nat
  len : Nat

/-- `UbiBlkBackendThread` (backend_thread.rs:47-59). `next`: number of the next allocation; `flight`: requests given to the channel and
not collected, which is what its `busy` tells (bdev_uring.rs:158-162); `gone`: the thread has been dropped. -/
structure Front where
  slots : List Slot
  next : Nat
  flight : List Nat
  done : List (Nat × Bool)
  gone : Bool

/-- `new` (backend_thread.rs:72-116): `q` slots with buffers of `size` bytes. -/
def Front.new (q size : Nat) : Front :=
  { slots := (List.range q).map fun b => ⟨false, false, b, size⟩, next := q, flight := [], done := [], gone := false }

/-- `get_request_slot` (backend_thread.rs:118-152): the first free slot that is large enough, or a new one. -/
def Front.getSlot (f : Front) (len : Nat) (read : Bool) : Front × List Ev × Nat × Nat :=
  match f.slots.findIdx? fun s => s.len ≥ len && !s.used with
  | some i => ({ f with slots := f.slots.modify i fun s => { s with used := true, read := read } }, [], i, ((f.slots.map Slot.buf)[i]?).getD 0)
  | none =>
    ({ f with slots := f.slots ++ [⟨true, read, f.next, len⟩], next := f.next + 1 }, [.alloc f.next len], f.slots.length, f.next)

/-- `put_request_slot` (backend_thread.rs:154-157). -/
def Front.putSlot (f : Front) (i : Nat) : Front := { f with slots := f.slots.modify i fun s => { s with used := false } }

/-- Steps of the thread. `rests`: `handle_event` (backend.rs:205-241) returns, so that the thread can be dropped, only when its channel
is not busy, as it does with the event index. -/
inductive Front.Step (rests : Bool) : Front → List Ev → Front → Prop where
  /-- `process_read` (backend_thread.rs:260-284) of `n` sectors -/
  | read (f f' : Front) (n i b : Nat) (es : List Ev) : f.gone = false → f.done = [] → n * 512 < 2 ^ 32 →
      f.getSlot (n * 512) true = (f', es, i, b) →
      Step rests f (es ++ [.add 0 i false b (sqeLen n)]) { f' with flight := f'.flight ++ [i] }
  /-- `process_write` (backend_thread.rs:286-336) of `n` sectors in `k` descriptors -/
  | write (f f' : Front) (n i b k : Nat) (es : List Ev) : f.gone = false → f.done = [] → n * 512 < 2 ^ 32 →
      f.getSlot (n * 512) false = (f', es, i, b) →
      Step rests f (es ++ List.replicate k (.touch b) ++ [.add 0 i true b (sqeLen n)]) { f' with flight := f'.flight ++ [i] }
  /-- `process_write` when the data cannot be read from the guest (backend_thread.rs:315-324) -/
  | writeBad (f f' : Front) (n i b k : Nat) (es : List Ev) : f.gone = false → f.done = [] →
      f.getSlot (n * 512) false = (f', es, i, b) →
      Step rests f (es ++ List.replicate k (.touch b)) (f'.putSlot i)
  /-- `process_flush` (backend_thread.rs:338-347) -/
  | flush (f f' : Front) (i b : Nat) (es : List Ev) : f.gone = false → f.done = [] → f.getSlot 0 false = (f', es, i, b) →
      Step rests f (es ++ [.flush 0 i]) { f' with flight := f'.flight ++ [i] }
  /-- `self.io_channel.poll()` (backend_thread.rs:229) -/
  | poll (f : Front) (rs : List (Nat × Bool)) : f.gone = false → f.done = [] →
      Step rests f [.poll 0 rs] { f with done := rs, flight := f.flight.filter fun i => i ∉ rs.map Prod.fst }
  /-- one answer (backend_thread.rs:230-249): the data of a successful read is copied to the guest -/
  | finish (f : Front) (i : Nat) (ok : Bool) (rest : List (Nat × Bool)) (s : Slot) (k : Nat) : f.gone = false →
      f.done = (i, ok) :: rest → f.slots[i]? = some s →
      Step rests f (if s.read && ok then List.replicate k (.touch s.buf) else []) { f.putSlot i with done := rest }
  /-- the client has gone and the thread is dropped (backend_loop.rs:61-66), and its buffers with it -/
  | drop (f : Front) : f.gone = false → f.done = [] → (rests = true → f.flight = []) →
      Step rests f (f.slots.map fun s => .free s.buf) { f with gone := true }

/-! ## The ublk front end -/

/-- `UblkOp` (ublk/mod.rs:22-27). -/
inductive UOp where
  | read | write | flush | unsupported
deriving DecidableEq

/-- `UblkIoRequest` (ublk/mod.rs:41-47) without the location: the tag is the number. -/
structure UReq where
  op : UOp
  sectors : Nat
  tag : Nat

/-- `UblkIoHandler` (io_handler.rs:25-33). Buffer `t` is `backend_bufs[t]`. -/
structure Ub where
  pending : List UReq
  inflight : Nat → Option UReq
  done : List (Nat × Bool)

/-- `new` (io_handler.rs:36-62). -/
def Ub.new : Ub := { pending := [], inflight := fun _ => none, done := [] }

/-- `inflight_requests[t] = v` (io_handler.rs:191, 213-216). -/
def setFn {α : Type} (f : Nat → α) (t : Nat) (v : α) : Nat → α := fun x => if x = t then v else f x

/-- Steps of the handler (io_handler.rs:64-249) with `q` buffers of `size` bytes. The kernel gives a tag to a new request only when
its last one has been answered (the ublk protocol). `refusals`: submissions may fail. -/
inductive Ub.Step (refusals : Bool) (q size : Nat) : Ub → List Ev → Ub → Prop where
  /-- `handle` (io_handler.rs:64-96): requests that are too large are answered at once -/
  | handle (u : Ub) (r : UReq) : u.done = [] → r.tag < q → r.tag ∉ u.pending.map UReq.tag → u.inflight r.tag = none →
      r.sectors * 512 ≤ size → Step refusals q size u [] { u with pending := u.pending ++ [r] }
  /-- `enqueue_request` (io_handler.rs:98-146) of the next one pending (io_handler.rs:175-193) -/
  | read (u : Ub) (r : UReq) (rest : List UReq) : u.done = [] → u.pending = r :: rest → r.op = .read →
      Step refusals q size u [.add 0 r.tag false r.tag (sqeLen r.sectors)]
        { u with pending := rest, inflight := setFn u.inflight r.tag (some r) }
  | write (u : Ub) (r : UReq) (rest : List UReq) : u.done = [] → u.pending = r :: rest → r.op = .write →
      Step refusals q size u [.touch r.tag, .add 0 r.tag true r.tag (sqeLen r.sectors)]
        { u with pending := rest, inflight := setFn u.inflight r.tag (some r) }
  | flush (u : Ub) (r : UReq) (rest : List UReq) : u.done = [] → u.pending = r :: rest → r.op = .flush →
      Step refusals q size u [.flush 0 r.tag] { u with pending := rest, inflight := setFn u.inflight r.tag (some r) }
  | unsupported (u : Ub) (r : UReq) (rest : List UReq) : u.done = [] → u.pending = r :: rest → r.op = .unsupported →
      Step refusals q size u [] { u with pending := rest }
  /-- the submission fails: everything in flight is answered with an error (io_handler.rs:195-210) -/
  | refused (u : Ub) : refusals = true → u.done = [] → Step refusals q size u [] { u with inflight := fun _ => none }
  /-- `self.io_channel.poll()` (io_handler.rs:212) -/
  | poll (u : Ub) (rs : List (Nat × Bool)) : u.done = [] → Step refusals q size u [.poll 0 rs] { u with done := rs }
  /-- one answer (io_handler.rs:213-242, `complete_request`, 148-169) -/
  | finish (u : Ub) (r : UReq) (i : Nat) (ok : Bool) (rest : List (Nat × Bool)) : u.done = (i, ok) :: rest → u.inflight i = some r →
      Step refusals q size u (if ok && r.op == .read then [.touch i] else [])
        { u with done := rest, inflight := setFn u.inflight i none }
  /-- an answer for no request (io_handler.rs:213-220) -/
  | unknown (u : Ub) (i : Nat) (ok : Bool) (rest : List (Nat × Bool)) : u.done = (i, ok) :: rest → u.inflight i = none →
      Step refusals q size u [] { u with done := rest }

/-! ## Copying stripes -/

/-- What the stripes are read from: a raw image through a channel of its own (`BlockDeviceStripeSource`, stripe_source/bdev.rs:22-61), or an
archive or a stripe server, whose data the program copies into the buffer itself (stripe_source/archive.rs:213-273, remote.rs:268-322). -/
inductive Src where
  | raw | copied
deriving DecidableEq

/-- `FetchState` (stripe_fetcher.rs:18-24). -/
inductive FState where
  | queued | fetching | flushing | fetched
deriving DecidableEq

/-- `StripeFetcher` (stripe_fetcher.rs:26-44). `free`: the available buffers of the pool; `got`: `allocated_buffers`; `asked`: what a
copying source has been asked for. -/
structure Fetch where
  queue : List Nat
  free : List Nat
  got : Nat → Option Nat
  st : Nat → Option FState
  asked : List Nat
  doneSrc : List (Nat × Bool)
  doneTgt : List (Nat × Bool)

/-- `new` (stripe_fetcher.rs:46-101): sixteen buffers of the size of a stripe. -/
def Fetch.new : Fetch :=
  { queue := [], free := List.range 16, got := fun _ => none, st := fun _ => none, asked := [], doneSrc := [], doneTgt := [] }

/-- `fetch_completed` (stripe_fetcher.rs:272-301); `again`: there are retries left. -/
def Fetch.completed (f : Fetch) (i : Nat) (ok again : Bool) : Fetch :=
  { f with
    free := match f.got i with | some b => f.free ++ [b] | none => f.free
    got := setFn f.got i none
    queue := if !ok && again then f.queue ++ [i] else f.queue
    st := setFn f.st i (if ok then some .fetched else if again then some .queued else none) }

/-- Steps of the fetcher (stripe_fetcher.rs:103-304) for stripes of `ss` sectors, a source of `src` sectors and a target of
`tgt`. Channel 1 is the image's, channel 2 the target's. `refusals`: submissions may fail. -/
inductive Fetch.Step (refusals : Bool) (kind : Src) (ss src tgt : Nat) : Fetch → List Ev → Fetch → Prop where
  /-- `handle_fetch_request` (stripe_fetcher.rs:111-128), also for `update_autofetch` (165-171) -/
  | request (f : Fetch) (i : Nat) : f.doneSrc = [] → f.doneTgt = [] → f.st i = none →
      Step refusals kind ss src tgt f [] { f with queue := f.queue ++ [i], st := setFn f.st i (some .queued) }
  /-- `start_fetches` (stripe_fetcher.rs:173-187) from a raw image (bdev.rs:23-45) -/
  | startRaw (f : Fetch) (i b : Nat) (q fr : List Nat) : f.doneSrc = [] → f.doneTgt = [] → kind = .raw → f.queue = i :: q →
      f.free = b :: fr → i * ss < src →
      Step refusals kind ss src tgt f [.add 1 i false b (sqeLen (min ss (src - i * ss)))]
        { f with queue := q, free := fr, got := setFn f.got i (some b), st := setFn f.st i (some .fetching) }
  /-- the same, the submission refused -/
  | startRefused (f : Fetch) (i b : Nat) (q fr : List Nat) (again : Bool) : refusals = true → f.doneSrc = [] → f.doneTgt = [] →
      kind = .raw → f.queue = i :: q → f.free = b :: fr → i * ss < src →
      Step refusals kind ss src tgt f [.add 1 i false b (sqeLen (min ss (src - i * ss)))]
        (Fetch.completed { f with queue := q, free := fr, got := setFn f.got i (some b) } i false again)
  /-- a copying source accepts the request -/
  | startCopied (f : Fetch) (i b : Nat) (q fr : List Nat) : f.doneSrc = [] → f.doneTgt = [] → kind = .copied → f.queue = i :: q →
      f.free = b :: fr → Step refusals kind ss src tgt f []
        { f with queue := q, free := fr, got := setFn f.got i (some b), st := setFn f.st i (some .fetching), asked := f.asked ++ [i] }
  /-- the source refuses the request without passing it on: past the end of the image (bdev.rs:25-29), or an error of the source -/
  | startFailed (f : Fetch) (i b : Nat) (q fr : List Nat) (again : Bool) : f.doneSrc = [] → f.doneTgt = [] → f.queue = i :: q →
      f.free = b :: fr → (kind = .raw → src ≤ i * ss) →
      Step refusals kind ss src tgt f []
        (Fetch.completed { f with queue := q, free := fr, got := setFn f.got i (some b) } i false again)
  /-- answers of the image's channel (stripe_fetcher.rs:198) -/
  | pollRaw (f : Fetch) (rs : List (Nat × Bool)) : f.doneSrc = [] → f.doneTgt = [] → kind = .raw →
      Step refusals kind ss src tgt f [.poll 1 rs] { f with doneSrc := rs }
  /-- a copying source has an answer: with data, it has written them to the buffer (archive.rs:160-207, remote.rs:238-250) -/
  | pollCopied (f : Fetch) (i b : Nat) (ok : Bool) : f.doneSrc = [] → f.doneTgt = [] → kind = .copied → i ∈ f.asked → f.got i = some b →
      Step refusals kind ss src tgt f (if ok then [.touch b] else []) { f with doneSrc := [(i, ok)], asked := f.asked.erase i }
  /-- a stripe has been read: `start_write` (stripe_fetcher.rs:199-210, 240-259) -/
  | write (f : Fetch) (i b : Nat) (rest : List (Nat × Bool)) : f.doneTgt = [] → f.doneSrc = (i, true) :: rest → f.got i = some b →
      Step refusals kind ss src tgt f [.add 2 i true b (sqeLen (min ss (tgt - i * ss)))] { f with doneSrc := rest }
  | writeRefused (f : Fetch) (i b : Nat) (rest : List (Nat × Bool)) (again : Bool) : refusals = true → f.doneTgt = [] →
      f.doneSrc = (i, true) :: rest → f.got i = some b →
      Step refusals kind ss src tgt f [.add 2 i true b (sqeLen (min ss (tgt - i * ss)))]
        { f.completed i false again with doneSrc := rest }
  | readFailed (f : Fetch) (i b : Nat) (rest : List (Nat × Bool)) (again : Bool) : f.doneTgt = [] → f.doneSrc = (i, false) :: rest →
      f.got i = some b → Step refusals kind ss src tgt f [] { f.completed i false again with doneSrc := rest }
  /-- an answer for an unknown stripe (stripe_fetcher.rs:201-204) -/
  | readUnknown (f : Fetch) (i : Nat) (ok : Bool) (rest : List (Nat × Bool)) : f.doneTgt = [] → f.doneSrc = (i, ok) :: rest →
      f.got i = none → Step refusals kind ss src tgt f [] { f with doneSrc := rest }
  /-- answers of the target's channel (stripe_fetcher.rs:214) -/
  | pollTgt (f : Fetch) (rs : List (Nat × Bool)) : f.doneSrc = [] → f.doneTgt = [] →
      Step refusals kind ss src tgt f [.poll 2 rs] { f with doneTgt := rs }
  | tgtFailed (f : Fetch) (i : Nat) (rest : List (Nat × Bool)) (again : Bool) : f.doneTgt = (i, false) :: rest →
      Step refusals kind ss src tgt f [] { f.completed i false again with doneTgt := rest }
  /-- a stripe has been written: `start_flush` (stripe_fetcher.rs:221-229, 261-270) -/
  | tgtWritten (f : Fetch) (i : Nat) (rest : List (Nat × Bool)) : f.doneTgt = (i, true) :: rest → f.st i = some .fetching →
      Step refusals kind ss src tgt f [.flush 2 i] { f with doneTgt := rest, st := setFn f.st i (some .flushing) }
  | flushRefused (f : Fetch) (i : Nat) (rest : List (Nat × Bool)) (again : Bool) : refusals = true → f.doneTgt = (i, true) :: rest →
      f.st i = some .fetching → Step refusals kind ss src tgt f [.flush 2 i] { f.completed i false again with doneTgt := rest }
  | tgtFlushed (f : Fetch) (i : Nat) (rest : List (Nat × Bool)) : f.doneTgt = (i, true) :: rest → f.st i = some .flushing →
      Step refusals kind ss src tgt f [] { f.completed i true false with doneTgt := rest }
  | tgtOdd (f : Fetch) (i : Nat) (rest : List (Nat × Bool)) : f.doneTgt = (i, true) :: rest → f.st i ≠ some .fetching →
      f.st i ≠ some .flushing → Step refusals kind ss src tgt f [] { f with doneTgt := rest }

/-! ## Recording stripe flags -/

/-- `MetadataFlusher` (metadata_flusher.rs:43-51). `ups`: `header_updates`, with the buffer and whether the stage is `Writing`; `secs`:
`sectors_being_updated`. -/
structure Flags where
  queue : List Nat
  free : List Nat
  ups : Nat → Option (Nat × Bool)
  secs : List Nat
  done : List (Nat × Bool)

/-- `new` (metadata_flusher.rs:54-83): sixteen buffers of one sector. -/
def Flags.new : Flags := { queue := [], free := List.range 16, ups := fun _ => none, secs := [], done := [] }

/-- Steps of the flusher (metadata_flusher.rs:85-243); `sec` is the sector of a stripe's flags (`stripe_id_to_sector`). Channel 3. -/
inductive Flags.Step (refusals : Bool) (sec : Nat → Nat) : Flags → List Ev → Flags → Prop where
  /-- `set_stripe_fetched`, `set_stripe_written` (metadata_flusher.rs:89-101) -/
  | request (m : Flags) (i : Nat) : m.done = [] → Step refusals sec m [] { m with queue := m.queue ++ [i] }
  /-- a flag that is set already (metadata_flusher.rs:199-202) -/
  | skip (m : Flags) (i : Nat) (q : List Nat) : m.done = [] → m.queue = i :: q → sec i ∉ m.secs →
      Step refusals sec m [] { m with queue := q }
  /-- `start_writes` (metadata_flusher.rs:181-228) -/
  | start (m : Flags) (i b : Nat) (q fr : List Nat) : m.done = [] → m.queue = i :: q → m.free = b :: fr → sec i ∉ m.secs →
      Step refusals sec m [.touch b, .add 3 i true b (sqeLen 1)]
        { m with queue := q, free := fr, ups := setFn m.ups i (some (b, true)), secs := sec i :: m.secs }
  /-- the submission fails: `cleanup_failed_submission` (metadata_flusher.rs:108-118, 235-242) of one of the new writes -/
  | startRefused (m : Flags) (i b : Nat) : refusals = true → m.done = [] → m.ups i = some (b, true) →
      Step refusals sec m [] { m with ups := setFn m.ups i none, free := m.free ++ [b], secs := m.secs.erase (sec i) }
  /-- `self.channel.poll()` (metadata_flusher.rs:124) -/
  | poll (m : Flags) (rs : List (Nat × Bool)) : m.done = [] → Step refusals sec m [.poll 3 rs] { m with done := rs }
  /-- an unexpected answer (metadata_flusher.rs:127-129) -/
  | unknown (m : Flags) (i : Nat) (ok : Bool) (rest : List (Nat × Bool)) : m.done = (i, ok) :: rest → m.ups i = none →
      Step refusals sec m [] { m with done := rest }
  /-- a failure (metadata_flusher.rs:130-145): the buffer is returned unless that has been done -/
  | failed (m : Flags) (i b : Nat) (wr : Bool) (rest : List (Nat × Bool)) : m.done = (i, false) :: rest → m.ups i = some (b, wr) →
      Step refusals sec m []
        { m with done := rest, ups := setFn m.ups i none, free := if wr then m.free ++ [b] else m.free, secs := m.secs.erase (sec i) }
  /-- written (metadata_flusher.rs:147-152) -/
  | written (m : Flags) (i b : Nat) (rest : List (Nat × Bool)) : m.done = (i, true) :: rest → m.ups i = some (b, true) →
      Step refusals sec m [.flush 3 i] { m with done := rest, ups := setFn m.ups i (some (b, false)), free := m.free ++ [b] }
  /-- flushed (metadata_flusher.rs:153-165) -/
  | flushed (m : Flags) (i b : Nat) (rest : List (Nat × Bool)) : m.done = (i, true) :: rest → m.ups i = some (b, false) →
      Step refusals sec m [] { m with done := rest, ups := setFn m.ups i none, secs := m.secs.erase (sec i) }
  /-- the submission of the flushes fails (metadata_flusher.rs:172-179): one of them is forgotten -/
  | flushRefused (m : Flags) (i b : Nat) : refusals = true → m.done = [] → m.ups i = some (b, false) →
      Step refusals sec m [] { m with ups := setFn m.ups i none, secs := m.secs.erase (sec i) }

/-! ## The archiver -/

/-- `StripeArchiver` (archiver.rs:20-36). `next`: `next_stripe_id`; `got`: `stripe_fetch_buffers`; `gone`: dropped. -/
structure Arch where
  next : Nat
  free : List Nat
  got : Nat → Option Nat
  asked : List Nat
  done : List (Nat × Bool)
  gone : Bool

/-- `new` (archiver.rs:40-86): `q` buffers of the size of a stripe. -/
def Arch.new (q : Nat) : Arch :=
  { next := 0, free := List.range q, got := fun _ => none, asked := [], done := [], gone := false }

/-- Steps of the archiver (archiver.rs:87-252) with `count` stripes of `ss` sectors and a source of `src` sectors.
Channel 4 is the disk's, channel 5 the image's. `fails`: reads, uploads and submissions may fail. -/
inductive Arch.Step (fails : Bool) (kind : Src) (q count ss src : Nat) : Arch → List Ev → Arch → Prop where
  /-- a stripe that need not be archived (archiver.rs:105-108) -/
  | skip (a : Arch) : a.gone = false → a.done = [] → a.next < count → Step fails kind q count ss src a [] { a with next := a.next + 1 }
  /-- `maybe_start_next_stripe`, `start_fetch_stripe` (archiver.rs:134-161) from the disk -/
  | disk (a : Arch) (b : Nat) (fr : List Nat) : a.gone = false → a.done = [] → a.next < count → a.free = b :: fr →
      Step fails kind q count ss src a [.add 4 a.next false b (sqeLen ss)]
        { a with next := a.next + 1, free := fr, got := setFn a.got a.next (some b) }
  /-- from a raw image (stripe_source/bdev.rs:23-45) -/
  | image (a : Arch) (b : Nat) (fr : List Nat) : a.gone = false → a.done = [] → a.next < count → a.free = b :: fr → kind = .raw →
      a.next * ss < src →
      Step fails kind q count ss src a [.add 5 a.next false b (sqeLen (min ss (src - a.next * ss)))]
        { a with next := a.next + 1, free := fr, got := setFn a.got a.next (some b) }
  /-- from a copying source -/
  | copied (a : Arch) (b : Nat) (fr : List Nat) : a.gone = false → a.done = [] → a.next < count → a.free = b :: fr → kind = .copied →
      Step fails kind q count ss src a []
        { a with next := a.next + 1, free := fr, got := setFn a.got a.next (some b), asked := a.asked ++ [a.next] }
  /-- `poll_fetches` (archiver.rs:163-178): both channels; a copying source has no channel of its own -/
  | poll (a : Arch) (rs rs' : List (Nat × Bool)) : a.gone = false → a.done = [] → (kind = .copied → rs' = []) →
      Step fails kind q count ss src a [.poll 4 rs, .poll 5 rs'] { a with done := rs ++ rs' }
  /-- a copying source has an answer: with data, it has written them to the buffer -/
  | pollCopied (a : Arch) (i b : Nat) (ok : Bool) : a.gone = false → a.done = [] → kind = .copied → i ∈ a.asked → a.got i = some b →
      Step fails kind q count ss src a (if ok then [.touch b] else []) { a with done := [(i, ok)], asked := a.asked.erase i }
  /-- `start_upload_stripe` (archiver.rs:192-235): the contents are looked at and compressed, the buffer returned -/
  | upload (a : Arch) (i b : Nat) (rest : List (Nat × Bool)) : a.gone = false → a.done = (i, true) :: rest → a.got i = some b →
      Step fails kind q count ss src a [.touch b] { a with done := rest, got := setFn a.got i none, free := a.free ++ [b] }
  /-- all is read and uploaded (archiver.rs:118-128): the archiver is dropped with its buffers -/
  | finished (a : Arch) : a.gone = false → a.done = [] → count ≤ a.next → (∀ i, a.got i = none) →
      Step fails kind q count ss src a ((List.range q).map .free) { a with gone := true }
  /-- an error ends the run (`?`, archiver.rs:110-127): the archiver is dropped with its buffers -/
  | failed (a : Arch) : fails = true → a.gone = false → Step fails kind q count ss src a ((List.range q).map .free) { a with gone := true }

/-! ## Code that waits for single requests -/

/-- Where such code is (wait_for_completion.rs:3-32). `io`: a request with the memory `b` has been added; `flushing`: a flush. -/
inductive At where
  | idle | io (b : Nat) (read : Bool) | flushing (b : Nat) | over
deriving DecidableEq

/-- The code between `create_channel` and the end (load.rs:14-27, save.rs:41-58 and others): `next` is the number of the next allocation. -/
structure Single where
  next : Nat
  at_ : At

/-- Steps of `load_from_bdev` (load.rs:14-27), `save_to_bdev` (save.rs:41-58), `read_stripe` (stripe_server/session.rs:151-168),
`read_metadata_bytes` (legacy.rs:78-102) and the loops of bin/xts.rs:103-118, 187-203, on channel 6. `timeouts`: the wait of thirty
seconds may run out, or the submission fail. -/
inductive Single.Step (timeouts : Bool) : Single → List Ev → Single → Prop where
  /-- a buffer of `n` sectors is made and a read of them added -/
  | read (s : Single) (n : Nat) : s.at_ = .idle →
      Step timeouts s [.alloc s.next (n * 512), .add 6 0 false s.next (sqeLen n)] ⟨s.next + 1, .io s.next true⟩
  /-- a buffer is made and filled and a write added -/
  | write (s : Single) (n : Nat) : s.at_ = .idle →
      Step timeouts s [.alloc s.next (n * 512), .touch s.next, .add 6 0 true s.next (sqeLen n)] ⟨s.next + 1, .io s.next false⟩
  /-- `wait_for_completion` (wait_for_completion.rs:3-32): answers to other requests are skipped -/
  | poll (s : Single) (rs : List (Nat × Bool)) (b : Nat) (rd : Bool) : s.at_ = .io b rd → 0 ∉ rs.map Prod.fst →
      Step timeouts s [.poll 6 rs] s
  /-- the read is done: the data is used and the buffer dropped -/
  | gotRead (s : Single) (rs : List (Nat × Bool)) (b : Nat) : s.at_ = .io b true → (0, true) ∈ rs →
      Step timeouts s [.poll 6 rs, .touch b, .free b] { s with at_ := .idle }
  /-- the write is done; a program that goes on with a flush keeps the buffer until the end (save.rs:41-60) -/
  | gotWrite (s : Single) (rs : List (Nat × Bool)) (b : Nat) : s.at_ = .io b false → (0, true) ∈ rs →
      Step timeouts s [.poll 6 rs, .free b] { s with at_ := .idle }
  | flush (s : Single) (rs : List (Nat × Bool)) (b : Nat) : s.at_ = .io b false → (0, true) ∈ rs →
      Step timeouts s [.poll 6 rs, .flush 6 1] { s with at_ := .flushing b }
  | pollFlush (s : Single) (rs : List (Nat × Bool)) (b : Nat) : s.at_ = .flushing b → 1 ∉ rs.map Prod.fst → Step timeouts s [.poll 6 rs] s
  | gotFlush (s : Single) (rs : List (Nat × Bool)) (b : Nat) : s.at_ = .flushing b → 1 ∈ rs.map Prod.fst →
      Step timeouts s [.poll 6 rs, .free b] { s with at_ := .over }
  /-- the request has failed -/
  | failed (s : Single) (rs : List (Nat × Bool)) (b : Nat) (rd : Bool) : s.at_ = .io b rd → (0, false) ∈ rs →
      Step timeouts s [.poll 6 rs, .free b] { s with at_ := .over }
  /-- the wait for the flush ends without an answer (save.rs:57-58) -/
  | flushTimeout (s : Single) (b : Nat) : s.at_ = .flushing b → Step timeouts s [.free b] { s with at_ := .over }
  /-- the time is over or the submission failed: the channel and the buffer are dropped -/
  | timeout (s : Single) (b : Nat) (rd : Bool) : timeouts = true → s.at_ = .io b rd → Step timeouts s [.free b] { s with at_ := .over }

/-! ## The encrypting channel -/

/-- `CryptIoChannel` (bdev_crypt.rs:13-17): `rd c id` is `read_requests[id]` of the encrypting channel over channel `c`. -/
abbrev Reads := Nat → Nat → Option Nat

/-- The loop over the answers (bdev_crypt.rs:62-77): each successful read is decrypted in its buffer. -/
def cryptPoll (c : Nat) : Reads → List (Nat × Bool) → Reads × List Ev
  | rd, [] => (rd, [])
  | rd, (id, ok) :: rs =>
    let rd' : Reads := fun c' i => if c' = c ∧ i = id then none else rd c' i
    let r := cryptPoll c rd' rs
    match rd c id with
    | some b => (r.1, (if ok then [.touch b] else []) ++ r.2)
    | none => (r.1, r.2)

/-- One call (bdev_crypt.rs:29-79) of an encrypting channel over channel `c`, for the channels in `on`: what happens below. -/
def crypt (on : Nat → Bool) (rd : Reads) : Ev → Reads × List Ev
  | .add c id false b len =>
    if on c then (fun c' i => if c' = c ∧ i = id then some b else rd c' i, [.add c id false b len]) else (rd, [.add c id false b len])
  | .add c id true b len => (rd, if on c then [.touch b, .add c id true b len] else [.add c id true b len])
  | .poll c rs => if on c then ((cryptPoll c rd rs).1, .poll c rs :: (cryptPoll c rd rs).2) else (rd, [.poll c rs])
  | e => (rd, [e])

/-- All calls (bdev_crypt.rs:29-79) in order. -/
def crypts (on : Nat → Bool) : Reads → List Ev → List Ev
  | _, [] => []
  | rd, e :: es => (crypt on rd e).2 ++ crypts on (crypt on rd e).1 es

/-! ## The lazy channel -/

/-- `RWRequest` (device.rs:31-39) without the location. -/
structure RW where
  id : Nat
  w : Bool
  buf : Nat
  len : Nat

/-- `LazyIoChannel` (device.rs:41-50). -/
structure Lazy where
  queue : List RW
  fin : List (Nat × Bool)

/-- `process_queued_rw_requests` (device.rs:131-193): of the first requests of the queue (`true`: handed to the base channel, `false`:
its stripe has failed), what is handed to the base channel 0 and what is reported as failed. -/
def process : List (RW × Bool) → List Ev × List (Nat × Bool)
  | [] => ([], [])
  | (r, true) :: l => (.add 0 r.id r.w r.buf r.len :: (process l).1, (process l).2)
  | (r, false) :: l => ((process l).1, (r.id, false) :: (process l).2)

/-- Calls of the lazy channel (device.rs:131-320, channel 0 above) and what happens below: channel 0 is the base
device's, channel 1 the image's. Which way a request goes depends on the state of its stripes and is left open. Everything else passes.
`refusals`: the submission of queued requests may fail. -/
inductive Lazy.Step (refusals : Bool) : Lazy → Ev → List Ev → Lazy → Prop where
  /-- the stripes are there (device.rs:210-214, 259-266) -/
  | base (z : Lazy) (id : Nat) (w : Bool) (b len : Nat) : Step refusals z (.add 0 id w b len) [.add 0 id w b len] z
  /-- a read of one stripe from the image (device.rs:223-227) -/
  | image (z : Lazy) (id b len : Nat) : Step refusals z (.add 0 id false b len) [.add 1 id false b len] z
  /-- a stripe has failed, or the worker is gone (device.rs:216-220, 235-240, 269-273, 276-294) -/
  | failed (z : Lazy) (id : Nat) (w : Bool) (b len : Nat) :
      Step refusals z (.add 0 id w b len) [] { z with fin := z.fin ++ [(id, false)] }
  /-- the request waits (device.rs:241-243, 296) -/
  | queued (z : Lazy) (id : Nat) (w : Bool) (b len : Nat) :
      Step refusals z (.add 0 id w b len) [] { z with queue := z.queue ++ [⟨id, w, b, len⟩] }
  | flush (z : Lazy) (id : Nat) : Step refusals z (.flush 0 id) [.flush 0 id] z
  /-- `poll` (device.rs:310-320) -/
  | poll (z : Lazy) (l : List (RW × Bool)) (rest : List RW) (rb ri : List (Nat × Bool)) : z.queue = l.map Prod.fst ++ rest →
      Step refusals z (.poll 0 (z.fin ++ (process l).2 ++ rb ++ ri)) ((process l).1 ++ [.poll 0 rb, .poll 1 ri]) ⟨rest, []⟩
  /-- `poll` when the submission of the queued requests fails (device.rs:181-192): they are reported as failed -/
  | pollRefused (z : Lazy) (l : List (RW × Bool)) (rest : List RW) (rb ri : List (Nat × Bool)) : refusals = true →
      z.queue = l.map Prod.fst ++ rest →
      Step refusals z (.poll 0 (z.fin ++ (process l).2 ++ ((l.filter Prod.snd).map fun p => (p.1.id, false)) ++ rb ++ ri))
        ((process l).1 ++ [.poll 0 rb, .poll 1 ri]) ⟨rest, []⟩
  | alloc (z : Lazy) (b n : Nat) : Step refusals z (.alloc b n) [.alloc b n] z
  | free (z : Lazy) (b : Nat) : Step refusals z (.free b) [.free b] z
  | touch (z : Lazy) (b : Nat) : Step refusals z (.touch b) [.touch b] z

/-- Runs of the lazy channel (device.rs:196-327): calls above, what happens below. -/
inductive Lazy.Run (refusals : Bool) : List Ev → List Ev → Lazy → Prop where
  | nil : Lazy.Run refusals [] [] ⟨[], []⟩
  | snoc {us ls es : List Ev} {e : Ev} {z z' : Lazy} : Lazy.Run refusals us ls z → Lazy.Step refusals z e es z' →
      Lazy.Run refusals (us ++ [e]) (ls ++ es) z'

/-- What happens below a lazy channel (device.rs:196-327) used by `P`. -/
def viaLazy (refusals : Bool) (P : List Ev → Prop) (tr : List Ev) : Prop := ∃ us ls z, P us ∧ Lazy.Run refusals us ls z ∧ tr <+: ls

/-- What happens below encrypting channels (bdev_crypt.rs:29-79) used by `P`. -/
def viaCrypt (on : Nat → Bool) (P : List Ev → Prop) (tr : List Ev) : Prop := ∃ us, P us ∧ tr <+: crypts on (fun _ _ => none) us

end Verif.Lend
