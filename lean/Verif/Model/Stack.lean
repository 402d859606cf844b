import Verif.Model.Lazy
import Verif.Model.Crypt

/-! # The layers of a volume, each on its own

Model/Lazy describes the lazily fetched disk together with its two devices. Here the same code is an open system: it hands
requests to the data device and the metadata device, and takes the completions that `poll` delivers, when it gets round
to it. What it exchanges with each device is a list of events, so that any device can be put underneath: the encrypting
channel (below) and one of the engines (Model/Uring, Model/SyncIo), as `build_block_device` stacks them
(backends/common/mod.rs:486-519).

Submissions are taken to succeed here (`submitOk = true`); what a failed one does is described with C66. -/

namespace Verif.Stack
open Verif Verif.Metadata Verif.Disk Verif.Lazy

variable {D : Type}

/-! ## The lazily fetched disk -/

/-- Channel of the data device and request id: the fetcher has a channel of its own and uses stripe numbers
(stripe_fetcher.rs:54, 240-253), every guest queue has one and uses the guest's ids (device.rs:358-366, 212, 264). -/
def addr : Owner → Nat × Nat
  | .fetch k => (0, k)
  | .guest q id => (q + 1, id)

/-- The flusher's requests to the metadata device: one channel, stripe numbers as ids (metadata_flusher.rs:60, 213-221). -/
def maddr (k : Nat) : Nat × Nat := (0, k)

/-- The request a waiting or direct guest request becomes at the data device (device.rs:160-176, 212, 263-264). -/
def reqOf (r : QReq D) : Req D :=
  match r.out with
  | none => .read r.off r.cnt
  | some data => .write r.off r.cnt data

/-- Requests handed to the data device by a step: guest requests that need not wait (any more), guest flushes
(device.rs:299-301), and the fetcher's write of the buffer the source has filled (stripe_fetcher.rs:240-259). -/
def handed (c : Cfg D) (s : Sys D) : Lab D → List (Owner × Req D)
  | .toBase q r => [(.guest q r.id, reqOf r)]
  | .ev (.issue q id .flush) => [(.guest q id, .flush)]
  | .fetchWrite k =>
    match s.fe.alloc k with
    | some b => [(.fetch k, .write (k * c.ss) (stripeLen c k) fun x => fillBuf c k (s.fe.bufs b) (x - k * c.ss))]
    | none => []
  | _ => []

/-- Requests handed to the metadata device by a step: the sector with the changed header (metadata_flusher.rs:184-228). -/
def handedMeta (s : Sys D) : Act D → List (Nat × Req Bytes)
  | .startMeta _ =>
    match s.fl.queue with
    | (k, mask) :: _ =>
      if flag (s.fl.hdrs.getD k 0) mask then []
      else [(k, .write (stripeIdToSector k) 1 fun _ =>
        writeSector (groupHeaders (s.fl.hdrs.set k (s.fl.hdrs.getD k 0 ||| mask)) (stripeIdToGroup k)))]
    | [] => []
  | _ => []

/-- The steps of the lazy disk that neither belong to a device nor handle a completion of one: calls of the lazy
channel (device.rs:131-345) and the turns of the background worker (bgworker.rs, stripe_fetcher.rs,
metadata_flusher.rs). No counterpart in the code: a classification of the actions of Model/Lazy. -/
def isCall : Act D → Bool
  | .read .. | .write .. | .flush .. | .processQueue _ true | .reportFinished _ | .imageDone .. | .receive | .autofetch
  | .startFetch _ | .sourceDone _ _ true _ | .takeFinished | .startMeta true | .disconnect => true
  | _ => false

/-- The running backend (backends/common/mod.rs:135-183). In `s` the two devices are only tables of the requests in
flight: no step here transfers a sector or looks at a content. `tbox` and `mbox` are the completions `poll` has
returned (device.rs:314, stripe_fetcher.rs:214, metadata_flusher.rs:124) that have not been handled yet. -/
structure Up (D : Type) where
  s : Sys D
  tbox : Owner → Option (Bool × List (Option D))
  mbox : Nat → Option (Bool × List (Option Bytes))

/-- The backend: not started, loading the metadata (metadata/load.rs:11-36), running. -/
inductive Host (D : Type) where
  | down
  | loading
  | up (u : Up D)

/-- Channel and id of the read of the metadata at start-up (metadata/load.rs:21-30). -/
def loaderAddr : Nat × Nat := (1, 0)

/-- The buffer after a read of whole sectors (metadata/load.rs:21-32). -/
def bytesOf (data : List (Option Bytes)) : Bytes := data.flatMap fun d => d.getD []

/-- Events of the data device: the `add_*` calls on its channels (device.rs:160-176, 212, 264, 299-301,
stripe_fetcher.rs:240-270). -/
def issues (l : List (Owner × Req D)) : List (Ev D) := l.map fun p => .issue (addr p.1).1 (addr p.1).2 p.2

/-- Events of the metadata device: the `add_*` calls on its channel (metadata_flusher.rs:124-228). -/
def metaIssues (l : List (Nat × Req Bytes)) : List (Ev Bytes) := l.map fun p => .issue (maddr p.1).1 (maddr p.1).2 p.2

/-- One step (device.rs:131-345, stripe_fetcher.rs:214-270, metadata_flusher.rs:124-228, metadata/load.rs:11-36, as cited at the cases), with what is
seen of it by the guest (`visible` of the labels), by the data device and by the metadata device. -/
inductive OStep (c : Cfg D) : Host D → List (Lab D) → List (Ev D) → List (Ev Bytes) → Host D → Prop where
  /-- `load_from_bdev` reads the whole metadata device (metadata/load.rs:12-30) -/
  | start : OStep c .down [] [] [.issue loaderAddr.1 loaderAddr.2 (.read 0 c.msec)] .loading
  /-- the metadata are there and load; the backend starts with them (load.rs:32-36, backends/common/mod.rs:135-183). The
  contents of the tables' devices and of the fresh buffers do not matter. -/
  | loaded (data : List (Option Bytes)) (md : Meta) (tv : Nat → D) (mv : Nat → Bytes) (b0 : Nat → Nat → D)
      (h : fromBytes (bytesOf data) = .ok md) :
      OStep c .loading [] [] [.resp loaderAddr.1 loaderAddr.2 true data]
        (.up { s := Sys.boot c md.headers tv mv b0, tbox := fun _ => none, mbox := fun _ => none })
  /-- the read fails, or the metadata do not load: the backend ends with an error -/
  | loadFailed (ok : Bool) (data : List (Option Bytes)) (h : ok = true → ∀ md, fromBytes (bytesOf data) ≠ .ok md) :
      OStep c .loading [] [] [.resp loaderAddr.1 loaderAddr.2 ok data] .down
  /-- a guest call, or a step of the background worker -/
  | call (u : Up D) (a : Act D) (ls : List (Lab D)) (s' : Sys D) (ha : isCall a = true) (h : Step c u.s a ls s') :
      OStep c (.up u) ls (issues (ls.flatMap (handed c u.s))) (metaIssues (handedMeta u.s a)) (.up { u with s := s' })
  /-- `poll` of a channel of the data device returns a completion -/
  | deliver (u : Up D) (o : Owner) (ok : Bool) (data : List (Option D)) (h : u.tbox o = none) :
      OStep c (.up u) [] [.resp (addr o).1 (addr o).2 ok data] [] (.up { u with tbox := upd u.tbox o (some (ok, data)) })
  | deliverMeta (u : Up D) (k : Nat) (ok : Bool) (data : List (Option Bytes)) (h : u.mbox k = none) :
      OStep c (.up u) [] [] [.resp (maddr k).1 (maddr k).2 ok data] (.up { u with mbox := upd u.mbox k (some (ok, data)) })
  /-- `poll` of the lazy channel passes a completion on to the guest (device.rs:314) -/
  | handleGuest (u : Up D) (q id : Nat) (ok : Bool) (data : List (Option D)) (h : u.tbox (.guest q id) = some (ok, data)) :
      OStep c (.up u) [.ev (.resp q id ok data)] [] []
        (.up { u with s := { u.s with t := u.s.t.complete (.guest q id) ok }, tbox := upd u.tbox (.guest q id) none })
  /-- the fetcher handles a completion; after the write it asks for a flush (stripe_fetcher.rs:214-237, 261-270) -/
  | handleFetch (u : Up D) (k : Nat) (ok : Bool) (data : List (Option D)) (h : u.tbox (.fetch k) = some (ok, data)) :
      OStep c (.up u) (targetDone u.s k ok true).2
        (issues (if ok && u.s.fe.states k = some .fetching then [(.fetch k, .flush)] else [])) []
        (.up { u with s := (targetDone u.s k ok true).1, tbox := upd u.tbox (.fetch k) none })
  /-- the flusher handles a completion; after the write it asks for a flush (metadata_flusher.rs:124-178) -/
  | handleMeta (u : Up D) (k : Nat) (ok : Bool) (data : List (Option Bytes)) (h : u.mbox k = some (ok, data)) :
      OStep c (.up u) [] []
        (metaIssues (if ok && (u.s.fl.updates k).map Update.stage = some .writing then [(k, .flush)] else []))
        (.up { u with s := metaDone u.s k ok true, mbox := upd u.mbox k none })
  /-- a power loss -/
  | crash (h : Host D) : OStep c h [.ev .crash] [.crash] [.crash] .down

/-- Runs of the backend from its first start (backends/common/mod.rs:135-183), power losses included. -/
inductive ORun (c : Cfg D) : List (Lab D) → List (Ev D) → List (Ev Bytes) → Host D → Prop where
  | nil : ORun c [] [] [] .down
  | step {ls ls' : List (Lab D)} {et et' : List (Ev D)} {em em' : List (Ev Bytes)} {h h' : Host D} :
      ORun c ls et em h → OStep c h ls' et' em' h' → ORun c (ls ++ ls') (et ++ et') (em ++ em') h'

/-! ## The encrypting channel -/

section Crypt
open Verif.Crypt

/-- One step of the encrypting channels of a device: events above (plaintext) and below (what the base device sees). The
state is the table of recorded reads (`CryptIoChannel`, bdev_crypt.rs:13-17). Buffers are 512 bytes per sector. -/
inductive CryptStep (p : Xts) (k : Keys) :
    (Nat × Nat → Option (Nat × Nat)) → List (Ev Bytes) → List (Ev Sector) → (Nat × Nat → Option (Nat × Nat)) → Prop where
  /-- bdev_crypt.rs:30-42 -/
  | read (rd) (c id off cnt : Nat) :
      CryptStep p k rd [.issue c id (.read off cnt)] [.issue c id (.read off cnt)] (upd rd (c, id) (some (off, cnt)))
  /-- bdev_crypt.rs:43-51: `data` is what the caller's buffer `buf` holds for each sector -/
  | write (rd) (c id off cnt : Nat) (data : Nat → Bytes) (buf buf' : Bytes)
      (hb : ∀ j, j < cnt → (data (off + j)) = slice buf (j * 512) 512) (he : encrypt p k buf off cnt = .ok buf') :
      CryptStep p k rd [.issue c id (.write off cnt data)] [.issue c id (.write off cnt (bufData buf' off cnt))] rd
  /-- bdev_crypt.rs:53-55 -/
  | flush (rd) (c id : Nat) : CryptStep p k rd [.issue c id .flush] [.issue c id .flush] rd
  /-- a successful read: decrypted in place (bdev_crypt.rs:61-80) -/
  | readDone (rd) (c id off cnt : Nat) (data : List (Option Sector)) (out : Bytes) (hr : rd (c, id) = some (off, cnt))
      (hd : decrypt p k (readBuf data) off cnt = .ok out) :
      CryptStep p k rd [.resp c id true ((List.range cnt).map fun j => some (slice out (j * 512) 512))] [.resp c id true data]
        (upd rd (c, id) none)
  /-- any other completion is passed on; nobody looks at the buffer of a failed read -/
  | done (rd) (c id : Nat) (ok : Bool) (data : List (Option Sector)) (hr : ok = true → rd (c, id) = none) :
      CryptStep p k rd [.resp c id ok []] [.resp c id ok data] (upd rd (c, id) none)
  | crash (rd) : CryptStep p k rd [.crash] [.crash] fun _ => none

/-- Runs of the encrypting channels (bdev_crypt.rs:13-90) of a device. -/
inductive CryptRun (p : Xts) (k : Keys) : List (Ev Bytes) → List (Ev Sector) → (Nat × Nat → Option (Nat × Nat)) → Prop where
  | nil : CryptRun p k [] [] fun _ => none
  | step {es es' : List (Ev Bytes)} {ws ws' : List (Ev Sector)} {rd rd' : Nat × Nat → Option (Nat × Nat)} :
      CryptRun p k es ws rd → CryptStep p k rd es' ws' rd' → CryptRun p k (es ++ es') (ws ++ ws') rd'

end Crypt

end Verif.Stack
