import Verif.Model.Vhost
import Verif.Spec.Front

/-! # The virtqueues of a volume

One backend thread (Model/Vhost) for every queue, all working on the same guest memory and each with its own channel of the
volume (backend.rs:67-77). What the threads exchange with the volume is a list of events, so that any disk can be put
underneath; ids are slot numbers. Submissions are taken to succeed. When a client has gone the next one is served by new threads with
new channels of the same volume (backend_loop.rs:22-83, common/mod.rs:320-323); they get new queue numbers here, and nothing more is
heard of requests the gone client's channels still had. Simplified: a step of a thread sees guest memory as it is at
one moment, although copying a request's buffers takes time; a guest that changes buffers it has handed over meanwhile is seen to
have done so before or after. -/

namespace Verif.Vhost
open Verif Verif.Metadata Verif.Disk

/-- The call of the channel (backend_thread.rs:273-281, 326-335, 338-347) as a request to a disk of 512-byte sectors. -/
def DevReq.toReq : DevReq → Req Bytes
  | .read sec cnt => .read sec cnt
  | .write sec cnt d => .write sec cnt fun x => sectorOf d (x - sec)
  | .flush => .flush

/-- Calls of the channel of queue `q` (backend_thread.rs:273-281, 326-335, 338-347), as events of the volume. -/
def calls (q : Nat) (es : List VEv) : List (Ev Bytes) :=
  es.filterMap fun e => match e with | .dev id r => some (.issue q id r.toReq) | _ => none

/-- The threads: guest memory, the state of each thread (whose own `mem` is not used), completions that `poll` of a channel has
returned and the loop of `poll_io` has not reached (backend_thread.rs:227-250), on the guest's side memory and
descriptors of each chain when it was taken, and the first queue of the present client (backend_loop.rs:22-83). -/
structure Front where
  mem : GMem
  qs : Nat → Vq
  box : Nat × Nat → Option (Bool × List (Option Bytes))
  chains : Nat × Nat → GMem × List Desc
  first : Nat

/-- The thread of a queue, with the guest memory all threads share (backend_thread.rs:47-59). -/
def Front.at (f : Front) (q : Nat) : Vq := { f.qs q with mem := f.mem }

/-- Chains returned by a step (`complete_io`, backend_thread.rs:181-200), as the guest sees them. -/
def returns (f : Front) (q : Nat) (m : GMem) (es : List VEv) : List FLab :=
  es.filterMap fun e => match e with
    | .returned n _ st => some (.returned q n (f.chains (q, n)).1 (f.chains (q, n)).2 st m)
    | _ => none

/-- New threads (backend_thread.rs:72-116), on any guest memory. -/
def Front.init (mem : GMem) (queueSize bufSize : Nat) : Front :=
  { mem, qs := fun _ => Vq.init mem queueSize bufSize, box := fun _ => none, chains := fun _ => (mem, []), first := 0 }

/-- One step, with what happens at the queues and what the volume sees: one iteration of a loop of `process_queue`
(backend_thread.rs:387-452) or `poll_io` (227-250), or a move of the guest. -/
inductive FStep (deviceId : Bytes) (queueSize bufSize : Nat) : Front → List FLab → List (Ev Bytes) → Front → Prop where
  /-- the guest changes its memory -/
  | guest (f : Front) (bytes : Nat → UInt8) : FStep deviceId queueSize bufSize f [] [] { f with mem := { f.mem with bytes } }
  /-- a chain is taken from a queue and processed -/
  | pop (f : Front) (q head : Nat) (ds : List Desc) (v : Vq) (es : List VEv) (hq : f.first ≤ q) (hlen : ∀ d ∈ ds, d.len < 2 ^ 32)
      (h : processChain deviceId (f.at q) head ds = .ok (v, es)) :
      FStep deviceId queueSize bufSize f
        (.popped q (f.qs q).popped f.mem ds ::
          returns { f with chains := upd f.chains (q, (f.qs q).popped) (f.mem, ds) } q v.mem es)
        (calls q es)
        { f with mem := v.mem, qs := upd f.qs q v, chains := upd f.chains (q, (f.qs q).popped) (f.mem, ds) }
  /-- `poll` of a channel returns a completion -/
  | deliver (f : Front) (q id : Nat) (ok : Bool) (data : List (Option Bytes)) (hq : f.first ≤ q) (h : f.box (q, id) = none) :
      FStep deviceId queueSize bufSize f [] [.resp q id ok data] { f with box := upd f.box (q, id) (some (ok, data)) }
  /-- it is handled. `buf` is what the channel has put into the slot's buffer: for a successful read 512 bytes per sector -/
  | handle (f : Front) (q id : Nat) (ok : Bool) (data : List (Option Bytes)) (buf : Bytes) (v : Vq) (es : List VEv)
      (hq : f.first ≤ q) (hb : f.box (q, id) = some (ok, data)) (hf : ∀ r, (f.qs q).inflight id = some r → r.filled buf)
      (hd : ok = true → (∀ b ∈ data, ∃ s, b = some s ∧ s.length = 512) ∧ buf = data.flatMap fun b => b.getD [])
      (h : pollOne (devDone (f.at q) id buf) id ok = .ok (v, es)) :
      FStep deviceId queueSize bufSize f (returns f q v.mem es) []
        { f with mem := v.mem, qs := upd f.qs q v, box := upd f.box (q, id) none }
  /-- end of `process_queue` (backend_thread.rs:424-447) -/
  | notify (f : Front) (q : Nat) (hq : f.first ≤ q) : FStep deviceId queueSize bufSize f [] [] { f with qs := upd f.qs q { f.qs q with pendingSignal := false } }
  /-- the client has gone, whatever its requests have come to, and the next is served: new threads and channels for queues `m` on,
  which the last client did not use (backend_loop.rs:24-36, backend.rs:67-77) -/
  | client (f : Front) (mem : GMem) (m : Nat) (hm : f.first ≤ m) (hu : ∀ q, m ≤ q → (f.qs q).popped = 0) :
      FStep deviceId queueSize bufSize f [.client] []
        { f with mem, qs := fun q => if q < m then f.qs q else Vq.init mem queueSize bufSize, first := m }
  /-- a power loss; the backend starts again and the guest with it -/
  | crash (f : Front) (mem : GMem) : FStep deviceId queueSize bufSize f [.crash] [.crash] (Front.init mem queueSize bufSize)

/-- Runs of the threads (the polling loop of `handle_event`, backend.rs:184-249, in any order). -/
inductive FRun (deviceId : Bytes) (queueSize bufSize : Nat) (mem : GMem) : List FLab → List (Ev Bytes) → Front → Prop where
  | nil : FRun deviceId queueSize bufSize mem [] [] (Front.init mem queueSize bufSize)
  | step {ls ls' : List FLab} {es es' : List (Ev Bytes)} {f f' : Front} : FRun deviceId queueSize bufSize mem ls es f →
      FStep deviceId queueSize bufSize f ls' es' f' → FRun deviceId queueSize bufSize mem (ls ++ ls') (es ++ es') f'

end Verif.Vhost
