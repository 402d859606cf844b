import Verif.Model.Tracker
import Verif.Model.Ublk

/-! # The front ends' calls of the I/O tracker

Models where `/repo/src/backends/vhost/backend_thread.rs` and `/repo/src/backends/ublk/io_handler.rs` call the tracker of
`/repo/src/backends/common/io_tracking.rs` (`Model/Tracker`), beside the steps of `Model/Vhost` and `Model/Ublk`. The calls of one step are
made together: the RPC thread is not modelled as looking in the middle of a step. -/

namespace Verif.Vhost
open Verif Verif.Metadata Verif.Disk

/-- Calls while a chain is processed: `process_read` (backend_thread.rs:260-284), `process_write` (286-336, with `put_request_slot`,
154-157, if guest memory cannot be read), `process_flush` (338-347); the other branches of `process_queue` (390-418) make none. -/
def chainCalls (v : Vq) (head : Nat) (descs : List Desc) : List Tracker.Call :=
  let c : Chain := ⟨v.popped, head, descs⟩
  let v := { v with popped := v.popped + 1 }
  match parse v.mem descs with
  | .error _ => []
  | .ok r =>
    let len := requestLen r
    match r.ty with
    | .in => if len % 512 ≠ 0 then [] else [.read (getSlot v len r c).2 r.sector (len / 512)]
    | .out =>
      if len % 512 ≠ 0 then []
      else
        let (v, id) := getSlot v len r c
        match gather v.mem r.data 0 (((v.slots[id]?).map Slot.buf).getD []) false with
        | .panic => []
        | .ok (_, failed) => if failed then [.clear id] else [.write id r.sector (len / 512)]
    | .flush => [.flush (getSlot v 0 r c).2]
    | .getId => []
    | .other => []

/-- Calls while a report of the channel is handled: `put_request_slot` at the end of the loop of `poll_io` (backend_thread.rs:248,
154-157). -/
def pollCalls (id : Nat) : List Tracker.Call := [.clear id]

/-- Steps of the backend thread (backend_thread.rs:387-452) with its calls of the tracker. -/
inductive CStep (deviceId : Bytes) : Vq → List VEv → List Tracker.Call → Vq → Prop where
  | guest (v : Vq) (bytes : Nat → UInt8) : CStep deviceId v [] [] { v with mem := { v.mem with bytes } }
  | pop (v v' : Vq) (head : Nat) (descs : List Desc) (es : List VEv) (hlen : ∀ d ∈ descs, d.len < 2 ^ 32) :
      processChain deviceId v head descs = .ok (v', es) →
      CStep deviceId v (.popped v.popped head descs :: es) (chainCalls v head descs) v'
  | poll (v v' : Vq) (id : Nat) (q : DevReq) (data : Bytes) (success : Bool) (es : List VEv) : v.inflight id = some q →
      q.filled data → pollOne (devDone v id data) id success = .ok (v', es) → CStep deviceId v es (pollCalls id) v'
  | notify (v : Vq) : CStep deviceId v (if v.pendingSignal then [.signal] else []) [] { v with pendingSignal := false }

/-- Runs of the backend thread (backend_thread.rs:387-452) with its calls of the tracker. -/
inductive CRun (deviceId : Bytes) : Vq → List VEv → List Tracker.Call → Vq → Prop where
  | nil (v : Vq) : CRun deviceId v [] [] v
  | snoc {v v' v'' : Vq} {es es' : List VEv} {cs cs' : List Tracker.Call} : CRun deviceId v es cs v' → CStep deviceId v' es' cs' v'' →
      CRun deviceId v (es ++ es') (cs ++ cs') v''

end Verif.Vhost

namespace Verif.Ublk
open Verif Verif.Metadata Verif.Disk Verif.Vhost

/-- Calls of `enqueue_request` (io_handler.rs:98-146): none for a request it refuses. -/
def enqueueCalls (u : Ub) (rq : Rq) : List Tracker.Call :=
  if rq.bytes > (u.back rq.tag).length ∨ rq.bytes > (u.bufs rq.tag).length then []
  else
    match rq.op with
    | .read => [.read rq.tag rq.off rq.cnt]
    | .write => [.write rq.tag rq.off rq.cnt]
    | .flush => [.flush rq.tag]
    | .unsupported => []

/-- Calls while a report of the channel is handled (io_handler.rs:212-224): none for a request that is not known. -/
def reportCalls (u : Ub) (id : Nat) : List Tracker.Call :=
  match u.inflight id with
  | none => []
  | some _ => [.clear id]

/-- Steps of a handler (io_handler.rs:64-245) with its calls of the tracker: a failed `submit` (195-208) makes none. -/
inductive CStep (maxIo depth : Nat) (fails : Bool) : Ub → List UEv → List Tracker.Call → Ub → Prop where
  | arrive (u : Ub) (flags off cnt tag : Nat) (last : Bool) (data : Bytes) : u.looping = false → u.out tag = none → tag < depth →
      data.length = maxIo →
      CStep maxIo depth fails u (handle maxIo u flags off cnt tag last data).2 [] (handle maxIo u flags off cnt tag last data).1
  | enqueue (u : Ub) (rq : Rq) (rest : List Rq) : u.looping = true → u.pending = rq :: rest →
      CStep maxIo depth fails u (enqueue { u with pending := rest } rq).2 (enqueueCalls { u with pending := rest } rq)
        (enqueue { u with pending := rest } rq).1
  | submit (u : Ub) : u.looping = true → u.pending = [] → CStep maxIo depth fails u [] [] { u with queued := false }
  | submitFail (u : Ub) : fails = true → u.looping = true → u.pending = [] → u.queued = true →
      CStep maxIo depth fails u (failAll { u with queued := false, looping := false } (List.range depth)).2 []
        (failAll { u with queued := false, looping := false } (List.range depth)).1
  | report (u : Ub) (pre post : List (Nat × DevReq)) (id : Nat) (q : DevReq) (data : Bytes) (success : Bool) : u.looping = true →
      u.pending = [] → u.queued = false → u.chan = pre ++ (id, q) :: post → q.filled data →
      CStep maxIo depth fails u
        (report { u with chan := pre ++ post, back := upd u.back id (data ++ (u.back id).drop data.length) } id success).2
        (reportCalls u id)
        (report { u with chan := pre ++ post, back := upd u.back id (data ++ (u.back id).drop data.length) } id success).1
  | exit (u : Ub) : u.looping = true → u.pending = [] → u.queued = false → u.chan = [] →
      CStep maxIo depth fails u [] [] { u with looping := false }

/-- Runs of a new handler (io_handler.rs:36-62) with its calls of the tracker. -/
inductive CRun (maxIo depth : Nat) (fails : Bool) : List UEv → List Tracker.Call → Ub → Prop where
  | nil : CRun maxIo depth fails [] [] (Ub.init maxIo)
  | snoc {es es' : List UEv} {cs cs' : List Tracker.Call} {u u' : Ub} : CRun maxIo depth fails es cs u →
      CStep maxIo depth fails u es' cs' u' → CRun maxIo depth fails (es ++ es') (cs ++ cs') u'

end Verif.Ublk
