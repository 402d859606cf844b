import Verif.Model.Vhost

/-! # The ublk front end

Models `/repo/src/backends/ublk/io_handler.rs` and `UblkOp`, `UblkIoRequest` of `/repo/src/backends/ublk/mod.rs:21-46`.

Outside the model: `libublk` (it delivers each request the kernel issues on a tag through `handle`, and hands a completion
with the tag's buffer back to the kernel), device set-up, symlinks, logging. The kernel does not issue a request on a tag
that is not completed. The I/O channel accepts requests and reports each once; after a failed `submit` it may still report
them later, as the io_uring channel does (bdev_uring.rs:123-134: what was queued stays in the submission queue). Byte
counts are numbers (`bytes as i32` is exact: `max_io_bytes` is at most `seg_size_max` ≤ 2^20, rounded by the kernel). -/

namespace Verif.Ublk
open Verif Verif.Metadata Verif.Disk Verif.Vhost

/-- `UblkOp` (mod.rs:21-27). -/
inductive Op where
  | read | write | flush | unsupported
deriving DecidableEq

/-- `UblkOp::from_raw` (mod.rs:29-38) of `op_flags & 0xff` (io_handler.rs:70); UBLK_IO_OP_READ, WRITE and FLUSH are
0, 1 and 2. -/
def Op.ofRaw (flags : Nat) : Op :=
  let op := flags % 256
  if op = 0 then .read else if op = 1 then .write else if op = 2 then .flush else .unsupported

/-- `UblkIoRequest` (mod.rs:40-47); `bytes` is `cnt * 512`. -/
structure Rq where
  op : Op
  off : Nat
  cnt : Nat
  tag : Nat
  bytes : Nat

/-- What is observable (io_handler.rs:64-245): a request of the kernel (with its raw `op_flags`), a request to the
channel, a completion with the byte count (`none` for a negative error) and the contents of the tag's buffer. -/
inductive UEv where
  | arrive (flags : Nat) (rq : Rq)
  | dev (id : Nat) (q : DevReq)
  | complete (tag : Nat) (res : Option Nat) (buf : Bytes)

/-- `UblkIoHandler` (io_handler.rs:25-33) with the channel's unreported requests and, as a record of what the kernel is
waiting for, `out`. `looping`: inside `process_pending_requests`; `queued`: its variable of that name. -/
structure Ub where
  pending : List Rq
  inflight : Nat → Option Rq
  back : Nat → Bytes
  bufs : Nat → Bytes
  chan : List (Nat × DevReq)
  queued : Bool
  looping : Bool
  out : Nat → Option Rq

/-- `new` (io_handler.rs:36-62). -/
def Ub.init (maxIo : Nat) : Ub :=
  { pending := [], inflight := fun _ => none, back := fun _ => zeros maxIo, bufs := fun _ => zeros maxIo, chan := [], queued := false,
    looping := false, out := fun _ => none }

/-- `complete_io_cmd_unified` (library libublk; called in io_handler.rs:64-245): the kernel stops waiting for the tag.
-/
def finish (u : Ub) (tag : Nat) (res : Option Nat) : Ub × List UEv :=
  ({ u with out := upd u.out tag none }, [.complete tag res (u.bufs tag)])

/-- `handle` (io_handler.rs:64-96), for a request the kernel has put into the tag's buffer `data`. -/
def handle (maxIo : Nat) (u : Ub) (flags off cnt tag : Nat) (last : Bool) (data : Bytes) : Ub × List UEv :=
  let rq : Rq := ⟨Op.ofRaw flags, off, cnt, tag, cnt * 512⟩
  let u := { u with bufs := upd u.bufs tag data, out := upd u.out tag (some rq) }
  if rq.bytes > maxIo then
    let (u, es) := finish u tag none
    (u, .arrive flags rq :: es)
  else
    ({ u with pending := u.pending ++ [rq], looping := last }, [.arrive flags rq])

/-- What `enqueue_request` (io_handler.rs:98-146) asks of the channel; `none` is `Err(Invalid)`. -/
def devReq (u : Ub) (rq : Rq) : Option DevReq :=
  if rq.bytes > (u.back rq.tag).length ∨ rq.bytes > (u.bufs rq.tag).length then none
  else
    match rq.op with
    | .read => some (.read rq.off rq.cnt)
    | .write => some (.write rq.off rq.cnt ((u.bufs rq.tag).take rq.bytes))
    | .flush => some .flush
    | .unsupported => none

/-- One iteration of the inner loop over pending requests (io_handler.rs:175-192). -/
def enqueue (u : Ub) (rq : Rq) : Ub × List UEv :=
  match devReq u rq with
  | none => finish u rq.tag none
  | some q =>
    let back := if rq.op = .write then upd u.back rq.tag (splice (u.back rq.tag) 0 ((u.bufs rq.tag).take rq.bytes)) else u.back
    ({ u with chan := u.chan ++ [(rq.tag, q)], inflight := upd u.inflight rq.tag (some rq), back, queued := true }, [.dev rq.tag q])

/-- `complete_request` (io_handler.rs:148-169): the tag's buffer and the result. -/
def completeRequest (u : Ub) (rq : Rq) (success : Bool) : Ub × Option Nat :=
  if !success then (u, none)
  else
    match rq.op with
    | .read => ({ u with bufs := upd u.bufs rq.tag (splice (u.bufs rq.tag) 0 ((u.back rq.tag).take rq.bytes)) }, some rq.bytes)
    | .write => (u, some rq.bytes)
    | .flush => (u, some 0)
    | .unsupported => (u, none)

/-- One iteration of the loop over reported requests (io_handler.rs:212-241). -/
def report (u : Ub) (id : Nat) (success : Bool) : Ub × List UEv :=
  match u.inflight id with
  | none => (u, [])
  | some rq =>
    let (u, res) := completeRequest { u with inflight := upd u.inflight id none } rq success
    finish u id res

/-- Completing everything in flight after a failed `submit` (io_handler.rs:195-208), for the given tags. -/
def failAll : Ub → List Nat → Ub × List UEv
  | u, [] => (u, [])
  | u, tag :: tags =>
    match u.inflight tag with
    | none => failAll u tags
    | some _ =>
      let (u, es) := finish { u with inflight := upd u.inflight tag none } tag none
      let (u, es') := failAll u tags
      (u, es ++ es')

/-- Steps of a handler (io_handler.rs:64-245). `fails` says whether `submit` may fail; `depth` is the queue depth. -/
inductive Step (maxIo depth : Nat) (fails : Bool) : Ub → List UEv → Ub → Prop where
  /-- the kernel issues a request on a free tag -/
  | arrive (u : Ub) (flags off cnt tag : Nat) (last : Bool) (data : Bytes) : u.looping = false → u.out tag = none → tag < depth →
      data.length = maxIo → Step maxIo depth fails u (handle maxIo u flags off cnt tag last data).2 (handle maxIo u flags off cnt tag last data).1
  /-- the next pending request is taken -/
  | enqueue (u : Ub) (rq : Rq) (rest : List Rq) : u.looping = true → u.pending = rq :: rest →
      Step maxIo depth fails u (enqueue { u with pending := rest } rq).2 (enqueue { u with pending := rest } rq).1
  /-- `submit` succeeds (or nothing was queued) -/
  | submit (u : Ub) : u.looping = true → u.pending = [] → Step maxIo depth fails u [] { u with queued := false }
  /-- `submit` fails -/
  | submitFail (u : Ub) : fails = true → u.looping = true → u.pending = [] → u.queued = true →
      Step maxIo depth fails u (failAll { u with queued := false, looping := false } (List.range depth)).2
        (failAll { u with queued := false, looping := false } (List.range depth)).1
  /-- the channel reports a request; a read has put `data` into the beginning of the backend buffer -/
  | report (u : Ub) (pre post : List (Nat × DevReq)) (id : Nat) (q : DevReq) (data : Bytes) (success : Bool) : u.looping = true →
      u.pending = [] → u.queued = false → u.chan = pre ++ (id, q) :: post → q.filled data →
      Step maxIo depth fails u
        (report { u with chan := pre ++ post, back := upd u.back id (data ++ (u.back id).drop data.length) } id success).2
        (report { u with chan := pre ++ post, back := upd u.back id (data ++ (u.back id).drop data.length) } id success).1
  /-- nothing pending and the channel idle: the loop ends -/
  | exit (u : Ub) : u.looping = true → u.pending = [] → u.queued = false → u.chan = [] →
      Step maxIo depth fails u [] { u with looping := false }

/-- Runs of a new handler (io_handler.rs:36-62). -/
inductive Run (maxIo depth : Nat) (fails : Bool) : List UEv → Ub → Prop where
  | nil : Run maxIo depth fails [] (Ub.init maxIo)
  | snoc {es es' : List UEv} {u u' : Ub} : Run maxIo depth fails es u → Step maxIo depth fails u es' u' →
      Run maxIo depth fails (es ++ es') u'

end Verif.Ublk
