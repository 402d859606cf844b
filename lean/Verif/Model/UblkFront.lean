import Verif.Model.Ublk
import Verif.Model.Front
import Verif.Spec.UblkFront

/-! # The queues of a ublk device

One handler (Model/Ublk) for every queue, each with its own channel of the volume
(`/repo/src/backends/ublk/mod.rs:231-279`). What the handlers exchange with the volume
is a list of events, so that any disk can be put underneath; ids are tags. Submissions are taken to succeed. -/

namespace Verif.Ublk
open Verif Verif.Metadata Verif.Disk Verif.Vhost

/-- The handlers (mod.rs:231-279), completions that `poll` of a channel has returned and the loop has not reached
(io_handler.rs:212-241), and - on the kernel's side - the last request on each tag. -/
structure KFront where
  qs : Nat → Ub
  box : Nat × Nat → Option (Bool × List (Option Bytes))
  asked : Nat × Nat → Ask

/-- Calls of the channel of queue `q` (io_handler.rs:98-146). -/
def kcalls (q : Nat) (es : List UEv) : List (Ev Bytes) :=
  es.filterMap fun e => match e with | .dev id r => some (.issue q id r.toReq) | _ => none

/-- Completions of a step, as the kernel sees them (`complete_io_cmd_unified`, io_handler.rs:64-245). -/
def comps (f : KFront) (q : Nat) (es : List UEv) : List KLab :=
  es.filterMap fun e => match e with
    | .complete tag res buf => some (.completed q tag (f.asked (q, tag)) res buf)
    | _ => none

/-- New handlers (io_handler.rs:36-62). -/
def KFront.init (maxIo : Nat) : KFront :=
  { qs := fun _ => Ub.init maxIo, box := fun _ => none, asked := fun _ => ⟨0, 0, 0, []⟩ }

/-- One step (io_handler.rs:64-245, as cited at `Step` in Model/Ublk), with what happens at the queues and what the
volume sees. -/
inductive KStep (maxIo depth : Nat) : KFront → List KLab → List (Ev Bytes) → KFront → Prop where
  /-- the kernel hands over a request on a free tag (`handle`) -/
  | arrive (f : KFront) (q : Nat) (a : Ask) (tag : Nat) (last : Bool) (hl : (f.qs q).looping = false) (ho : (f.qs q).out tag = none)
      (ht : tag < depth) (hd : a.data.length = maxIo) :
      KStep maxIo depth f
        (.asked q tag a ::
          comps { f with asked := upd f.asked (q, tag) a } q (handle maxIo (f.qs q) a.flags a.off a.cnt tag last a.data).2)
        (kcalls q (handle maxIo (f.qs q) a.flags a.off a.cnt tag last a.data).2)
        { f with qs := upd f.qs q (handle maxIo (f.qs q) a.flags a.off a.cnt tag last a.data).1, asked := upd f.asked (q, tag) a }
  /-- the next pending request is taken (`enqueue_request`) -/
  | enqueue (f : KFront) (q : Nat) (rq : Rq) (rest : List Rq) (hl : (f.qs q).looping = true) (hp : (f.qs q).pending = rq :: rest) :
      KStep maxIo depth f (comps f q (enqueue { f.qs q with pending := rest } rq).2) (kcalls q (enqueue { f.qs q with pending := rest } rq).2)
        { f with qs := upd f.qs q (enqueue { f.qs q with pending := rest } rq).1 }
  /-- `submit` (nothing is refused) -/
  | submit (f : KFront) (q : Nat) (hl : (f.qs q).looping = true) (hp : (f.qs q).pending = []) :
      KStep maxIo depth f [] [] { f with qs := upd f.qs q { f.qs q with queued := false } }
  /-- `poll` of a channel returns a completion -/
  | deliver (f : KFront) (q id : Nat) (ok : Bool) (data : List (Option Bytes)) (hb : f.box (q, id) = none) :
      KStep maxIo depth f [] [.resp q id ok data] { f with box := upd f.box (q, id) (some (ok, data)) }
  /-- it is handled. `buf` is what the channel has put into the tag's backend buffer: for a successful read 512 bytes per sector -/
  | report (f : KFront) (q id : Nat) (ok : Bool) (data : List (Option Bytes)) (buf : Bytes) (pre post : List (Nat × DevReq)) (dq : DevReq)
      (hb : f.box (q, id) = some (ok, data)) (hl : (f.qs q).looping = true) (hp : (f.qs q).pending = []) (hq : (f.qs q).queued = false)
      (hc : (f.qs q).chan = pre ++ (id, dq) :: post) (hf : dq.filled buf)
      (hd : ok = true → (∀ b ∈ data, ∃ s, b = some s ∧ s.length = 512) ∧ buf = data.flatMap fun b => b.getD []) :
      KStep maxIo depth f
        (comps f q (report { f.qs q with chan := pre ++ post,
                                         back := upd (f.qs q).back id (buf ++ ((f.qs q).back id).drop buf.length) } id ok).2) []
        { f with qs := upd f.qs q (report { f.qs q with chan := pre ++ post,
                                                        back := upd (f.qs q).back id (buf ++ ((f.qs q).back id).drop buf.length) } id ok).1
                 box := upd f.box (q, id) none }
  /-- the loop of `process_pending_requests` ends -/
  | exit (f : KFront) (q : Nat) (hl : (f.qs q).looping = true) (hp : (f.qs q).pending = []) (hq : (f.qs q).queued = false)
      (hc : (f.qs q).chan = []) :
      KStep maxIo depth f [] [] { f with qs := upd f.qs q { f.qs q with looping := false } }
  /-- a power loss; the host and the backend start again -/
  | crash (f : KFront) : KStep maxIo depth f [.crash] [.crash] (KFront.init maxIo)

/-- Runs of the handlers of all queues (mod.rs:231-279), power losses included. -/
inductive KRun (maxIo depth : Nat) : List KLab → List (Ev Bytes) → KFront → Prop where
  | nil : KRun maxIo depth [] [] (KFront.init maxIo)
  | step {ls ls' : List KLab} {es es' : List (Ev Bytes)} {f f' : KFront} : KRun maxIo depth ls es f →
      KStep maxIo depth f ls' es' f' → KRun maxIo depth (ls ++ ls') (es ++ es') f'

end Verif.Ublk
