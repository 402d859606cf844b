import Verif.Model.LazyRefused

/-! # Refused submissions of guest requests that have waited for a stripe

`LazyIoChannel::process_queued_rw_requests` hands the requests whose stripes have arrived to the base channel and submits them; if
the submission fails it reports each of them as failed (device.rs:181-192). With the io_uring engine the entries are in the submission
queue by then and stay there (bdev_uring.rs:83, 99, 123-134); the next submission of the channel that succeeds hands them to the kernel
too. Here such entries are added to the model of the lazily fetched disk.

Simplifications: only the guests' channels are treated (`Model/LazyRefused` is about the fetcher's); the data of a left-over write are
those of the request, although the slot's buffer may be refilled by a later request before the kernel reads it. -/

namespace Verif.Lazy
open Verif Verif.Disk

variable {D : Type}

/-- The lazily fetched disk with the left-over entries of the guests' channels, each with its queue and its id: `ring` are those still in
the submission queue of their channel, `late` those the kernel is working on (the `ring` field of `UringIoChannel`,
bdev_uring.rs:13-21). -/
structure GSys (D : Type) where
  s : Sys D
  ring : List (Nat × Nat × Op D)
  late : List (Nat × Nat × Op D)

/-- The action hands something to the kernel on the channel of queue `q`: a guest request whose stripes are there
(device.rs:212, 263-264, 181-182), or a flush (device.rs:299-301). -/
def submitsOn (q : Nat) (a : Act D) (ls : List (Lab D)) : Bool :=
  (match a with | .flush q' _ => q' == q | _ => false) || ls.any fun l => match l with | .toBase q' _ => q' == q | _ => false

/-- The entry `add_read` or `add_write` pushes (bdev_uring.rs:71-103). -/
def QReq.entry (r : QReq D) : Op D :=
  match r.out with
  | none => .read r.off r.cnt fun _ => none
  | some data => .write r.off r.cnt data fun _ => false

/-- Steps of the lazy disk with refused submissions of requests that have waited (device.rs:131-193, bdev_uring.rs:123-134). -/
inductive GStep (c : Cfg D) : GSys D → List (Lab D) → GSys D → Prop where
  /-- a step of the lazy disk with accepted submissions; one on a guest's channel hands over everything in the queue of the channel -/
  | step (g : GSys D) (a : Act D) (ls : List (Lab D)) (s' : Sys D) (h : Step c g.s a ls s') (ha : a.accepted = true) :
      GStep c g ls { s := s', ring := g.ring.filter fun e => !submitsOn e.1 a ls,
                     late := g.late ++ g.ring.filter fun e => submitsOn e.1 a ls }
  /-- the submission of request `r`, which was first in the waiting queue, is refused; the guest will be told that it failed -/
  | refused (g : GSys D) (q : Nat) (r : QReq D) (rest : List (QReq D)) (ls : List (Lab D)) (s' : Sys D)
      (h : Step c g.s (.processQueue q false) ls s') (hq : (g.s.ch q).queue = r :: rest)
      (hc : fetchStatus g.s.sh (stripes c r) = .complete) :
      GStep c g ls { g with s := s', ring := g.ring ++ [(q, r.id, r.entry)] }
  /-- the kernel transfers a sector of a left-over write -/
  | exec (g : GSys D) (i q id off cnt x : Nat) (data : Nat → D) (done : Nat → Bool)
      (h : g.late[i]? = some (q, id, .write off cnt data done)) (hx : covers off cnt x) :
      GStep c g [] { g with
        s := { g.s with t := g.s.t.lateSector x data },
        late := g.late.set i (q, id, .write off cnt data (upd done x true)) }
  /-- a left-over request completes and `poll` returns its id, which the front end takes for the request in that slot
  (vhost/backend_thread.rs:229-250) -/
  | done (g : GSys D) (i q id : Nat) (op : Op D) (ok : Bool) (h : g.late[i]? = some (q, id, op)) (hf : ok = true → op.finished) :
      GStep c g [.ev (.resp q id ok [])] { g with late := g.late.eraseIdx i }

/-- Start of the backend (backends/common/mod.rs:53-183): the guests' channels are new (device.rs:356-371). -/
def GSys.boot (c : Cfg D) (hdrs : Bytes) (tv : Nat → D) (mv : Nat → Bytes) (b0 : Nat → Nat → D) : GSys D :=
  { s := Sys.boot c hdrs tv mv b0, ring := [], late := [] }

/-- Runs through states that satisfy `P`. No counterpart in the code. -/
inductive GRun (c : Cfg D) (P : GSys D → Prop) : GSys D → List (Lab D) → GSys D → Prop where
  | nil (g : GSys D) : P g → GRun c P g [] g
  | snoc {g g' g'' : GSys D} {ls ls' : List (Lab D)} : GRun c P g ls g' → GStep c g' ls' g'' → P g'' → GRun c P g (ls ++ ls') g''
  /-- a power loss; after the restart the guests' channels are new -/
  | crash {g g' : GSys D} {ls : List (Lab D)} {tv : Nat → D} {mv : Nat → Bytes} {meta' : Metadata.Meta} (buf0 : Nat → Nat → D) :
      GRun c P g ls g' → g'.s.t.survives tv → g'.s.m.survives mv → Metadata.fromBytes (devBytes c.msec mv) = .ok meta' →
      P (GSys.boot c meta'.headers tv mv buf0) → GRun c P g (ls ++ [.ev .crash]) (GSys.boot c meta'.headers tv mv buf0)

end Verif.Lazy
