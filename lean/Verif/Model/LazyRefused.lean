import Verif.Model.Lazy

/-! # Refused submissions of the fetcher

`StripeFetcher` takes an error from `submit` for "nothing was handed over": it gives the buffer back and tries again later with
the same request id (stripe_fetcher.rs:240-270, 272-301). With the io_uring engine the entry is in the submission queue by then and
stays there (bdev_uring.rs:83, 123-134); the next submission of the channel that succeeds hands it to the kernel too
(`C54_failed_submit_strands` is the part about the engine). Here such entries are added to the model of the lazily fetched disk.

Simplifications: only the fetcher's channel is treated; the data of a left-over write are those in its buffer when it was added
(the buffer may be reused meanwhile). -/

namespace Verif.Lazy
open Verif Verif.Disk

variable {D : Type}

/-- The lazily fetched disk with the left-over entries of the fetcher's channel, each with its id (the stripe): `ring`
are those still in the submission queue, `late` those the kernel is working on. (The `ring` field of `UringIoChannel`,
bdev_uring.rs:13-21.) -/
structure RSys (D : Type) where
  s : Sys D
  ring : List (Nat × Op D)
  late : List (Nat × Op D)

/-- Submissions of this action are accepted: `submit` (bdev_uring.rs:123-134) returns Ok. -/
def Act.accepted : Act D → Bool
  | .processQueue _ b | .sourceDone _ _ b _ | .targetDone _ _ b | .startMeta b | .metaDone _ _ b => b
  | _ => true

/-- The action submits to the kernel on the fetcher's channel: a stripe write (stripe_fetcher.rs:253) or a flush (264). -/
def submits (s : Sys D) : Act D → Bool
  | .sourceDone k ok _ _ => s.fe.srcIn k && ok && (s.fe.alloc k).isSome
  | .targetDone k ok _ => ok && s.fe.states k = some .fetching
  | _ => false

/-- The completion of a left-over entry as the fetcher handles it, which cannot tell it from the one it is waiting for
(stripe_fetcher.rs:214-237). The second component says that a flush is submitted. -/
def fetcherSees (s : Sys D) (k : Nat) (ok : Bool) : Sys D × Bool × List (Lab D) :=
  if ok then
    match s.fe.states k with
    | some .fetching => ({ s with fe := { s.fe with states := upd s.fe.states k (some .flushing) } }, true, [])
    | some .flushing => ((fetchCompleted s k true).1, false, (fetchCompleted s k true).2)
    | _ => (s, false, [])
  else ((fetchCompleted s k false).1, false, (fetchCompleted s k false).2)

/-- The write of stripe `k` from the buffer the source has filled (stripe_fetcher.rs:240-251). -/
def stripeWrite (c : Cfg D) (s : Sys D) (k b : Nat) : Op D :=
  .write (k * c.ss) (stripeLen c k) (fun x => fillBuf c k (s.fe.bufs b) (x - k * c.ss)) fun _ => false

/-- The kernel transfers sector `x` of a left-over write, whose data may survive a power loss from now on (bdev_uring.rs:123-134 has
handed it over). -/
def _root_.Verif.Disk.Dev.lateSector (d : Dev Owner D) (x : Nat) (data : Nat → D) : Dev Owner D :=
  { vol := upd d.vol x (data x)
    pers := fun y v => d.pers y v ∨ (covers x 1 y ∧ v = data y)
    ops := fun o => (d.ops o).map (Op.addSnap x 1 data) }

/-- Steps of the lazy disk with refused submissions of the fetcher's channel (stripe_fetcher.rs:240-270,
bdev_uring.rs:123-134). -/
inductive RStep (c : Cfg D) : RSys D → List (Lab D) → RSys D → Prop where
  /-- a step of the lazy disk with accepted submissions; one on the fetcher's channel hands over everything in its queue -/
  | step (r : RSys D) (a : Act D) (ls : List (Lab D)) (s' : Sys D) (h : Step c r.s a ls s') (ha : a.accepted = true) :
      RStep c r ls (if submits r.s a then { s := s', ring := [], late := r.late ++ r.ring } else { r with s := s' })
  /-- the submission of a stripe write is refused -/
  | write (r : RSys D) (k b : Nat) (g : Nat → D) (ls : List (Lab D)) (s' : Sys D) (h : Step c r.s (.sourceDone k true false g) ls s')
      (hb : r.s.fe.alloc k = some b) : RStep c r ls { r with s := s', ring := r.ring ++ [(k, stripeWrite c r.s k b)] }
  /-- the submission of a flush is refused -/
  | flush (r : RSys D) (k : Nat) (ls : List (Lab D)) (s' : Sys D) (h : Step c r.s (.targetDone k true false) ls s')
      (hf : r.s.fe.states k = some .fetching) : RStep c r ls { r with s := s', ring := r.ring ++ [(k, .flush fun _ _ => True)] }
  /-- the kernel transfers a sector of a left-over write -/
  | exec (r : RSys D) (i k off cnt x : Nat) (data : Nat → D) (done : Nat → Bool) (h : r.late[i]? = some (k, .write off cnt data done))
      (hx : covers off cnt x) :
      RStep c r [] { r with
        s := { r.s with t := r.s.t.lateSector x data },
        late := r.late.set i (k, .write off cnt data (upd done x true)) }
  /-- a left-over request completes -/
  | done (r : RSys D) (i k : Nat) (op : Op D) (ok : Bool) (h : r.late[i]? = some (k, op)) (hf : ok = true → op.finished) :
      RStep c r (fetcherSees r.s k ok).2.2
        (if (fetcherSees r.s k ok).2.1 then
          { s := (fetcherSees r.s k ok).1, ring := [], late := r.late.eraseIdx i ++ r.ring ++ [(k, .flush fun _ _ => True)] }
        else { r with s := (fetcherSees r.s k ok).1, late := r.late.eraseIdx i })

/-- Start of the backend (backends/common/mod.rs:53-183): the fetcher's channel is new (stripe_fetcher.rs:46-101). -/
def RSys.boot (c : Cfg D) (hdrs : Bytes) (tv : Nat → D) (mv : Nat → Bytes) (b0 : Nat → Nat → D) : RSys D :=
  { s := Sys.boot c hdrs tv mv b0, ring := [], late := [] }

/-- Runs through states that satisfy `P`. No counterpart in the code. -/
inductive RRun (c : Cfg D) (P : RSys D → Prop) : RSys D → List (Lab D) → RSys D → Prop where
  | nil (r : RSys D) : P r → RRun c P r [] r
  | snoc {r r' r'' : RSys D} {ls ls' : List (Lab D)} : RRun c P r ls r' → RStep c r' ls' r'' → P r'' → RRun c P r (ls ++ ls') r''
  /-- a power loss; after the restart the fetcher's channel is new -/
  | crash {r r' : RSys D} {ls : List (Lab D)} {tv : Nat → D} {mv : Nat → Bytes} {meta' : Metadata.Meta} (buf0 : Nat → Nat → D) :
      RRun c P r ls r' → r'.s.t.survives tv → r'.s.m.survives mv → Metadata.fromBytes (devBytes c.msec mv) = .ok meta' →
      P (RSys.boot c meta'.headers tv mv buf0) → RRun c P r (ls ++ [.ev .crash]) (RSys.boot c meta'.headers tv mv buf0)

end Verif.Lazy
