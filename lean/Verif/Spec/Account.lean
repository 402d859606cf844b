import Verif.Model.Tracker
import Verif.Spec.Vhost
import Verif.Model.Ublk

/-! # What a front end has in flight, read off what it does

Specification vocabulary for C96: what the disk was asked for and the guest has not been answered yet. -/

namespace Verif.Vhost
open Verif Verif.Metadata Verif.Disk

/-- How an operator sees a request: its kind and, for reads and writes, its first sector and number of sectors. -/
def seen : DevReq → Tracker.Kind × Option (Nat × Nat)
  | .read s c => (.read, some (s, c))
  | .write s c _ => (.write, some (s, c))
  | .flush => (.flush, none)

/-- One event: the chain taken last, and the chains that were passed to the disk and not given back, with what was asked. -/
def follow (s : Nat × List (Nat × DevReq)) : VEv → Nat × List (Nat × DevReq)
  | .popped u _ _ => (u, s.2)
  | .dev _ q => (s.1, s.2 ++ [(s.1, q)])
  | .returned w _ _ => (s.1, s.2.filter fun p => decide (p.1 ≠ w))
  | .signal => s

/-- The requests the guest waits for that were passed to the disk, by chain. -/
def unanswered (es : List VEv) : List (Nat × DevReq) := (es.foldl follow (0, [])).2

/-- The requests passed to the disk. -/
def passed (es : List VEv) : List DevReq := es.filterMap fun e => match e with | .dev _ q => some q | _ => none

/-- Bytes read, bytes written, reads, writes and flushes among requests. -/
def totals (qs : List DevReq) : Nat × Nat × Nat × Nat × Nat :=
  ((qs.map fun q => match q with | .read _ c => c * 512 | _ => 0).sum,
   (qs.map fun q => match q with | .write _ c _ => c * 512 | _ => 0).sum,
   qs.countP fun q => match q with | .read .. => true | _ => false,
   qs.countP fun q => match q with | .write .. => true | _ => false,
   qs.countP fun q => match q with | .flush => true | _ => false)

end Verif.Vhost

namespace Verif.Ublk
open Verif Verif.Metadata Verif.Disk Verif.Vhost

/-- One event: what was asked of the disk for each tag that is not completed. -/
def follow (w : Nat → Option DevReq) : UEv → Nat → Option DevReq
  | .arrive .. => w
  | .dev id q => upd w id (some q)
  | .complete tag .. => upd w tag none

/-- The requests the kernel waits for that were passed to the disk, by tag. -/
def unanswered (es : List UEv) : Nat → Option DevReq := es.foldl follow fun _ => none

/-- The requests passed to the disk. -/
def passed (es : List UEv) : List DevReq := es.filterMap fun e => match e with | .dev _ q => some q | _ => none

end Verif.Ublk
