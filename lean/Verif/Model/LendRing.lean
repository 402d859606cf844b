import Verif.Model.Lend
import Verif.Model.Uring

/-! # Programs on io_uring channels

What happens when a program uses the channels of `/repo/src/block_device/bdev_uring.rs` while the kernel works: the program's events
and the kernel's, in order. -/

namespace Verif.Lend
open Verif.Disk Verif.Uring

variable {D : Type}

/-- What kind of request (bdev_uring.rs:74-121). -/
def reqKind : Req D → Option Bool
  | .read _ _ => some false
  | .write _ _ _ => some true
  | .flush => none

/-- Bytes the kernel is told (bdev_uring.rs:77, 93). -/
def reqLen : Req D → Nat
  | .read _ n => sqeLen n
  | .write _ n _ => sqeLen n
  | .flush => 0

/-- A program that may do what `P` says, on new io_uring channels (bdev_uring.rs:13-163). Nothing is assumed of the numbers it gives its
requests. The kernel may work on a request it has taken at any moment. -/
inductive OnRing (cap : Nat) (sync whole : Bool) (v : Nat → D) (P : List Ev → Prop) : Sys D → List Ev → Prop where
  | start : OnRing cap sync whole v P (Sys.fresh v) []
  | alloc {s : Sys D} {tr : List Ev} (b n : Nat) : OnRing cap sync whole v P s tr → P (tr.filter Ev.ofProgram ++ [.alloc b n]) →
      OnRing cap sync whole v P s (tr ++ [.alloc b n])
  | free {s : Sys D} {tr : List Ev} (b : Nat) : OnRing cap sync whole v P s tr → P (tr.filter Ev.ofProgram ++ [.free b]) →
      OnRing cap sync whole v P s (tr ++ [.free b])
  | touch {s : Sys D} {tr : List Ev} (b : Nat) : OnRing cap sync whole v P s tr → P (tr.filter Ev.ofProgram ++ [.touch b]) →
      OnRing cap sync whole v P s (tr ++ [.touch b])
  /-- `add_read`, `add_write` (bdev_uring.rs:74-104) -/
  | add {s : Sys D} {tr : List Ev} (c id b : Nat) (w : Bool) (r : Req D) : OnRing cap sync whole v P s tr → reqKind r = some w →
      P (tr.filter Ev.ofProgram ++ [.add c id w b (reqLen r)]) →
      OnRing cap sync whole v P { s with ch := upd s.ch c ((s.ch c).add cap sync id r) } (tr ++ [.add c id w b (reqLen r)])
  /-- `add_flush` (bdev_uring.rs:106-121) -/
  | flush {s : Sys D} {tr : List Ev} (c id : Nat) : OnRing cap sync whole v P s tr → P (tr.filter Ev.ofProgram ++ [.flush c id]) →
      OnRing cap sync whole v P { s with ch := upd s.ch c ((s.ch c).add cap sync id .flush) } (tr ++ [.flush c id])
  /-- `submit` (bdev_uring.rs:123-134), whatever comes of it -/
  | submit {s s' : Sys D} {tr : List Ev} (c n : Nat) : OnRing cap sync whole v P s tr → Uring.Step cap sync whole s (.submit c n) s' →
      OnRing cap sync whole v P s' tr
  | submitErr {s s' : Sys D} {tr : List Ev} (c : Nat) : OnRing cap sync whole v P s tr → Uring.Step cap sync whole s (.submitErr c) s' →
      OnRing cap sync whole v P s' tr
  /-- the kernel moves data of a request it has taken and not completed -/
  | kern {s : Sys D} {tr : List Ev} (c id x : Nat) : OnRing cap sync whole v P s tr → s.dev.ops (c, id) ≠ none →
      OnRing cap sync whole v P { s with dev := s.dev.exec (c, id) x } (tr ++ [.kern c id])
  | done {s s' : Sys D} {tr : List Ev} (c id : Nat) (res : Int) : OnRing cap sync whole v P s tr →
      Uring.Step cap sync whole s (.done c id res) s' → OnRing cap sync whole v P s' tr
  /-- `poll` (bdev_uring.rs:136-156) -/
  | poll {s : Sys D} {tr : List Ev} (c : Nat) (rs : List (Nat × Bool)) : OnRing cap sync whole v P s tr →
      rs = (s.ch c).poll.2.map (fun p => (p.1, p.2.1)) → P (tr.filter Ev.ofProgram ++ [.poll c rs]) →
      OnRing cap sync whole v P { s with ch := upd s.ch c (s.ch c).poll.1 } (tr ++ [.poll c rs])

/-- The threads of a vhost volume with a raw or copied source (bgworker.rs:16-53, vhost/backend.rs:43-89): the copying of stripes, the
recording of flags, and the queues' threads through their lazy channels, all over encrypting channels where `on` says so. -/
def volume (on : Nat → Bool) (kind : Src) (ss src tgt : Nat) (sec : Nat → Nat) (slots size : Nat) : Nat → List Ev → Prop
  | 0 => viaCrypt on (upTo (Fetch.Step false kind ss src tgt) (allocs 16 (ss * 512)) Fetch.new)
  | 1 => viaCrypt on (upTo (Flags.Step false sec) (allocs 16 512) Flags.new)
  | _ => viaCrypt on (viaLazy false (upTo (Front.Step true) (allocs slots size) (Front.new slots size)))

end Verif.Lend
