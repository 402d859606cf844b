import Verif.Model.Load
import Verif.Model.Vhost

/-! # How the front ends are set up from `[tuning]`

Models `UbiBlkBackend::new`, `maybe_pin_cpu`, `num_queues`, `max_queue_size` and `queues_per_thread` of
`/repo/src/backends/vhost/backend.rs`, the sizes in `UbiBlkBackendThread::new` and `pin_to_cpu` of `backend_thread.rs`, and the
parameters of the ublk device in `/repo/src/backends/ublk/mod.rs`. -/

namespace Verif.Setup
open Verif Verif.Config

/-- `queues_per_thread` (backend.rs:79): a `u64` with one bit, for each thread. -/
def masks (t : Tuning) : List Nat := (List.range t.numQueues).map fun i => 2 ^ (i % 64)

/-- The queues thread `i` serves (library vhost-user-backend: the queues whose bit is set in the mask; backend.rs:295-297). -/
def serves (t : Tuning) (i q : Nat) : Bool := ((masks t)[i]?.getD 0).testBit q

/-- The number of queues announced (backend.rs:60, 122-124): `as u16`. -/
def queues (t : Tuning) : Nat := t.numQueues % 2 ^ 16

/-- `max_queue_size` (backend.rs:126-128). -/
def ringMax (t : Tuning) : Nat := t.queueSize

/-- The buffer of each slot (backend_thread.rs:79): a `u32` product. -/
def bufSize (t : Tuning) : Nat := t.segCountMax * t.segSizeMax % 2 ^ 32

/-- A new thread (backend_thread.rs:72-116). -/
def thread (t : Tuning) (mem : Vhost.GMem) : Vhost.Vq := Vhost.Vq.init mem t.queueSize (bufSize t)

/-- `maybe_pin_cpu` and `pin_to_cpu` (backend.rs:91-98, backend_thread.rs:159-178) on an event of thread `i`: the CPU it asks the
system to be pinned to, if it does, and `pin_attempted`. Indexing past the list panics. -/
def pin (t : Tuning) (i : Nat) (attempted : Bool) : Vhost.Res (Option Nat × Bool) :=
  match t.cpus with
  | none => .ok (none, attempted)
  | some cpus =>
    match cpus[i]? with
    | none => .panic
    | some c => if attempted then .ok (none, true) else .ok (some c, true)

/-- What thread `i` asks for on its first `k` events (backend.rs:200-202). -/
def pins (t : Tuning) (i : Nat) : Nat → Bool → Vhost.Res (List Nat)
  | 0, _ => .ok []
  | k + 1, attempted =>
    match pin t i attempted with
    | .panic => .panic
    | .ok (c, attempted) =>
      match pins t i k attempted with
      | .panic => .panic
      | .ok cs => .ok (c.toList ++ cs)

/-- The ublk device (ublk/mod.rs:60-75, 128-134). -/
structure UblkDevice where
  queues : Nat
  depth : Nat
  ioBuf : Nat
  bytes : Nat
deriving DecidableEq

/-- `serve_ublk` (ublk/mod.rs:60-75, 93): queues and depth `as u16`, the size of the device a `u64`. -/
def ublkDevice (t : Tuning) (sectors : Nat) : UblkDevice :=
  { queues := t.numQueues % 2 ^ 16, depth := t.queueSize % 2 ^ 16, ioBuf := t.segSizeMax, bytes := sectors * 512 % 2 ^ 64 }

/-- `build_io_trackers` (common/mod.rs:224-228): the size of the tracker of each queue. -/
def trackers (t : Tuning) : List Nat := (List.range t.numQueues).map fun _ => t.queueSize

/-- The tracker of a queue (ublk/mod.rs:95): indexing past the list panics. -/
def ublkTracker (t : Tuning) (q : Nat) : Vhost.Res Nat :=
  match (trackers t)[q]? with
  | some n => .ok n
  | none => .panic

/-- The tracker of a thread (backend.rs:70-73). -/
def vhostTracker (t : Tuning) (q : Nat) : Nat := (trackers t)[q]?.getD t.queueSize

end Verif.Setup
