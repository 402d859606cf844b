import Verif.Model.Vhost

/-! # The event loop of a vhost queue: taking requests, answering them, signalling, and going to sleep

Models `handle_event` of `/repo/src/backends/vhost/backend.rs` and `process_queue` of
`/repo/src/backends/vhost/backend_thread.rs` one access of shared state at a time, so that the driver's steps
(`Spec/Wake`) may come between any two of them. What a request does is left to `Model/Vhost`; here a chain is only one
of three kinds (`Kind`).

Outside the model: weak memory (the libraries have fences where the two sides meet; accesses are in one order here),
failures of the rings' memory (`enable_notification`, `needs_notification`, `add_used`, `signal_used_queue`), and
turning the event index on or off while the queue is in use. Indices in the rings are `u16` and wrap around; the model
counts on, and compares modulo 65536 where the code compares `u16`. -/

namespace Verif.Wake
open Verif

/-- `u16` difference (library virtio-queue, whose indices are `Wrapping<u16>`; `needs_notification`, called at
backend_thread.rs:427-430). -/
def sub16 (a b : Nat) : Nat := (a % 65536 + 65536 - b % 65536) % 65536

/-- Whether an index that goes from `old` to `new` passes the entry the other side waits for (library virtio-queue,
`needs_notification`, called at backend_thread.rs:427-430: `used_idx - used_event - 1 < used_idx - old`). -/
def needEvent (event new old : Nat) : Bool := decide (sub16 (sub16 new event) 1 < sub16 new old)

/-- What becomes of a chain when it is taken from the ring (backend_thread.rs:394-417): returned as malformed,
answered at once, or handed to the I/O channel. -/
inductive Kind where
  | bad | now | dev
deriving DecidableEq

/-- The three places `handle_event` calls `process_queue` from (backend.rs:212-220; 227-237; 240). -/
inductive Phase where
  | poll | event | last
deriving DecidableEq

/-- Where the worker thread is (backend.rs:184-249, backend_thread.rs:387-452); `busy` is the variable of that name. -/
inductive Pc where
  /-- waiting for an event -/
  | wait
  /-- before taking a chain from the ring (backend_thread.rs:390) -/
  | pops (ph : Phase) (busy : Bool)
  /-- in `poll_io` (backend_thread.rs:227-250) -/
  | polls (ph : Phase) (busy : Bool)
  /-- before deciding on the signal (backend_thread.rs:425) -/
  | check (ph : Phase) (busy : Bool)
  /-- before signalling (backend_thread.rs:444) -/
  | sig (ph : Phase) (busy : Bool)
  /-- `process_queue` has returned (backend.rs:213, 234, 240) -/
  | decide (ph : Phase) (busy : Bool)
  /-- before `enable_notification` (backend.rs:228) -/
  | enable
deriving DecidableEq

/-- What the driver's interrupt handler is doing (no counterpart in the code; `Spec/Wake`). -/
inductive Irq where
  | run | armed | sleep
deriving DecidableEq

/-- The queue, the two event descriptors, the worker and the driver (backend_thread.rs:47-59; library virtio-queue,
`Queue`). -/
structure Sys where
  /-- chains the driver has made available -/
  avail : Nat
  /-- `next_avail`: chains the worker has taken -/
  next : Nat
  /-- chains returned, in order; `next_used` is its length -/
  ring : List Nat
  /-- the word by which the device asks for kicks -/
  availEvent : Nat
  /-- the word by which the driver asks for interrupts -/
  usedEvent : Nat
  /-- the kick event descriptor is readable -/
  kick : Bool
  /-- the call event descriptor is readable -/
  call : Bool
  pc : Pc
  /-- chains the channel has not reported -/
  inflight : List Nat
  /-- `ios_pending_signal` -/
  pending : Bool
  /-- `num_added`: chains returned since `needs_notification` was last called -/
  added : Nat
  /-- the driver's: available index at its last decision to kick -/
  old : Nat
  /-- the driver's: returned chains it has looked at -/
  seen : Nat
  /-- the driver's -/
  irq : Irq

/-- A new queue (backend_thread.rs:103-115). -/
def Sys.init : Sys :=
  { avail := 0, next := 0, ring := [], availEvent := 0, usedEvent := 0, kick := false, call := false, pc := .wait,
    inflight := [], pending := false, added := 0, old := 0, seen := 0, irq := .run }

/-- `add_used` (library virtio-queue; called at backend_thread.rs:65-67 and 194-196). -/
def Sys.addUsed (s : Sys) (c : Nat) : Sys := { s with ring := s.ring ++ [c], added := s.added + 1 }

/-- A chain is taken and processed (backend_thread.rs:390-418). `complete_io` sets `ios_pending_signal` (line 188),
`complete_bad_chain` (lines 63-71) does not. -/
def Sys.pop (kind : Nat → Kind) (s : Sys) (ph : Phase) : Sys :=
  let s' := { s with next := s.next + 1, pc := .pops ph true }
  match kind s.next with
  | .bad => s'.addUsed s.next
  | .now => { s'.addUsed s.next with pending := true }
  | .dev => { s' with inflight := s.inflight ++ [s.next] }

/-- After `process_queue` has returned `busy` (backend.rs:212-241). `elapsed`: the polling time is over. -/
def afterQueue (eventIdx : Bool) (ph : Phase) (busy elapsed : Bool) : Pc :=
  match ph with
  | .poll => if busy then .pops .poll false else if elapsed then (if eventIdx then .enable else .pops .last false) else .pops .poll false
  | .event => if busy then .enable else .wait
  | .last => .wait

/-- Steps of the worker thread (backend.rs:184-249, backend_thread.rs:387-452). The label says whether the step only
passes time: a look at the channel that leaves requests unreported, or another round because the polling time is not
over. -/
inductive WStep (eventIdx : Bool) (kind : Nat → Kind) : Sys → Bool → Sys → Prop where
  /-- the kick is read (library vhost-user-backend: `read_kick`, then `handle_event`, backend.rs:184) -/
  | wake (s : Sys) : s.pc = .wait → s.kick = true → WStep eventIdx kind s false { s with kick := false, pc := .pops .poll false }
  /-- there is a chain (backend_thread.rs:390-418) -/
  | pop (s : Sys) (ph : Phase) (busy : Bool) : s.pc = .pops ph busy → s.avail % 65536 ≠ s.next % 65536 →
      WStep eventIdx kind s false (s.pop kind ph)
  /-- there is none (backend_thread.rs:390, 419) -/
  | popEnd (s : Sys) (ph : Phase) (busy : Bool) : s.pc = .pops ph busy → s.avail % 65536 = s.next % 65536 →
      WStep eventIdx kind s false { s with pc := .polls ph busy }
  /-- a request the channel reports is answered (backend_thread.rs:229-249) -/
  | complete (s : Sys) (ph : Phase) (busy : Bool) (c : Nat) : s.pc = .polls ph busy → c ∈ s.inflight →
      WStep eventIdx kind s false { s.addUsed c with inflight := s.inflight.erase c, pending := true }
  /-- the channel reports nothing more for now (backend_thread.rs:229, 423) -/
  | pollEnd (s : Sys) (ph : Phase) (busy : Bool) : s.pc = .polls ph busy →
      WStep eventIdx kind s (!s.inflight.isEmpty) { s with pc := .check ph (busy || !s.inflight.isEmpty) }
  /-- whether to signal (backend_thread.rs:425-442) -/
  | check (s : Sys) (ph : Phase) (busy : Bool) : s.pc = .check ph busy →
      WStep eventIdx kind s false
        (if s.pending then
          if eventIdx then
            { s with added := 0, pc := if needEvent s.usedEvent s.ring.length (sub16 s.ring.length s.added) then .sig ph busy else .decide ph busy }
          else { s with pc := .sig ph busy }
        else { s with pc := .decide ph busy })
  /-- the signal (backend_thread.rs:444-449) -/
  | sig (s : Sys) (ph : Phase) (busy : Bool) : s.pc = .sig ph busy →
      WStep eventIdx kind s false { s with call := true, pending := false, pc := .decide ph busy }
  /-- `process_queue` has returned (backend.rs:212-241) -/
  | decide (s : Sys) (ph : Phase) (busy elapsed : Bool) : s.pc = .decide ph busy →
      WStep eventIdx kind s (decide (ph = .poll) && !busy && !elapsed) { s with pc := afterQueue eventIdx ph busy elapsed }
  /-- `enable_notification` (library virtio-queue; backend.rs:228-233) -/
  | enable (s : Sys) : s.pc = .enable →
      WStep eventIdx kind s false { s with availEvent := s.next % 65536, pc := .pops .event false }

end Verif.Wake
