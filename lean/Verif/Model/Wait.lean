import Verif.Spec.Disk
import Verif.Model.Init
import Verif.Model.Remote

/-! # Waiting for one request at a time

Models `/repo/src/block_device/wait_for_completion.rs` and `/repo/src/stripe_source/wait.rs`, and the code that works through them: it
makes a request on a channel of its own, waits for it with a time limit, and goes on only after a success. The callers are
`save_to_bdev`, `load_from_bdev`, `read_stripe` and `read_stripe_from_source` of a server session, the reader of legacy metadata, and
`decode` and `encode` of the `xts` tool.

The device is the disk of Spec/Disk, on which requests take effect a sector at a time. A request there is known by its serial number,
so that two requests with the same id can be in flight; a channel reports ids only. Every request has a buffer of its own. -/

namespace Verif.Wait
open Verif Verif.Disk
variable {D : Type}

/-- The loop over the completions of one `poll` (wait_for_completion.rs:11-21, wait.rs:10-20): the first one with the id waited for decides;
the others are dropped. -/
def scan (id : Nat) : List (Nat × Bool) → Option Bool
  | [] => none
  | (i, ok) :: cs => if i ≠ id then scan id cs else some ok

/-- A completion: serial number of the request, whether it succeeded, and what was read (block_device/mod.rs:22, `IoChannel::poll`). -/
structure Done (D : Type) where
  serial : Nat
  ok : Bool
  data : List (Option D)

/-- One call of `poll` (wait_for_completion.rs:10, wait.rs:9): requests leave the device, any number, in any order. -/
inductive Polled : Disk D → List (Done D) → Disk D → Prop where
  | nil (d : Disk D) : Polled d [] d
  | cons {d d' : Disk D} {s : Nat} {ok : Bool} {cs : List (Done D)} : d.mayComplete (0, s) ok →
      Polled (Dev.complete d (0, s) ok) cs d' → Polled d (⟨s, ok, d.result (0, s) ok⟩ :: cs) d'

/-- The program (the callers of wait_for_completion.rs:3-32): requests not yet made with their ids, the id waited for, the number of requests made,
their ids, the buffers of the requests found successful, and whether it has ended with an error. -/
structure Cli (D : Type) where
  todo : List (Nat × Req D)
  waiting : Option Nat
  made : Nat
  ids : Nat → Nat
  got : List (List (Option D))
  failed : Bool

/-- Device and program (callers of wait_for_completion.rs:3-32). -/
structure St (D : Type) where
  disk : Disk D
  cli : Cli D

/-- A program that is going to make these requests, on a channel of its own (e.g. metadata/save.rs:17). -/
def start (d : Disk D) (rs : List (Nat × Req D)) : St D := ⟨d, ⟨rs, none, 0, fun _ => 0, [], false⟩⟩

/-- What the buffer of request `s` holds after a `poll`: what was read if the request has completed, and otherwise what has
been transferred so far (wait_for_completion.rs:20 returns; the caller then looks at the buffer, e.g. session.rs:167). -/
def buffer (d : Disk D) (cs : List (Done D)) (s : Nat) : List (Option D) :=
  match cs.find? (fun c => c.serial = s) with
  | some c => c.data
  | none =>
    match d.ops (0, s) with
    | some (.read off cnt got) => (List.range cnt).map fun i => got (off + i)
    | _ => []

/-- The program after a `poll` (wait_for_completion.rs:11-21): the buffer it looks at is the one of the request it made last. -/
def settle (d : Disk D) (cs : List (Done D)) (c : Cli D) : Cli D :=
  match c.waiting with
  | none => c
  | some id =>
    match scan id (cs.map fun x => (c.ids x.serial, x.ok)) with
    | none => c
    | some false => { c with waiting := none, failed := true }
    | some true => { c with waiting := none, got := c.got ++ [buffer d cs (c.made - 1)] }

/-- Steps (wait_for_completion.rs:3-32 and its callers, e.g. metadata/save.rs:52-58). -/
inductive Step : St D → St D → Prop where
  /-- The next request is made (metadata/save.rs:52-53). -/
  | submit {s : St D} {id : Nat} {r : Req D} {rest : List (Nat × Req D)} : s.cli.failed = false → s.cli.waiting = none →
      s.cli.todo = (id, r) :: rest →
      Step s ⟨s.disk.issue (0, s.cli.made) r,
        { s.cli with todo := rest, waiting := some id, made := s.cli.made + 1, ids := upd s.cli.ids s.cli.made id }⟩
  /-- `submit` fails; the request may be in the ring nevertheless (metadata/save.rs:53, `?`). -/
  | refused {s : St D} {id : Nat} {r : Req D} {rest : List (Nat × Req D)} (kept : Bool) : s.cli.failed = false → s.cli.waiting = none →
      s.cli.todo = (id, r) :: rest →
      Step s ⟨if kept then s.disk.issue (0, s.cli.made) r else s.disk, { s.cli with failed := true }⟩
  /-- The device works. -/
  | exec (s : St D) (o : Nat × Nat) (x : Nat) : Step s ⟨s.disk.exec o x, s.cli⟩
  /-- One turn of the waiting loop (wait_for_completion.rs:9-25). -/
  | poll {s : St D} {cs : List (Done D)} {d' : Disk D} : s.cli.failed = false → s.cli.waiting ≠ none → Polled s.disk cs d' →
      Step s ⟨d', settle d' cs s.cli⟩
  /-- The time is up (wait_for_completion.rs:26-31, wait.rs:21-25). -/
  | giveUp {s : St D} : s.cli.failed = false → s.cli.waiting ≠ none → Step s ⟨s.disk, { s.cli with waiting := none, failed := true }⟩

/-- Runs. (callers of wait_for_completion.rs:3-32) -/
inductive Run : St D → St D → Prop where
  | nil (s : St D) : Run s s
  | snoc {s s' s'' : St D} : Run s s' → Step s' s'' → Run s s''

/-- The program has returned without an error (e.g. metadata/save.rs:62). -/
def Cli.finished (c : Cli D) : Prop := c.todo = [] ∧ c.waiting = none ∧ c.failed = false

/-- Requests of `save_to_bdev` (metadata/save.rs:10-11, 52-58). -/
def saveReqs (buf : Bytes) (sectors : Nat) : List (Nat × Req Crypt.Sector) :=
  [(0, .write 0 sectors (Crypt.bufData buf 0 sectors)), (1, .flush)]

/-- Request of `load_from_bdev` (metadata/load.rs:24-25) and of the reader of legacy metadata (stripe_server/legacy.rs:98-99). -/
def loadReqs (sectors : Nat) : List (Nat × Req D) := [(0, .read 0 sectors)]

/-- Request of `read_stripe` (stripe_server/session.rs:151-160). -/
def stripeReq (ssc k : Nat) : Nat × Req D := (0, .read (k * ssc) ssc)

/-- `BlockDeviceStripeSource::request` (stripe_source/bdev.rs:23-43), made by `read_stripe_from_source` (session.rs:170-174); `none` is an
error. -/
def sourceReq (ssc size k : Nat) : Option (Nat × Req D) :=
  if k * ssc ≥ size then none else some (k, .read (k * ssc) (min ssc (size - k * ssc)))

/-- The stripe a session sends: a new buffer is all zeros (`zero`), and the request fills its start (session.rs:156, 171; aligned_buffer.rs:29). -/
def stripeBuf (zero : D) (ssc : Nat) (got : List (Option D)) : List D :=
  (got.map fun o => o.getD zero) ++ List.replicate (ssc - got.length) zero

end Verif.Wait
