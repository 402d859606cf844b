import Verif.Model.Uring

/-! # Model of the synchronous I/O engine

/repo/src/block_device/bdev_sync.rs:13-101. A call of `add_*` runs the system call to its end; other channels run
meanwhile. `read_exact_at` and `write_all_at` succeed only if everything was transferred. -/

namespace Verif.SyncIo
open Verif.Disk

variable {D : Type}

/-- `SyncIoChannel` (bdev_sync.rs:13-16): the call in progress, and the requests `poll` will report, with the data put
in the buffer. -/
structure Chan (D : Type) where
  cur : Option Nat
  finished : List (Nat × Bool × List (Option D))

/-- A device opened by the synchronous engine (bdev_sync.rs:13-42): the kernel's disk and the channels. -/
structure Sys (D : Type) where
  dev : Disk D
  ch : Nat → Chan D

/-- The device after opening (bdev_sync.rs:19-41). -/
def Sys.fresh (v : Nat → D) : Sys D := { dev := Dev.fresh v, ch := fun _ => { cur := none, finished := [] } }

/-- What happens: calls of bdev_sync.rs:44-101, transfers by the kernel, power losses. -/
inductive Act (D : Type) where
  | add (c id : Nat) (r : Req D)
  | exec (o : Nat × Nat) (x : Nat)
  | done (c id : Nat) (ok : Bool)
  | poll (c : Nat) (out : List (Nat × Bool × List (Option D)))
  | crash

/-- One step (bdev_sync.rs:44-101). A channel belongs to one thread: nothing else is called on it while a call is in progress. Users do not
reuse the id of an outstanding request. -/
inductive Step : Sys D → Act D → Sys D → Prop where
  /-- `add_read`, `add_write`, `add_flush` start (bdev_sync.rs:45-52, 62-67, 76-82) -/
  | add (s : Sys D) (c id : Nat) (r : Req D) (h : (s.ch c).cur = none) (hf : id ∉ (s.ch c).finished.map Prod.fst) :
      Step s (.add c id r) { dev := s.dev.issue (c, id) r, ch := upd s.ch c { s.ch c with cur := some id } }
  | exec (s : Sys D) (o : Nat × Nat) (x : Nat) : Step s (.exec o x) { s with dev := s.dev.exec o x }
  /-- the system call ends and `add_*` returns (bdev_sync.rs:53-59, 68-73, 77-87) -/
  | done (s : Sys D) (c id : Nat) (ok : Bool) (h : (s.ch c).cur = some id) (hm : s.dev.mayComplete (c, id) ok) :
      Step s (.done c id ok)
        { dev := s.dev.complete (c, id) ok,
          ch := upd s.ch c { cur := none, finished := (s.ch c).finished ++ [(id, ok, s.dev.result (c, id) ok)] } }
  /-- `poll` (bdev_sync.rs:94-96) -/
  | poll (s : Sys D) (c : Nat) (h : (s.ch c).cur = none) :
      Step s (.poll c (s.ch c).finished) { s with ch := upd s.ch c { s.ch c with finished := [] } }
  | crash (s : Sys D) (v : Nat → D) (h : s.dev.survives v) : Step s .crash (Sys.fresh v)

/-- Runs of the device of bdev_sync.rs:13-101 on a disk with contents `v`. -/
inductive Run (v : Nat → D) : List (Act D) → Sys D → Prop where
  | nil : Run v [] (Sys.fresh v)
  | snoc {as : List (Act D)} {a : Act D} {s s' : Sys D} : Run v as s → Step s a s' → Run v (as ++ [a]) s'

/-- What the user sees (the `IoChannel` interface, bdev_sync.rs:44-101): a request when it is added, an answer when it
is polled. -/
def Act.view : Act D → List (Ev D)
  | .add c id r => [.issue c id r]
  | .poll c out => out.map fun p => .resp c p.1 p.2.1 p.2.2
  | .crash => [.crash]
  | _ => []

end Verif.SyncIo
