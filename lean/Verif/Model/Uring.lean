import Verif.Spec.Disk

/-! # Model of the io_uring channel

/repo/src/block_device/bdev_uring.rs:13-163, with the ring's two queues and the kernel behind it. The kernel is the disk
with a volatile cache of `Spec/Disk`, shared by all channels of the device. -/

namespace Verif.Uring
open Verif.Disk

variable {D : Type}

/-- Fields of a submission queue entry for a read or write (bdev_uring.rs:74-81, 90-97): `len` in bytes (`u32`),
`offset` in bytes (`u64`), as a release build computes them. -/
def sqeFields (sectorOffset sectorCount : Nat) : Nat × Nat := (sectorOffset * 512 % 2 ^ 64, sectorCount * 512 % 2 ^ 32)

/-- `UringIoChannel` (bdev_uring.rs:13-21). `sq`: entries in the submission queue the kernel has not taken; `kern`: ids of
requests the kernel is working on; `cq`: unread completion entries with the kernel's result and the data then in the
buffer. -/
structure Chan (D : Type) where
  sq : List (Nat × Req D)
  kern : List Nat
  cq : List (Nat × Int × List (Option D))
  pending : Nat
  submissions : Nat
  completions : Nat
  finished : List (Nat × Bool)

/-- `UringIoChannel::new` (bdev_uring.rs:24-62). -/
def Chan.new : Chan D :=
  { sq := [], kern := [], cq := [], pending := 0, submissions := 0, completions := 0, finished := [] }

/-- Whether a request was made by `add_flush` (bdev_uring.rs:106-121). -/
def isFlush : Req D → Bool
  | .flush => true
  | _ => false

/-- `add_read`, `add_write`, `add_flush` (bdev_uring.rs:74-121). `cap` is the size of the submission queue, `sync` is
`sync_io`. -/
def Chan.add (cap : Nat) (sync : Bool) (ch : Chan D) (id : Nat) (r : Req D) : Chan D :=
  if sync && isFlush r then { ch with finished := ch.finished ++ [(id, true)] }
  else if ch.sq.length ≥ cap then { ch with finished := ch.finished ++ [(id, false)] }
  else { ch with sq := ch.sq ++ [(id, r)], pending := ch.pending + 1 }

/-- The counters after `submit` (bdev_uring.rs:123-134); they change the same way whether the system call succeeds or
not. -/
def Chan.submitted (ch : Chan D) : Chan D := { ch with submissions := ch.submissions + ch.pending, pending := 0 }

/-- The kernel takes the first `n` entries of the submission queue: the system call behind `ring.submit()`
(bdev_uring.rs:129). -/
def Chan.take (ch : Chan D) (n : Nat) : Chan D :=
  { ch with sq := ch.sq.drop n, kern := ch.kern ++ (ch.sq.take n).map Prod.fst }

/-- The kernel posts a completion, which `ring.completion().next()` (bdev_uring.rs:139) will find. -/
def Chan.post (ch : Chan D) (id : Nat) (res : Int) (data : List (Option D)) : Chan D :=
  { ch with kern := ch.kern.erase id, cq := ch.cq ++ [(id, res, data)] }

/-- What `poll` reports for one completion entry (bdev_uring.rs:142-149): success iff the result is not negative, however
many bytes were transferred. -/
def report (e : Nat × Int × List (Option D)) : Nat × Bool × List (Option D) := (e.1, decide (0 ≤ e.2.1), e.2.2)

/-- `poll` (bdev_uring.rs:136-156): what is reported, with the data the kernel has put in the buffer. -/
def Chan.poll (ch : Chan D) : Chan D × List (Nat × Bool × List (Option D)) :=
  ({ ch with finished := [], cq := [], completions := ch.completions + ch.cq.length },
    (ch.finished.map fun p => (p.1, p.2, [])) ++ ch.cq.map report)

/-- `busy` (bdev_uring.rs:158-162). -/
def Chan.busy (ch : Chan D) : Bool :=
  decide (ch.submissions > ch.completions) || !ch.finished.isEmpty || decide (ch.pending > 0)

/-- A device (bdev_uring.rs:165-200): the kernel's disk and the channels. -/
structure Sys (D : Type) where
  dev : Disk D
  ch : Nat → Chan D

/-- The device after opening, all channels new (bdev_uring.rs:24-62). -/
def Sys.fresh (v : Nat → D) : Sys D := { dev := Dev.fresh v, ch := fun _ => Chan.new }

/-- Hand requests of channel `c` to the disk, in order. No counterpart in the code: the kernel's side of
`ring.submit()` (bdev_uring.rs:129). -/
def issueAll (c : Nat) (d : Disk D) (l : List (Nat × Req D)) : Disk D := l.foldl (fun d p => d.issue (c, p.1) p.2) d

/-- Request `id` has been added to the channel and not been reported yet (the in-flight contract,
bdev_uring.rs:65-72). -/
def Chan.outstanding (ch : Chan D) (id : Nat) : Prop :=
  id ∈ ch.sq.map Prod.fst ∨ id ∈ ch.kern ∨ id ∈ ch.cq.map Prod.fst ∨ id ∈ ch.finished.map Prod.fst

/-- What happens: calls of bdev_uring.rs:74-156, transfers and completions by the kernel, power losses. -/
inductive Act (D : Type) where
  | add (c id : Nat) (r : Req D)
  /-- `submit` returned success and the kernel took `n` entries -/
  | submit (c n : Nat)
  /-- the system call of `submit` failed -/
  | submitErr (c : Nat)
  | exec (o : Nat × Nat) (x : Nat)
  | done (c id : Nat) (res : Int)
  | poll (c : Nat) (out : List (Nat × Bool × List (Option D)))
  | crash

/-- One step. Users do not reuse the id of an outstanding request (the in-flight buffer contract, bdev_uring.rs:65-72).
`whole` says whether the kernel is assumed to report success only for requests carried out in full. -/
inductive Step (cap : Nat) (sync whole : Bool) : Sys D → Act D → Sys D → Prop where
  | add (s : Sys D) (c id : Nat) (r : Req D) (h : ¬(s.ch c).outstanding id) :
      Step cap sync whole s (.add c id r) { s with ch := upd s.ch c ((s.ch c).add cap sync id r) }
  /-- `submit` with nothing pending does not call the kernel -/
  | idle (s : Sys D) (c : Nat) (h : (s.ch c).pending = 0) : Step cap sync whole s (.submit c 0) s
  | submit (s : Sys D) (c n : Nat) (h : (s.ch c).pending ≠ 0) (hn : n ≤ (s.ch c).sq.length) :
      Step cap sync whole s (.submit c n)
        { dev := issueAll c s.dev ((s.ch c).sq.take n), ch := upd s.ch c ((s.ch c).submitted.take n) }
  | submitErr (s : Sys D) (c : Nat) (h : (s.ch c).pending ≠ 0) :
      Step cap sync whole s (.submitErr c) { s with ch := upd s.ch c (s.ch c).submitted }
  | exec (s : Sys D) (o : Nat × Nat) (x : Nat) : Step cap sync whole s (.exec o x) { s with dev := s.dev.exec o x }
  | done (s : Sys D) (c id : Nat) (res : Int) (op : Op D) (h : s.dev.ops (c, id) = some op)
      (hw : whole = true → 0 ≤ res → op.finished) :
      Step cap sync whole s (.done c id res)
        { dev := s.dev.complete (c, id) (decide (0 ≤ res)),
          ch := upd s.ch c ((s.ch c).post id res (s.dev.result (c, id) (decide (0 ≤ res)))) }
  | poll (s : Sys D) (c : Nat) :
      Step cap sync whole s (.poll c (s.ch c).poll.2) { s with ch := upd s.ch c (s.ch c).poll.1 }
  | crash (s : Sys D) (v : Nat → D) (h : s.dev.survives v) : Step cap sync whole s .crash (Sys.fresh v)

/-- Runs of the device of bdev_uring.rs:13-163 on a disk with contents `v`. -/
inductive Run (cap : Nat) (sync whole : Bool) (v : Nat → D) : List (Act D) → Sys D → Prop where
  | nil : Run cap sync whole v [] (Sys.fresh v)
  | snoc {as : List (Act D)} {a : Act D} {s s' : Sys D} :
      Run cap sync whole v as s → Step cap sync whole s a s' → Run cap sync whole v (as ++ [a]) s'

/-- Steps (bdev_uring.rs:74-156) from any state. -/
inductive Steps (cap : Nat) (sync whole : Bool) : Sys D → List (Act D) → Sys D → Prop where
  | nil (s : Sys D) : Steps cap sync whole s [] s
  | snoc {as : List (Act D)} {a : Act D} {s s' s'' : Sys D} :
      Steps cap sync whole s as s' → Step cap sync whole s' a s'' → Steps cap sync whole s (as ++ [a]) s''

/-! ## What the user sees -/

/-- What the user sees (the `IoChannel` interface, bdev_uring.rs:73-163): a request when it is added, an answer when
it is polled. -/
def Act.view : Act D → List (Ev D)
  | .add c id r => [.issue c id r]
  | .poll c out => out.map fun p => .resp c p.1 p.2.1 p.2.2
  | .crash => [.crash]
  | _ => []

/-- Ids added (bdev_uring.rs:74-121) on channel `c` since the last power loss. -/
def added (c : Nat) : List (Act D) → List Nat := List.foldl (fun l a =>
  match a with
  | .add c' id _ => if c' = c then l ++ [id] else l
  | .crash => []
  | _ => l) []

/-- Ids reported by `poll` (bdev_uring.rs:136-156) on channel `c` since the last power loss. -/
def reported (c : Nat) : List (Act D) → List (Nat × Bool) := List.foldl (fun l a =>
  match a with
  | .poll c' out => if c' = c then l ++ out.map (fun p => (p.1, p.2.1)) else l
  | .crash => []
  | _ => l) []

/-- What the kernel made of the requests of channel `c` since the last power loss (entries read in
bdev_uring.rs:138-153). -/
def completed (c : Nat) : List (Act D) → List (Nat × Int) := List.foldl (fun l a =>
  match a with
  | .done c' id res => if c' = c then l ++ [(id, res)] else l
  | .crash => []
  | _ => l) []

/-- Requests of channel `c` the channel settles itself (bdev_uring.rs:83-86, 99-102, 107-110, 116-119) since the last
power loss, with the number of entries then in the submission queue: flushes of a write-through device succeed, a
request that finds `cap` entries waiting fails. -/
def immediate (cap : Nat) (sync : Bool) (c : Nat) : List (Act D) → Nat × List (Nat × Bool) := List.foldl (fun (n, l) a =>
  match a with
  | .add c' id r =>
    if c' = c then
      if sync && isFlush r then (n, l ++ [(id, true)]) else if n ≥ cap then (n, l ++ [(id, false)]) else (n + 1, l)
    else (n, l)
  | .submit c' k => if c' = c then (n - k, l) else (n, l)
  | .crash => (0, [])
  | _ => (n, l)) (0, [])

end Verif.Uring
