import Verif.Model.Lazy

/-! # The metadata flusher with its buffers, its batches and its io_uring channel

`Model/Lazy` starts one metadata update at a time, counts the free buffers and lets a refused submission leave nothing behind. Here
`MetadataFlusher` (metadata_flusher.rs) is modelled once more by itself, closer to the code: the sixteen buffers with
their contents and the order in which they are reused, all updates of one call of `start_writes` submitted together, the answers of
one call of `poll` handled together, and an io_uring channel (bdev_uring.rs:73-160) whose kernel reads a buffer when it carries the
write out, and whose submission queue keeps its entries when `submit` fails.

Simplifications: the submission queue never runs full (bdev_uring.rs:99-102 answers with a failure then); the channel is not
opened with O_DSYNC (bdev_uring.rs:107-110); a sector is written as a whole. -/

namespace Verif.MetaRing
open Verif Verif.Metadata
open Verif.Lazy (flag)

/-- `RequestStage` (metadata_flusher.rs:28-32). -/
inductive Stage where
  | writing
  | flushing
deriving DecidableEq

/-- `HeaderUpdateStatus` (metadata_flusher.rs:34-41); the buffer is its index in the pool, the stripe is the key. -/
structure Update where
  buf : Nat
  stage : Stage
  header : UInt8
  mask : UInt8
  sector : Nat

/-- An entry of the submission queue without its id: `add_write` of one sector (bdev_uring.rs:90-104) or `add_flush` (106-121). -/
inductive Sqe where
  | write (sector buf : Nat)
  | flush
deriving DecidableEq

/-- What the kernel is working on (bdev_uring.rs:123-134 hands it over); `done`: it has been carried out and may be reported. `snap` are the contents of each sector from
the moment the flush was handed over on: what the flush makes durable is among them. -/
inductive KOp where
  | write (sector buf : Nat) (done : Bool)
  | flush (snap : Nat → Bytes → Prop) (done : Bool)

/-- `MetadataFlusher` (metadata_flusher.rs:43-51) with its buffer pool (aligned_buffer_pool.rs:9-13: `free` are the available
indices in order, `bufs` the contents), its channel (bdev_uring.rs:13-21) and the metadata device: `disk` is what a read returns, `surv`
what may be there after a power loss. `told` are the calls of `set_stripe_header`, latest first. -/
structure St where
  hdrs : Bytes
  updates : Nat → Option Update
  busy : Nat → Bool
  queue : List (Nat × UInt8)
  free : List Nat
  bufs : Nat → Bytes
  ring : List (Nat × Sqe)
  kern : List (Nat × KOp)
  disk : Nat → Bytes
  surv : Nat → Bytes → Prop
  told : List (Nat × UInt8)

/-- `f` changed at one point. No counterpart in the code. -/
def put {α : Type} (f : Nat → α) (k : Nat) (v : α) : Nat → α := fun x => if x = k then v else f x

/-- `MetadataFlusher::new` (metadata_flusher.rs:54-83) on a device that holds `disk`, from which the headers `hdrs` were loaded;
`MAX_CONCURRENT_CHANGES` (13) buffers, all zero (aligned_buffer_pool.rs:16-30). -/
def St.init (hdrs : Bytes) (disk : Nat → Bytes) : St :=
  { hdrs, updates := fun _ => none, busy := fun _ => false, queue := [], free := List.range 16, bufs := fun _ => zeros 512,
    ring := [], kern := [], disk, surv := fun x v => v = disk x, told := [] }

/-- The update of one request that is not skipped (metadata_flusher.rs:204-227): the first free buffer is filled with the new
headers of the group and its write is added to the submission queue. -/
def begin1 (s : St) (k : Nat) (mask : UInt8) (b : Nat) (rest : List Nat) : St :=
  let h := s.hdrs.getD k 0 ||| mask
  let hdrs := s.hdrs.set k h
  { s with
    hdrs, free := rest
    bufs := put s.bufs b (writeSector (groupHeaders hdrs (stripeIdToGroup k)))
    ring := s.ring ++ [(k, .write (stripeIdToSector k) b)]
    busy := put s.busy (stripeIdToSector k) true
    updates := put s.updates k (some { buf := b, stage := .writing, header := h, mask, sector := stripeIdToSector k }) }

/-- The loop of `start_writes` (metadata_flusher.rs:184-228) on the queue, which is the first argument; the second result is
`newly_added`. -/
def startLoop : List (Nat × UInt8) → St → St × List Nat
  | [], s => ({ s with queue := [] }, [])
  | (k, mask) :: q, s =>
    match s.free with
    | [] => ({ s with queue := (k, mask) :: q }, [])
    | b :: rest =>
      if s.busy (stripeIdToSector k) then ({ s with queue := (k, mask) :: q }, [])
      else if flag (s.hdrs.getD k 0) mask then startLoop q s
      else
        let r := startLoop q (begin1 s k mask b rest)
        (r.1, k :: r.2)

/-- One round of `cleanup_failed_submission` (metadata_flusher.rs:109-117). -/
def cleanup1 (s : St) (k : Nat) (returnBuffer : Bool) : St :=
  match s.updates k with
  | none => s
  | some u => { s with
      updates := put s.updates k none
      hdrs := s.hdrs.set k (s.hdrs.getD k 0 &&& ~~~u.mask)
      free := if returnBuffer then s.free ++ [u.buf] else s.free
      busy := put s.busy u.sector false }

/-- `cleanup_failed_submission` (metadata_flusher.rs:108-118). -/
def cleanup (s : St) (ks : List Nat) (returnBuffer : Bool) : St := ks.foldl (fun s k => cleanup1 s k returnBuffer) s

/-- What the kernel makes of an entry it receives; a flush covers what has been written so far. No counterpart in the
code. -/
def accept (s : St) : Nat × Sqe → Nat × KOp
  | (k, .write x b) => (k, .write x b false)
  | (k, .flush) => (k, .flush (fun x v => v = s.disk x) false)

/-- `submit` that succeeds (bdev_uring.rs:123-134): the kernel receives the whole submission queue, left-over entries included. -/
def submit (s : St) : St := { s with ring := [], kern := s.kern ++ s.ring.map (accept s) }

/-- `start_writes` (metadata_flusher.rs:181-242); `ok`: `submit` succeeds. -/
def startWrites (s : St) (ok : Bool) : St :=
  let r := startLoop s.queue s
  if r.2 = [] then r.1 else if ok then submit r.1 else cleanup r.1 r.2 true

/-- Variables of the loop of `poll_channel` (metadata_flusher.rs:121-122). -/
structure Poll where
  s : St
  finished : List (Nat × UInt8)
  flushing : List Nat

/-- One round of the loop of `poll_channel` (metadata_flusher.rs:124-159). -/
def poll1 (p : Poll) (k : Nat) (ok : Bool) : Poll :=
  match p.s.updates k with
  | none => p
  | some u =>
    if ok then
      match u.stage with
      | .writing => { p with
          s := { p.s with
            free := p.s.free ++ [u.buf]
            ring := p.s.ring ++ [(k, .flush)]
            updates := put p.s.updates k (some { u with stage := .flushing }) }
          flushing := p.flushing ++ [k] }
      | .flushing => { p with
          s := { p.s with busy := put p.s.busy u.sector false }
          finished := p.finished ++ [(k, u.header)] }
    else { p with
      s := { p.s with
        hdrs := p.s.hdrs.set k (p.s.hdrs.getD k 0 &&& ~~~u.mask)
        free := if u.stage = .writing then p.s.free ++ [u.buf] else p.s.free
        busy := put p.s.busy u.sector false
        updates := put p.s.updates k none } }

/-- The loop over the finished stripes (metadata_flusher.rs:161-165). -/
def tell (s : St) (fin : List (Nat × UInt8)) : St :=
  fin.foldl (fun s kh => { s with updates := put s.updates kh.1 none, told := kh :: s.told }) s

/-- `poll_channel` (metadata_flusher.rs:120-179) when the channel's `poll` returns `cs`; `ok`: `submit` succeeds. -/
def pollChannel (s : St) (cs : List (Nat × Bool)) (ok : Bool) : St :=
  let p := cs.foldl (fun p c => poll1 p c.1 c.2) ⟨s, [], []⟩
  let s' := tell p.s p.finished
  if p.flushing = [] then s' else if ok then submit s' else cleanup s' p.flushing false

/-- The kernel carries out the request number `i` it has (no counterpart in the code): a write takes what is in the buffer now,
flushes under way may or may not cover it; a flush makes durable what its snapshot says. -/
def exec (s : St) (i : Nat) : St :=
  match s.kern[i]? with
  | some (k, .write x b false) => { s with
      disk := put s.disk x (s.bufs b)
      surv := fun y v => s.surv y v ∨ (y = x ∧ v = s.bufs b)
      kern := (s.kern.set i (k, .write x b true)).map fun e => match e with
        | (k', .flush snap false) => (k', .flush (fun y v => snap y v ∨ (y = x ∧ v = s.bufs b)) false)
        | e => e }
  | some (k, .flush snap false) => { s with
      surv := fun y v => s.surv y v ∧ snap y v
      kern := s.kern.set i (k, .flush snap true) }
  | _ => s

/-- The kernel has carried out the request. No counterpart in the code. -/
def KOp.done : KOp → Bool
  | .write _ _ d => d
  | .flush _ d => d

/-- `poll` of the channel (bdev_uring.rs:136-160) takes the answers `cs` of some of the kernel's requests, in any order; a
request reported successful has been carried out, one reported failed has been or has not. -/
inductive Takes : List (Nat × KOp) → List (Nat × Bool) → List (Nat × KOp) → Prop where
  | nil (l : List (Nat × KOp)) : Takes l [] l
  | cons (l : List (Nat × KOp)) (i k : Nat) (op : KOp) (ok : Bool) (cs : List (Nat × Bool)) (l' : List (Nat × KOp))
      (h : l[i]? = some (k, op)) (hd : ok = true → op.done = true) (ht : Takes (l.eraseIdx i) cs l') : Takes l ((k, ok) :: cs) l'

/-- What happens to the flusher (metadata_flusher.rs:85-243). -/
inductive Act where
  /-- `set_stripe_fetched` (metadata_flusher.rs:89-94) -/
  | setFetched (k : Nat)
  /-- `set_stripe_written` (metadata_flusher.rs:96-101) -/
  | setWritten (k : Nat)
  /-- the first half of `update` (metadata_flusher.rs:104) -/
  | start (ok : Bool)
  /-- the second half of `update` (metadata_flusher.rs:105) -/
  | poll (cs : List (Nat × Bool)) (ok : Bool)
  /-- the kernel carries out a request -/
  | exec (i : Nat)
deriving DecidableEq

/-- Steps of the flusher and of the kernel (metadata_flusher.rs:85-242). A request for a stripe the metadata do not have panics
(199) and is left out. -/
inductive Step : St → Act → St → Prop where
  | setFetched (s : St) (k : Nat) (h : k < s.hdrs.length) : Step s (.setFetched k) { s with queue := s.queue ++ [(k, FETCHED)] }
  | setWritten (s : St) (k : Nat) (h : k < s.hdrs.length) : Step s (.setWritten k) { s with queue := s.queue ++ [(k, WRITTEN)] }
  | start (s : St) (ok : Bool) : Step s (.start ok) (startWrites s ok)
  | poll (s : St) (cs : List (Nat × Bool)) (ok : Bool) (l : List (Nat × KOp)) (h : Takes s.kern cs l) :
      Step s (.poll cs ok) (pollChannel { s with kern := l } cs ok)
  | exec (s : St) (i : Nat) : Step s (.exec i) (exec s i)

/-- Runs each of whose steps satisfies `P`, with what happened. No counterpart in the code. -/
inductive Run (P : St → Act → Prop) : St → List Act → St → Prop where
  | nil (s : St) : Run P s [] s
  | snoc {s s' s'' : St} {as : List Act} {a : Act} : Run P s as s' → P s' a → Step s' a s'' → Run P s (as ++ [a]) s''

end Verif.MetaRing
