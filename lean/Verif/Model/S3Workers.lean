import Verif.Model.S3

/-! # The worker threads of the S3 store

Models `spawn_workers` and `run_worker_loop` of `/repo/src/archive/s3_store/s3_store_workers.rs` and the two queues between the
store and its workers in `/repo/src/archive/s3_store.rs`, with what `Model/S3` leaves out: the number of workers, workers whose runtime does
not start, requests that can no longer be queued, and dropping the store. The queues are crossbeam channels: a message goes to one
receiver; when the last receiver is gone sending fails and what was queued is discarded; results can be read when all senders are gone.
Left out: a worker that panics, and `spawn` failing, in which case no store is made. -/

namespace Verif.S3W
open Verif Verif.Disk Verif.S3

/-- The number of worker threads made for a configured number of connections (s3_store_workers.rs:47-54). -/
def workerCount (n : Nat) : Nat :=
  let n := if n < 1 then 1 else n
  if n > 128 then 128 else n

/-- Where a worker is (s3_store_workers.rs:75-94): it has not built its runtime, it waits for a request, it works on one, it has returned. -/
inductive Wk where
  | starting
  | idle
  | working (j : Job)
  | gone

/-- A worker that still holds its end of the request queue (s3_store_workers.rs:63, 75-94). -/
def Wk.alive : Wk → Bool
  | .gone => false
  | _ => true

/-- The request a worker works on (s3_store_workers.rs:86-88). -/
def Wk.job : Wk → List Job
  | .working j => [j]
  | _ => []

/-- `S3Store` (s3_store.rs:38-45): the two queues, the workers, what `drain_results` has sorted, requests that were queued when the last
worker was gone, the bucket, and whether the store is being dropped. -/
structure St where
  queue : List Job := []
  workers : List Wk
  results : List Res := []
  puts : List Res := []
  gets : List Res := []
  discarded : List Job := []
  bucket : List Char → Option Bytes
  closed : Bool := false

/-- The store after `S3Store::new` (s3_store.rs:48-82). -/
def St.new (connections : Nat) (b0 : List Char → Option Bytes) : St :=
  { workers := List.replicate (workerCount connections) .starting, bucket := b0 }

/-- Whether somebody holds the other end of the request queue (s3_store_workers.rs:63-68). -/
def St.served (s : St) : Bool := s.workers.any Wk.alive

/-- The failed result of a request that cannot be queued (s3_store.rs:121-135, 148-162). -/
def refusal : Job → Res
  | .put n _ _ => .put n false
  | .get n _ => .get n none

/-- Whether a result is of an upload (s3_store.rs:86-92). -/
def isPut : Res → Bool
  | .put _ _ => true
  | .get _ _ => false

/-- A refusal goes to the list of its kind (s3_store.rs:122-127, 149-154). -/
def St.refuse (s : St) (j : Job) : St :=
  match j with
  | .put _ _ _ => { s with puts := s.puts ++ [refusal j] }
  | .get _ _ => { s with gets := s.gets ++ [refusal j] }

/-- `drain_results` (s3_store.rs:84-95). -/
def St.drain (s : St) : St :=
  { s with results := [], puts := s.puts ++ s.results.filter isPut, gets := s.gets ++ s.results.filter (fun r => !isPut r) }

/-- Worker `i` is now `w`; with the last receiver the queue's contents go (s3_store_workers.rs:75-94). -/
def St.setWorker (s : St) (i : Nat) (w : Wk) : St :=
  let s := { s with workers := s.workers.set i w }
  if s.served then s else { s with queue := [], discarded := s.discarded ++ s.queue }

/-- What the bucket does with a request, and the result (s3_store_workers.rs:96-160). An upload that fails may have happened. -/
inductive Outcome (b : List Char → Option Bytes) : Job → Res → (List Char → Option Bytes) → Prop where
  | putOk (n k : List Char) (d : Bytes) : Outcome b (.put n k d) (.put n true) (upd b k (some d))
  | putErr (n k : List Char) (d : Bytes) (happened : Bool) : Outcome b (.put n k d) (.put n false) (if happened then upd b k (some d) else b)
  | getOk (n k : List Char) : Outcome b (.get n k) (.get n (b k)) b
  | getErr (n k : List Char) : Outcome b (.get n k) (.get n none) b

/-- What happens (s3_store.rs:99-173, s3_store_workers.rs:75-117). -/
inductive Act where
  | queued (j : Job)
  | refused (j : Job)
  | boot (i : Nat) (ok : Bool)
  | take (i : Nat) (j : Job)
  | finish (i : Nat) (j : Job) (r : Res)
  | pollPuts (out : List Res)
  | pollGets (out : List Res)
  | close
  | exit (i : Nat)
  | dropped
  | foreign

/-- A request for an object of the store: the key is the prefix and the name (s3_store.rs:113-118, 141-145). -/
def jobOf (pfx : Option (List Char)) (n : List Char) : Option Bytes → Job
  | some d => .put n (key pfx n) d
  | none => .get n (key pfx n)

/-- One step of the store's user, of a worker, or of another program (s3_store.rs:84-182, s3_store_workers.rs:75-160). -/
inductive Step (pfx : Option (List Char)) : St → Act → St → Prop where
  /-- `start_put_object` and `start_get_object` (s3_store.rs:111-163) -/
  | queued (s : St) (n : List Char) (d : Option Bytes) : s.closed = false → s.served = true →
      Step pfx s (.queued (jobOf pfx n d)) { s with queue := s.queue ++ [jobOf pfx n d] }
  /-- the same when no worker is left (s3_store.rs:120-128, 147-155) -/
  | refused (s : St) (n : List Char) (d : Option Bytes) : s.closed = false → s.served = false →
      Step pfx s (.refused (jobOf pfx n d)) (s.refuse (jobOf pfx n d))
  /-- the runtime is built or not (s3_store_workers.rs:76-85) -/
  | boot (s : St) (i : Nat) (ok : Bool) : s.workers[i]? = some .starting →
      Step pfx s (.boot i ok) (s.setWorker i (if ok then .idle else .gone))
  /-- `rx.recv()` (s3_store_workers.rs:87) -/
  | take (s : St) (i : Nat) (j : Job) (q : List Job) : s.workers[i]? = some .idle → s.queue = j :: q →
      Step pfx s (.take i j) ({ s with queue := q }.setWorker i (.working j))
  /-- `process_request` (s3_store_workers.rs:96-117); the result is sent whether or not it will be read -/
  | finish (s : St) (i : Nat) (j : Job) (r : Res) (b : List Char → Option Bytes) : s.workers[i]? = some (.working j) →
      Outcome s.bucket j r b → Step pfx s (.finish i j r) ({ s with results := s.results ++ [r], bucket := b }.setWorker i .idle)
  /-- `poll_puts` (s3_store.rs:165-168) -/
  | pollPuts (s : St) : s.closed = false → Step pfx s (.pollPuts s.drain.puts) { s.drain with puts := [] }
  /-- `poll_gets` (s3_store.rs:170-173) -/
  | pollGets (s : St) : s.closed = false → Step pfx s (.pollGets s.drain.gets) { s.drain with gets := [] }
  /-- `drop`: the sender is given up (s3_store.rs:99-101) -/
  | close (s : St) : s.closed = false → Step pfx s .close { s with closed := true }
  /-- `rx.recv()` fails: no sender and nothing queued (s3_store_workers.rs:87-93) -/
  | exit (s : St) (i : Nat) : s.closed = true → s.queue = [] → s.workers[i]? = some .idle → Step pfx s (.exit i) (s.setWorker i .gone)
  /-- every worker has been joined (s3_store.rs:102-107) -/
  | dropped (s : St) : s.closed = true → s.served = false → Step pfx s .dropped s.drain
  /-- another program writes an object whose key is not the store's (as in `Model/S3`; no code of s3_store.rs:48-182) -/
  | foreign (s : St) (k : List Char) (v : Option Bytes) : (∀ n, k ≠ key pfx n) → Step pfx s .foreign { s with bucket := upd s.bucket k v }

/-- Runs of a new store (s3_store.rs:48-82). -/
inductive Run (pfx : Option (List Char)) (connections : Nat) (b0 : List Char → Option Bytes) : List Act → St → Prop where
  | nil : Run pfx connections b0 [] (St.new connections b0)
  | snoc {as : List Act} {a : Act} {s s' : St} : Run pfx connections b0 as s → Step pfx s a s' → Run pfx connections b0 (as ++ [a]) s'

end Verif.S3W
