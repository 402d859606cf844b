import Verif.Util.Bytes
import Verif.Spec.Disk
import Verif.Model.Toml

/-! # Object keys and the S3 store

Models `/repo/src/archive/s3_store.rs` and `/repo/src/archive/s3_store/s3_store_workers.rs`. The S3 client is a bucket whose
operations happen at one moment each; an upload that reports an error may have happened. Left out: retries inside the
client, the cap on the number of workers (any number of requests may be with workers), a worker whose runtime does not start, and the
store's errors for a closed queue (the queue is only closed on drop). -/

namespace Verif.S3
open Verif Verif.Disk Verif.Config

/-- `str::trim_matches('/')` of the standard library (s3_store.rs:54-61). -/
def trimSlash (p : List Char) : List Char := ((p.dropWhile (· = '/')).reverse.dropWhile (· = '/')).reverse

/-- The normalised prefix (s3_store.rs:54-61). -/
def normPrefix (p : Option (List Char)) : Option (List Char) :=
  match p with
  | none => none
  | some p => let p := trimSlash p; if p.isEmpty then none else some (p ++ ['/'])

/-- `key_with_prefix` (s3_store.rs:176-182). -/
def keyWithPrefix (pfx : Option (List Char)) (name : List Char) : List Char :=
  match pfx with
  | some p => p ++ name
  | none => name

/-- The key of an object in a store made with this prefix (s3_store.rs:54-61, 176-182). -/
def key (pfx : Option (List Char)) (name : List Char) : List Char := keyWithPrefix (normPrefix pfx) name

/-- `S3Request` (s3_store.rs:15-25). -/
inductive Job where
  | put (name key : List Char) (data : Bytes)
  | get (name key : List Char)

/-- `S3Result` (s3_store.rs:27-36). -/
inductive Res where
  | put (name : List Char) (ok : Bool)
  | get (name : List Char) (r : Option Bytes)

/-- Calls of the store's methods and what polling reports (s3_store.rs:112-173). -/
inductive Ev where
  | startPut (name : List Char) (data : Bytes)
  | startGet (name : List Char)
  | report (r : Res)

/-- `S3Store` (s3_store.rs:38-45) with its queues and its workers (s3_store_workers.rs:75-94): requests queued,
requests with workers, results not yet polled, and the bucket. -/
structure St where
  queue : List Job := []
  busy : List Job := []
  done : List Res := []
  bucket : List Char → Option Bytes

/-- One step of the store, of a worker, or of somebody else using the bucket (s3_store.rs:84-182,
s3_store_workers.rs:75-160). -/
inductive Step (pfx : Option (List Char)) : St → List Ev → St → Prop where
  /-- `start_put_object` (s3_store.rs:111-137) -/
  | startPut (s : St) (n : List Char) (d : Bytes) : Step pfx s [.startPut n d] { s with queue := s.queue ++ [.put n (key pfx n) d] }
  /-- `start_get_object` (s3_store.rs:139-163) -/
  | startGet (s : St) (n : List Char) : Step pfx s [.startGet n] { s with queue := s.queue ++ [.get n (key pfx n)] }
  /-- a worker receives a request (s3_store_workers.rs:85-89) -/
  | take (s : St) (j : Job) (q : List Job) : s.queue = j :: q → Step pfx s [] { s with queue := q, busy := s.busy ++ [j] }
  /-- an upload that succeeds (s3_store_workers.rs:96-105, 119-136) -/
  | putOk (s : St) (pre post : List Job) (n k : List Char) (d : Bytes) : s.busy = pre ++ .put n k d :: post →
      Step pfx s [] { s with busy := pre ++ post, done := s.done ++ [.put n true], bucket := upd s.bucket k (some d) }
  /-- an upload that fails, whether or not it has happened -/
  | putErr (s : St) (pre post : List Job) (n k : List Char) (d : Bytes) (happened : Bool) : s.busy = pre ++ .put n k d :: post →
      Step pfx s [] { s with busy := pre ++ post, done := s.done ++ [.put n false],
                             bucket := if happened then upd s.bucket k (some d) else s.bucket }
  /-- a download; a missing object is an error (s3_store_workers.rs:106-116, 138-160) -/
  | getOk (s : St) (pre post : List Job) (n k : List Char) : s.busy = pre ++ .get n k :: post →
      Step pfx s [] { s with busy := pre ++ post, done := s.done ++ [.get n (s.bucket k)] }
  | getErr (s : St) (pre post : List Job) (n k : List Char) : s.busy = pre ++ .get n k :: post →
      Step pfx s [] { s with busy := pre ++ post, done := s.done ++ [.get n none] }
  /-- one result is polled (s3_store.rs:84-96, 165-173) -/
  | report (s : St) (pre post : List Res) (r : Res) : s.done = pre ++ r :: post → Step pfx s [.report r] { s with done := pre ++ post }
  /-- another program writes an object whose key is not the store's -/
  | foreign (s : St) (k : List Char) (v : Option Bytes) : (∀ n, k ≠ key pfx n) → Step pfx s [] { s with bucket := upd s.bucket k v }

/-- Runs of a new store (s3_store.rs:48-82) on a bucket. -/
inductive Run (pfx : Option (List Char)) (b0 : List Char → Option Bytes) : List Ev → St → Prop where
  | nil : Run pfx b0 [] { bucket := b0 }
  | snoc {es es' : List Ev} {s s' : St} : Run pfx b0 es s → Step pfx s es' s' → Run pfx b0 (es ++ es') s'

end Verif.S3
