import Verif.Model.Archive

/-! # Model of the archive stripe source and of exporting an archive

/repo/src/stripe_source/archive.rs (requests and polling) and /repo/src/export_archive.rs. -/

namespace Verif.Archive
open Verif Verif.Crypt Verif.Disk

/-! ## The stripe source

Requests are numbered; the number also stands for the caller's buffer of that request, which the code holds as a shared
reference (stripe_source/archive.rs:20-23). Distinct requests are given distinct buffers. -/

/-- `PendingRequest` with its key in `pending_requests` (stripe_source/archive.rs:20-23, 33). -/
structure Pend where
  name : Name
  sha : Bytes
  /-- stripe and request number -/
  stripes : List (Nat × Nat)

/-- The changing part of `ArchiveStripeSource` (stripe_source/archive.rs:32-33) with the reads the store is working on
and the caller's buffers. -/
structure Rd where
  pending : List Pend := []
  /-- object reads handed to the store and not completed -/
  gets : List Name := []
  /-- `finished_requests`, with the request number -/
  finished : List (Nat × Bool × Nat) := []
  /-- contents of the buffers -/
  bufs : Nat → Bytes
  /-- history: number of requests, and what they were for -/
  nreq : Nat := 0
  req : Nat → Nat := fun _ => 0

/-- `start_fetch_stripe` (stripe_source/archive.rs:107-129). -/
def Rd.startFetch (s : Rd) (id : Nat) (sha : Bytes) (r : Nat) : Rd :=
  let name := objectKey sha
  if s.pending.any (·.name == name) then
    { s with pending := s.pending.map fun p => if p.name = name then { p with stripes := p.stripes ++ [(id, r)] } else p }
  else { s with gets := s.gets ++ [name], pending := s.pending ++ [⟨name, sha, [(id, r)]⟩] }

/-- `request` (stripe_source/archive.rs:214-231). -/
def Rd.request (src : Src) (s : Rd) (id : Nat) : Rd :=
  let r := s.nreq
  let s := { s with nreq := r + 1, req := upd s.req r id }
  let fill := { s with bufs := upd s.bufs r (zeros (s.bufs r).length), finished := s.finished ++ [(id, true, r)] }
  match tableOf src.table id with
  | some .zero => fill
  | some (.obj sha) => s.startFetch id sha r
  | none => fill

/-- One iteration of `finish_pending_request` (stripe_source/archive.rs:131-142). -/
def Rd.finishOne (P : Prims) (src : Src) (data sha : Bytes) (s : Rd) (x : Nat × Nat) : Rd :=
  match finishFetch P src x.1 (s.bufs x.2).length data sha with
  | .error _ => { s with finished := s.finished ++ [(x.1, false, x.2)] }
  | .ok b => { s with bufs := upd s.bufs x.2 b, finished := s.finished ++ [(x.1, true, x.2)] }

/-- One completion in `poll` (stripe_source/archive.rs:235-254). -/
def Rd.complete (P : Prims) (src : Src) (s : Rd) (c : Name × Option Bytes) : Rd :=
  match s.pending.find? (·.name == c.1) with
  | none => s
  | some p =>
    let s := { s with pending := s.pending.filter (·.name != c.1) }
    match c.2 with
    | some data => p.stripes.foldl (Rd.finishOne P src data p.sha) s
    | none => { s with finished := s.finished ++ p.stripes.map fun x => (x.1, false, x.2) }

/-- `poll` (stripe_source/archive.rs:233-256): the completions returned and the new state. `rest` are the reads the
store keeps. -/
def Rd.poll (P : Prims) (src : Src) (s : Rd) (cs : List (Name × Option Bytes)) (rest : List Name) :
    List (Nat × Bool × Nat) × Rd :=
  let s := cs.foldl (Rd.complete P src) { s with gets := rest }
  (s.finished, { s with finished := [] })

/-- `busy` (stripe_source/archive.rs:258-260). -/
def Rd.busy (s : Rd) : Bool := !s.pending.isEmpty || !s.finished.isEmpty

/-- `has_stripe` (stripe_source/archive.rs:270-272). -/
def Src.hasStripe (src : Src) (id : Nat) : Bool := (tableOf src.table id).isSome

/-- `sector_count` (stripe_source/archive.rs:262-268) in stripes: one more than the largest stripe of the mapping. -/
def Src.stripes (src : Src) : Nat := (src.table.map fun kv => kv.1 + 1).foldl max 0

/-- The store answers each read it was given once, with the object's contents or an error. (`start_get_object` and
`poll_gets`, archive/mod.rs:21, 27; the store is a parameter here.) -/
def Answers (store : Name → Option Bytes) (gets : List Name) (cs : List (Name × Option Bytes)) (rest : List Name) : Prop :=
  gets.Perm (cs.map (·.1) ++ rest) ∧ ∀ n d, (n, some d) ∈ cs → store n = some d

/-- A history of requests and polls; the list is what was delivered so far. Calls of `request` and `poll`
(stripe_source/archive.rs:214-256) in any order. -/
inductive RRun (P : Prims) (src : Src) (store : Name → Option Bytes) (s0 : Rd) : List (Nat × Bool × Nat) → Rd → Prop where
  | nil : RRun P src store s0 [] s0
  | request {out s} (h : RRun P src store s0 out s) (id : Nat) : RRun P src store s0 out (s.request src id)
  | poll {out s} (h : RRun P src store s0 out s) (cs : List (Name × Option Bytes)) (rest : List Name)
      (ha : Answers store s.gets cs rest) :
      RRun P src store s0 (out ++ (s.poll P src cs rest).1) (s.poll P src cs rest).2

/-! ## Exporting -/

/-- Where `export_archive` is: in its loop (export_archive.rs:53-96), returned Ok (99), returned Err (74). -/
inductive EPhase where
  | running | done | failed
deriving DecidableEq, Repr

/-- The variables of `export_archive` (export_archive.rs:48-51). The file is its contents. -/
structure Ex where
  rd : Rd
  next : Nat := 0
  written : Nat := 0
  /-- `in_flight`: stripe and buffer -/
  inflight : List (Nat × Nat) := []
  file : Bytes
  phase : EPhase := .running

/-- `MAX_FETCHES` (export_archive.rs:17). -/
def maxFetches : Nat := 16

/-- Body of the inner loop (export_archive.rs:55-68); `next` below the stripe count. -/
def Ex.submit (src : Src) (e : Ex) : Ex :=
  if src.hasStripe e.next = false then { e with next := e.next + 1, written := e.written + 1 }
  else { e with next := e.next + 1, inflight := e.inflight ++ [(e.next, e.rd.nreq)], rd := e.rd.request src e.next }

/-- One completion (export_archive.rs:72-86); `size` is the stripe size in bytes. Writes stay inside the pre-allocated
file. -/
def Ex.one (size : Nat) (e : Ex) (c : Nat × Bool × Nat) : Ex :=
  if e.phase ≠ .running then e
  else if c.2.1 = false then { e with phase := .failed }
  else match e.inflight.find? (·.1 == c.1) with
    | none => e
    | some x => { e with inflight := e.inflight.filter (·.1 != c.1), written := e.written + 1,
                         file := splice e.file (c.1 * size) (e.rd.bufs x.2) }

/-- Polling and writing (export_archive.rs:71-86). -/
def Ex.poll (P : Prims) (src : Src) (e : Ex) (cs : List (Name × Option Bytes)) (rest : List Name) : Ex :=
  let r := e.rd.poll P src cs rest
  r.1.foldl (Ex.one (src.ssc * 512)) { e with rd := r.2 }

/-- Start of `export_archive` (export_archive.rs:25-51). Buffers are zeroed (`shared_buffer`), one stripe long. -/
def Ex.init (src : Src) : Ex :=
  { rd := { bufs := fun _ => zeros (src.ssc * 512) }, file := zeros (src.stripes * (src.ssc * 512)) }

/-- Moves of the export loop (export_archive.rs:53-96). The order of submissions and polls is left open. Errors of file
operations end the export and are not shown. -/
inductive EStep (P : Prims) (src : Src) (store : Name → Option Bytes) : Ex → Ex → Prop where
  | submit (e : Ex) (hr : e.phase = .running) (hl : e.inflight.length < maxFetches) (hn : e.next < src.stripes) :
      EStep P src store e (e.submit src)
  | poll (e : Ex) (hr : e.phase = .running) (cs : List (Name × Option Bytes)) (rest : List Name)
      (ha : Answers store e.rd.gets cs rest) : EStep P src store e (e.poll P src cs rest)
  | done (e : Ex) (hr : e.phase = .running) (hw : ¬ e.written < src.stripes) : EStep P src store e { e with phase := .done }

/-- Runs of `export_archive` (export_archive.rs:48-99). -/
inductive ERun (P : Prims) (src : Src) (store : Name → Option Bytes) : Ex → Prop where
  | init : ERun P src store (Ex.init src)
  | step {e e'} : ERun P src store e → EStep P src store e e' → ERun P src store e'

end Verif.Archive
