import Verif.Model.LiveArchive
import Verif.Model.Remote

/-! # Model of a stripe server on a volume that is in use

`remote-stripe-server` opens the files of a volume (/repo/src/bin/remote-stripe-server.rs:74), loads its metadata once, and serves
clients from then on (100-124). Nothing locks the files, and nothing asks whether a backend is running on them. Here it runs beside one
(`Model/Lazy`).

The server loads the metadata like the archive tool does (`Tool`, Model/LiveArchive). Sessions are threads; each has its own channel
to the devices (stripe_server/mod.rs:70-84). A sector of a stripe arrives as the device holds it at that moment (`vol`). Connecting, the
bytes of requests, and metadata requests are in `Model/Remote`; the answer to a read is that of `Remote.Srv.handleRead`. -/

namespace Verif.LiveServe
open Verif Verif.Metadata Verif.Disk

/-- What can be seen of the server and the backend: `ask q k`, the client of session `q` asks for stripe `k`; `answer q b`, it is sent the
bytes `b` (stripe_server/session.rs:57-64, 114-149). -/
inductive SLab where
  | vol (l : Lazy.Lab Bytes)
  | ask (q k : Nat)
  | answer (q : Nat) (b : Bytes)

/-- The running server (stripe_server/mod.rs:33-46). -/
structure Host where
  /-- shared by all sessions, never loaded again -/
  md : Meta
  /-- by session: the stripe being read and the sectors that have arrived in the buffer (session.rs:151-176) -/
  cur : Nat → Option (Nat × (Nat → Option Bytes))

/-- The metadata the server works with (prepare.rs:56-59). -/
def served (track : Bool) (m : Meta) : Meta := if track then m else Remote.markNoSource m

/-- The server is ready (remote-stripe-server.rs:74, stripe_server/mod.rs:48-69). -/
def Host.new (track : Bool) (m : Meta) : Host := { md := served track m, cur := fun _ => none }

/-- Which way stripe `k` is read: `some true` from the source, `some false` from the disk, `none`: not at all (session.rs:114-135). -/
def way (md : Meta) (k : Nat) : Option Bool :=
  match md.headers[k]? with
  | none => none
  | some h => if Remote.stripeNotFetched h then some true else if Remote.stripeHasData h then some false else none

/-- A session that has read `f` (mod.rs:41-46, `Remote.Srv`). -/
def Host.srv (h : Host) (f : Nat → Bytes) : Remote.Srv :=
  { md := h.md, dev := f, devOk := fun _ => true, src := some f, srcOk := fun _ => true }

/-- One step of the server while the volume is in state `s` (session.rs:42-149). -/
inductive Host.Step (c : Lazy.Cfg Bytes) (s : Lazy.Sys Bytes) : Host → List SLab → Host → Prop where
  /-- a session reads a request; it is idle until then (session.rs:42-64) -/
  | ask (h : Host) (q k : Nat) (hc : h.cur q = none) :
      Host.Step c s h [.ask q k] { h with cur := upd h.cur q (some (k, fun _ => none)) }
  /-- a sector arrives from the data device (session.rs:151-168) -/
  | disk (h : Host) (q k : Nat) (buf : Nat → Option Bytes) (x : Nat) (hc : h.cur q = some (k, buf)) (hw : way h.md k = some false)
      (hx : x / c.ss = k) (ht : x < c.tsec) :
      Host.Step c s h [] { h with cur := upd h.cur q (some (k, upd buf x (some (s.t.vol x)))) }
  /-- a sector arrives from the stripe source (session.rs:170-176) -/
  | source (h : Host) (q k : Nat) (buf : Nat → Option Bytes) (x : Nat) (v : Bytes) (hc : h.cur q = some (k, buf)) (hw : way h.md k = some true)
      (hx : x / c.ss = k) (hv : c.src x = some v) :
      Host.Step c s h [] { h with cur := upd h.cur q (some (k, upd buf x (some v))) }
  /-- what has to be read has been read, and the answer is sent (session.rs:137-148). `f` is the content of the buffer; sectors past the end of
  the image are not determined -/
  | answer (h : Host) (q k : Nat) (buf : Nat → Option Bytes) (f : Nat → Bytes) (hc : h.cur q = some (k, buf)) (hl : ∀ x, (f x).length = 512)
      (hf : ∀ x, x / c.ss = k → (way h.md k = some false ∧ x < c.tsec ∨ way h.md k = some true ∧ (c.src x).isSome = true) → buf x = some (f x)) :
      Host.Step c s h [.answer q ((h.srv f).handleRead 0 k).1] { h with cur := upd h.cur q none }
  /-- a read fails (session.rs:128, 134, 184-189); the session ends, and `q` is free for the next one -/
  | fail (h : Host) (q k : Nat) (buf : Nat → Option Bytes) (hc : h.cur q = some (k, buf)) :
      Host.Step c s h [.answer q [Remote.STATUS_SERVER_ERROR]] { h with cur := upd h.cur q none }

/-- The server is started when the volume is in state `s0`; the log has what the backend does from then on and what passes between the
server and its clients (remote-stripe-server.rs:53-125). Power stays on and the backend is not restarted in between. -/
inductive Serving (c : Lazy.Cfg Bytes) (s0 : Lazy.Sys Bytes) : List SLab → Lazy.Sys Bytes → Host → Prop where
  | ready {ls : List (Lazy.Lab Bytes)} {s : Lazy.Sys Bytes} {t : LiveArchive.Tool Bytes} {m : Meta} :
      LiveArchive.Beside c s0 ls s t → t.md = some m → Serving c s0 (ls.map .vol) s (Host.new c.track m)
  | volume {log : List SLab} {s s' : Lazy.Sys Bytes} {h : Host} {a : Lazy.Act Bytes} {ls : List (Lazy.Lab Bytes)} :
      Serving c s0 log s h → Lazy.Step c s a ls s' → Serving c s0 (log ++ ls.map .vol) s' h
  | server {log l : List SLab} {s : Lazy.Sys Bytes} {h h' : Host} :
      Serving c s0 log s h → Host.Step c s h l h' → Serving c s0 (log ++ l) s h'

end Verif.LiveServe
