import Verif.Model.Rpc

/-! # The RPC server with many clients

Models `run_listener` (/repo/src/backends/common/rpc.rs:119-158) and, one per accepted client and in any interleaving,
the loop of `handle_client` (rpc.rs:160-193). A line is read byte by byte here; the server reads ahead into a buffer of
its own, which no client sees. Connections are numbered in the order in which clients connect. The test-only
`stop_requested` (rpc.rs:126-129) is never set in a running backend and is left out. -/

namespace Verif.RpcServer
open Verif Rpc

/-- Why the server closed a connection (rpc.rs): `eof` the client was done (167), `notText` a line that is not UTF-8
(187-190), `failed` reading or writing failed (182-190), `dropped` no thread could be made for it (134-139), `reset` it
was still waiting when the listener gave up (141-147). -/
inductive Why where
  | eof | notText | failed | dropped | reset
deriving DecidableEq

/-- A connection: waiting to be accepted, with a handler thread (rpc.rs:134-137), or closed by the server. -/
inductive Life where
  | waiting
  | served
  | closed (why : Why)
deriving DecidableEq

/-- A connection. `sent` is all the client has sent, `sock` the part the server has not read, `shut` whether the client
will send no more, `line` the `String` of `handle_client` (rpc.rs:162), `got` the text sent back, `snaps` what each answer
found in the backend (`state`, rpc.rs:160). -/
structure Conn where
  sent : Bytes
  sock : Bytes
  shut : Bool
  line : Bytes
  got : Text
  snaps : List Snap
  life : Life

/-- A client that has just connected (rpc.rs:125: `incoming`). -/
def Conn.new : Conn := ⟨[], [], false, [], [], [], .waiting⟩

/-- The server: whether the socket is there and listened to (rpc.rs:125, 152), and the connections. -/
structure Srv where
  listening : Bool
  conns : List Conn

/-- The server when it starts (rpc.rs:119-125). -/
def Srv.init : Srv := ⟨true, []⟩

/-- The descriptors connections take in the server's process: one per handler, as the stream is dropped when the handler
returns (rpc.rs:136, 160, 193). -/
def Srv.fds (s : Srv) : Nat := (s.conns.filter fun k => k.life = .served).length

/-- The connection `accept` returns next: the first that is waiting (rpc.rs:125; a Unix socket's queue is in order). -/
def Srv.next (s : Srv) : Option Nat := s.conns.findIdx? fun k => k.life = .waiting

/-- Errors of `accept` (rpc.rs:141-147): `interrupted`, `full` for no free descriptor (EMFILE), `other` the rest. -/
inductive AcceptErr where
  | interrupted | full | other
deriving DecidableEq

/-- How sending an answer goes (`send_response`, rpc.rs:182-185): all of it, or an error after some of it. -/
inductive Send where
  | ok
  | fails (part : Nat)
deriving DecidableEq

/-- What can happen. The first three are the clients', the next two the listener's, the rest those of the handler of
connection `c` (rpc.rs:125-148, 164-192). `st` is what the backend holds when the request is answered. -/
inductive Act where
  | connect
  | send (c : Nat) (bs : Bytes)
  | shut (c : Nat)
  | accept (spawnOk : Bool)
  | acceptErr (e : AcceptErr)
  | read (c : Nat) (st : Snap) (out : Send)
  | readErr (c : Nat)

/-- `handle_client` with one line read (rpc.rs:168-190). -/
def Conn.answer (P : Params) (k : Conn) (l : Bytes) (st : Snap) (out : Send) : Conn :=
  match P.utf8 l with
  | none => { k with life := .closed .notText }
  | some t =>
    if trim t = [] then { k with line := [] }
    else
      let a := ser (Rpc.answer P st (trim t)) ++ ['\n']
      match out with
      | .ok => { k with line := [], got := k.got ++ a, snaps := k.snaps ++ [st] }
      | .fails part => { k with got := k.got ++ a.take part, snaps := k.snaps ++ [st], life := .closed .failed }

/-- `read_line` in `handle_client` (rpc.rs:165-168): the next byte, which completes a line if it is a newline; at the end
of the input an unfinished line counts as a line, and with none the session is over. It blocks while there is nothing to
read. -/
def Conn.read (P : Params) (k : Conn) (st : Snap) (out : Send) : Option Conn :=
  match k.sock with
  | b :: r =>
    if b = 10 then some ({ k with sock := r }.answer P (k.line ++ [b]) st out)
    else some { k with sock := r, line := k.line ++ [b] }
  | [] =>
    if k.shut then
      if k.line = [] then some { k with life := .closed .eof } else some (k.answer P k.line st out)
    else none

/-- The listener gives up (rpc.rs:146-156): the socket is removed and dropped, and whoever waits is turned away. -/
def Srv.stop (s : Srv) : Srv :=
  ⟨false, s.conns.map fun k => if k.life = .waiting then { k with life := .closed .reset } else k⟩

/-- One event (rpc.rs:119-193); `none` if it cannot happen. `lim` is the number of descriptors the process has left for
connections. Once the socket is gone `connect` fails. -/
def act (P : Params) (lim : Nat) (s : Srv) : Act → Option Srv
  | .connect => if s.listening then some { s with conns := s.conns ++ [.new] } else none
  | .send c bs =>
    match s.conns[c]? with
    | some k =>
      if k.shut then none
      else match k.life with
        | .closed _ => none
        | _ => some { s with conns := s.conns.set c { k with sent := k.sent ++ bs, sock := k.sock ++ bs } }
    | none => none
  | .shut c =>
    match s.conns[c]? with
    | some k => some { s with conns := s.conns.set c { k with shut := true } }
    | none => none
  | .accept spawnOk =>
    if s.listening ∧ s.fds < lim then
      match s.next with
      | some c => some { s with conns := s.conns.modify c fun k => { k with life := if spawnOk then .served else .closed .dropped } }
      | none => none
    else none
  | .acceptErr .interrupted => if s.listening then some s else none
  | .acceptErr .full => if s.listening ∧ lim ≤ s.fds then some s.stop else none
  | .acceptErr .other => if s.listening then some s.stop else none
  | .read c st out =>
    match s.conns[c]? with
    | some k =>
      if k.life = .served then (k.read P st out).map fun k => { s with conns := s.conns.set c k } else none
    | none => none
  | .readErr c =>
    match s.conns[c]? with
    | some k => if k.life = .served then some { s with conns := s.conns.set c { k with life := .closed .failed } } else none
    | none => none

/-- A sequence of events (rpc.rs:119-193). -/
def run (P : Params) (lim : Nat) (s : Srv) : List Act → Option Srv
  | [] => some s
  | a :: as => (act P lim s a).bind fun s => run P lim s as

end Verif.RpcServer
