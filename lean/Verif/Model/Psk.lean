import Verif.Model.Remote

/-! # Credentials of the stripe server and its accept loop

Models `/repo/src/stripe_server/psk.rs`, `/repo/src/bin/remote-stripe-server.rs:75-125` and
`/repo/src/stripe_server/client.rs:205-228`.

OpenSSL is not modelled as code. What is assumed of it is written in `Lib`, `cstr`, `Creds.peer` and `accept` below:
it hands the callbacks buffers, cuts identities at the first NUL, refuses identities longer than its own limit, and
completes a pre-shared-key handshake exactly when both ends use the same key. -/

namespace Verif.Psk
open Verif Verif.Metadata Verif.Remote

/-- `PskCredentials` (psk.rs:13-17). -/
structure Creds where
  identity : Bytes
  secret : Bytes
deriving DecidableEq

/-- Errors of making credentials (psk.rs:35-51, 57-78, bin/remote-stripe-server.rs:83-87). -/
inductive CredErr where
  | emptyIdentity
  | shortSecret
  | badBase64
  | undecryptable
  | onlyOne
  | noSuchSecret
deriving DecidableEq

/-- `PskCredentials::new` (psk.rs:29-51). -/
def Creds.new (identity secret : Bytes) : Except CredErr Creds :=
  if identity.isEmpty then .error .emptyIdentity
  else if secret.length < 16 then .error .shortSecret
  else .ok ⟨identity, secret⟩

/-- `parse_psk_credentials` (psk.rs:57-78); `decode` is base64 decoding and `decrypt` the key encryption cipher's
`decrypt_psk_secret` (crypt/key.rs:94-102). -/
def parseCreds (decode decrypt : Bytes → Option Bytes) : Option Bytes → Option Bytes → Except CredErr (Option Creds)
  | some identity, some secretB64 =>
    match decode secretB64 with
    | none => .error .badBase64
    | some enc =>
      match decrypt enc with
      | none => .error .undecryptable
      | some sec => (Creds.new identity sec).map some
  | none, none => .ok none
  | _, _ => .error .onlyOne

/-- The credentials a server process uses (bin/remote-stripe-server.rs:75-92): `psk` is the identity and the name of
the secret from the listen configuration, `secrets` its resolved secrets. A client takes its own the same way
(client.rs:205-213). -/
def configCreds (psk : Option (Bytes × Bytes)) (secrets : Bytes → Option Bytes) : Except CredErr (Option Creds) :=
  match psk with
  | none => .ok none
  | some (identity, name) =>
    match secrets name with
    | none => .error .noSuchSecret
    | some sec => (Creds.new identity sec).map some

/-! ## The callbacks -/

/-- The client's callback (psk.rs:85-101) on the identity and key buffers: the buffers afterwards and the length it
returns, or `none` when it reports an error. -/
def Creds.clientCb (c : Creds) (idBuf keyBuf : Bytes) : Option (Bytes × Bytes × Nat) :=
  if c.identity.length ≥ idBuf.length then none
  else if c.secret.length > keyBuf.length then none
  else some (c.identity ++ [0] ++ idBuf.drop (c.identity.length + 1), c.secret ++ keyBuf.drop c.secret.length, c.secret.length)

/-- `openssl::memcmp::eq` as documented: it panics (`none`) when the lengths differ (used at psk.rs:118). -/
def memcmpEq (a b : Bytes) : Option Bool := if a.length = b.length then some (decide (a = b)) else none

/-- Outcome of the server's callback (psk.rs:117-128): an error, a panic, or a filled buffer and the key's length. -/
inductive CbRes where
  | deny
  | panic
  | key (buf : Bytes) (n : Nat)
deriving DecidableEq

/-- The server's callback (psk.rs:117-128). -/
def Creds.serverCb (c : Creds) (received : Option Bytes) (keyBuf : Bytes) : CbRes :=
  match memcmpEq (received.getD []) c.identity with
  | none => .panic
  | some false => .deny
  | some true =>
    if c.secret.length > keyBuf.length then .deny
    else .key (c.secret ++ keyBuf.drop c.secret.length) c.secret.length

/-! ## The TLS library -/

/-- What the library brings along: the buffers it passes to callbacks (psk.rs:85, 117; their contents are arbitrary),
the longest identity it takes from the wire, and whether a panic in a callback, which C code has called, aborts the
process (as Rust does for `extern "C"` functions) or ends only the thread. -/
structure Lib where
  idBuf : Bytes
  keyBuf : Bytes
  srvBuf : Bytes
  maxIdentity : Nat
  panicAborts : Bool

/-- A C string: the bytes before the first NUL (how identities leave `identity_buf`, psk.rs:96-97, and arrive as
`received_identity`, 117). -/
def cstr (b : Bytes) : Bytes := b.takeWhile (· ≠ 0)

/-- Anyone on the other end of a connection, by what they bring to a handshake (psk.rs:107, 134). -/
inductive Peer where
  /-- Sends something that is no handshake, or falls silent: the handshake ends in an error. -/
  | noise
  /-- Sends this identity (or none) and computes with this key. -/
  | keyed (identity : Option Bytes) (key : Bytes)
deriving DecidableEq

/-- How this program's client with credentials `c` appears to a server (psk.rs:80-110); `none`: its own callback fails,
and it gives up. -/
def Creds.peer (c : Creds) (lib : Lib) : Option Peer :=
  match c.clientCb lib.idBuf lib.keyBuf with
  | none => none
  | some (ib, kb, n) => some (.keyed (some (cstr ib)) (kb.take n))

/-- How a handshake ends for the server (psk.rs:134). -/
inductive Acc where
  | admitted
  | refused
  | crash
deriving DecidableEq

/-- `wrap_psk_server_stream` (psk.rs:112-137) on a connection from `p`. -/
def accept (lib : Lib) (c : Creds) : Peer → Acc
  | .noise => .refused
  | .keyed identity key =>
    if lib.maxIdentity < (identity.getD []).length then .refused
    else
      match c.serverCb (identity.map cstr) lib.srvBuf with
      | .deny => .refused
      | .panic => if lib.panicAborts then .crash else .refused
      | .key buf n => if n = 0 then .refused else if buf.take n = key then .admitted else .refused

/-! ## The server process -/

/-- Where the thread of a connection is (bin/remote-stripe-server.rs:105-123): before the handshake, in
`handle_requests` with that many requests answered and these bytes left to read, or at its end. -/
inductive Phase where
  | fresh
  | serving (done : Nat) (rest : List Bytes)
  | ended

/-- A connection (bin/remote-stripe-server.rs:101-105): who is on the other end, what they will send after the handshake,
the session's view of the volume (the faults differ between sessions), where its thread is, and what it has written. -/
structure Link where
  peer : Peer
  input : List Bytes
  srv : Srv
  phase : Phase
  sent : Bytes

/-- The process (bin/remote-stripe-server.rs:100-125): whether it is running, and its connections. -/
structure Proc where
  up : Bool
  links : List Link

/-- The same volume behind two sessions (bin/remote-stripe-server.rs:103: all threads share one `StripeServer`). -/
def SameVolume (a b : Srv) : Prop := a.md = b.md ∧ a.dev = b.dev ∧ a.src = b.src

/-- Outcome of lines 110-114 of bin/remote-stripe-server.rs: with no credentials everyone is let in. -/
def enter (lib : Lib) : Option Creds → Peer → Acc
  | none, _ => .admitted
  | some c, p => accept lib c p

/-- What happens (bin/remote-stripe-server.rs:100-125). -/
inductive Ev where
  | connect (p : Peer) (input : List Bytes)
  | acceptFails
  | handshake (i : Nat)
  | noSession (i : Nat)
  | turn (i : Nat)
  | drop (i : Nat)
deriving DecidableEq

/-- Steps of the process (bin/remote-stripe-server.rs:100-125). A process that is down does nothing. -/
inductive Step (lib : Lib) (vol : Srv) (creds : Option Creds) : Proc → Ev → Proc → Prop where
  /-- `accept` returns a connection and its thread is spawned (101-105). -/
  | connect {ls} (p : Peer) (input : List Bytes) (srv : Srv) (hv : SameVolume srv vol) :
      Step lib vol creds ⟨true, ls⟩ (.connect p input) ⟨true, ls ++ [⟨p, input, srv, .fresh, []⟩]⟩
  /-- `accept` fails: `run` returns and the process exits (101, 47-50). -/
  | acceptFails {ls} : Step lib vol creds ⟨true, ls⟩ .acceptFails ⟨false, ls⟩
  /-- The handshake (110-114) admits the other end and the session starts (115). -/
  | admitted {ls} (i : Nat) (l : Link) (h : ls[i]? = some l) (hp : l.phase = .fresh) (ha : enter lib creds l.peer = .admitted) :
      Step lib vol creds ⟨true, ls⟩ (.handshake i) ⟨true, ls.set i { l with phase := .serving 0 l.input }⟩
  /-- The handshake refuses it: the thread logs an error and ends (111, 121). -/
  | refused {ls} (i : Nat) (l : Link) (h : ls[i]? = some l) (hp : l.phase = .fresh) (ha : enter lib creds l.peer = .refused) :
      Step lib vol creds ⟨true, ls⟩ (.handshake i) ⟨true, ls.set i { l with phase := .ended }⟩
  /-- A panic in the callback (psk.rs:118) takes the process down. -/
  | crash {ls} (i : Nat) (l : Link) (h : ls[i]? = some l) (hp : l.phase = .fresh) (ha : enter lib creds l.peer = .crash) :
      Step lib vol creds ⟨true, ls⟩ (.handshake i) ⟨false, ls⟩
  /-- Setting the timeouts or `start_session` fails (107-108, 115). -/
  | noSession {ls} (i : Nat) (l : Link) (h : ls[i]? = some l) (hp : l.phase = .fresh) :
      Step lib vol creds ⟨true, ls⟩ (.noSession i) ⟨true, ls.set i { l with phase := .ended }⟩
  /-- One request of a session (116; session.rs:13-70). -/
  | turn {ls} (i : Nat) (l : Link) (n : Nat) (rest : List Bytes) (h : ls[i]? = some l) (hp : l.phase = .serving n rest) :
      Step lib vol creds ⟨true, ls⟩ (.turn i) ⟨true, ls.set i { l with
        phase := if (l.srv.handleSingle n rest).goOn then .serving (n + 1) (l.srv.handleSingle n rest).rest else .ended
        sent := l.sent ++ (l.srv.handleSingle n rest).out }⟩
  /-- The connection breaks or times out within a request, some of the answer being written (116; session.rs:13-40). -/
  | drop {ls} (i : Nat) (l : Link) (n : Nat) (rest : List Bytes) (part : Bytes) (h : ls[i]? = some l)
      (hp : l.phase = .serving n rest) (hq : part <+: (l.srv.handleSingle n rest).out) :
      Step lib vol creds ⟨true, ls⟩ (.drop i) ⟨true, ls.set i { l with phase := .ended, sent := l.sent ++ part }⟩

/-- Histories of a process that has just bound its address (bin/remote-stripe-server.rs:94-100). -/
inductive Run (lib : Lib) (vol : Srv) (creds : Option Creds) : List Ev → Proc → Prop where
  | nil : Run lib vol creds [] ⟨true, []⟩
  | snoc {es s e s'} (h : Run lib vol creds es s) (hs : Step lib vol creds s e s') : Run lib vol creds (es ++ [e]) s'

end Verif.Psk
