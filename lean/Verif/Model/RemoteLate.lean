import Verif.Model.Remote

/-! # A worker of the remote stripe source, with its connection

Models `fetch_with_reconnect` (`/repo/src/stripe_source/remote.rs:58-122`) and the worker's loop (204-223) on connections that carry
bytes, where Model/Remote has one answer per connection. A read of the client has a time limit (client.rs:217-222), so an answer may
arrive after the client stopped waiting for it. The worker keeps its connection from one stripe to the next (remote.rs:204, 211-217).

The server answers what it receives as `Srv.serve` says (Model/Remote), on every connection; the network loses nothing on a
connection, but delivers when it wants. How the bytes are cut into reads does not matter (C32_chunks), so what arrives during a call
is one chunk here. Of a panic of the client, see C33. -/

namespace Verif.RemoteLate
open Verif Verif.Metadata Verif.Remote

/-- A connection (mod.rs:48-51, client.rs:16-22): the session at its other end, the metadata the client read, the bytes the client has
written to it, how many bytes of the session's answers have arrived, and those of them that have not been read. -/
structure Conn where
  srv : Srv
  md : Meta
  sent : Bytes
  got : Nat
  inbox : List Bytes

/-- What the network does during a call (client.rs:139-166): how many bytes of the request it takes before a write fails, and how far
into the session's answers it delivers until the call ends. -/
structure Net where
  wrote : Nat
  upTo : Nat

/-- Bytes are sent and others arrive (client.rs:139-166). -/
def Conn.exchange (c : Conn) (bs : Bytes) (upTo : Nat) : Conn :=
  let out := c.srv.serve [c.sent ++ bs]
  { c with sent := c.sent ++ bs, got := max c.got (min upTo out.length), inbox := c.inbox ++ [(out.take upTo).drop c.got] }

/-- `fetch_stripe` (client.rs:126-183): writing the request may fail, and so may reading the answer. What was read of an answer that
did not arrive in time is gone; what arrives later stays to be read. -/
def fetch (c : Conn) (k : Nat) (n : Net) : Conn × Except CErr Bytes :=
  let c := c.exchange ((readRequest k).take n.wrote) n.upTo
  if n.wrote < (readRequest k).length then (c, .error .io)
  else ({ c with inbox := (clientFetch (some c.md) c.inbox).2 }, (clientFetch (some c.md) c.inbox).1)

/-- What comes of a dial (client.rs:185-236): no connection, for want of a network or for another reason, or one to a session, of
whose answers to the two requests of the handshake so many bytes arrive in time. -/
inductive Dial where
  | refused (io : Bool)
  | up (srv : Srv) (upTo : Nat)

/-- What the client writes until it is connected: `hello` and `fetch_metadata` (client.rs:29, 79, 231-232). -/
def handshake : Bytes := [HELLO_CMD] ++ [METADATA_CMD]

/-- `connect_to_stripe_server` (client.rs:185-236). Errors of the address, the credentials and of TLS are one error. -/
def connect : Dial → Except CErr Conn
  | .refused io => .error (if io then .io else .badParameter)
  | .up srv upTo =>
    match clientConnect [(srv.serve [handshake]).take upTo] with
    | (.error e, _) => .error e
    | (.ok m, rest) => .ok ⟨srv, m, handshake, min upTo (srv.serve [handshake]).length, rest⟩

/-- One request to the worker (remote.rs:211) and what the network does in each attempt: `dial i` and `net i` are for attempt `i`. -/
structure Job where
  k : Nat
  dial : Nat → Dial
  net : Nat → Net

/-- The loop of `fetch_with_reconnect` (remote.rs:68-115) from attempt `a`, with `n` attempts left: the connection the worker keeps,
and the result. -/
def loop (expected : Nat × Nat) (j : Job) : Nat → Nat → Conn → CErr → Conn × Except CErr Bytes
  | 0, _, c, e => (c, .error e)
  | n + 1, a, c, e =>
    if a = 0 then
      match fetch c j.k (j.net a) with
      | (c', .error .io) => loop expected j n (a + 1) c' .io
      | (c', r) => (c', r)
    else
      match connect (j.dial a) with
      | .error e => loop expected j n (a + 1) c e
      | .ok fresh =>
        if fingerprint fresh.md = expected then
          match fetch fresh j.k (j.net a) with
          | (c', .error .io) => loop expected j n (a + 1) c' .io
          | (c', r) => (c', r)
        else (c, .error .geometryChanged)

/-- `fetch_with_reconnect` (remote.rs:58-122). -/
def fetchWithReconnect (expected : Nat × Nat) (c : Conn) (j : Job) : Conn × Except CErr Bytes :=
  loop expected j (MAX_ATTEMPTS + 1) 0 c .io

/-- The worker's loop (remote.rs:211-221): the results it sends, in order. -/
def work (expected : Nat × Nat) : Conn → List Job → List (Except CErr Bytes)
  | _, [] => []
  | c, j :: js => (fetchWithReconnect expected c j).2 :: work expected (fetchWithReconnect expected c j).1 js

end Verif.RemoteLate
