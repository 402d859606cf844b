import Verif.Model.Wake

/-! # One client after another

Models `block_backend_loop` and `serve_vhost` of `/repo/src/backends/vhost/backend_loop.rs`, with the loop of `run_backend_loop`
(`/repo/src/backends/common/mod.rs:295-329`): a session is served until its client goes, then the next one. The queue of a session is
that of `Model/Wake`; the volume below and the data are those of `Model/Front`, whose step `client` is the change from one session to
the next.

Outside the model: the vhost-user protocol itself (libraries vhost and vhost-user-backend). What is used of it: a worker handles the
exit event when it waits for events, and the session's threads have ended when `serve_vhost` returns; the start of a queue is the
index the client sets, and the index of the used ring is read from guest memory. -/

namespace Verif.Wake
open Verif

/-- Errors of a request of the client, as `serve_vhost` tells them apart (backend_loop.rs:69-72). `other`: all the other errors of the
vhost-user library. -/
inductive ReqErr where
  | disconnected | partialMessage | invalidMessage | socketBroken | other
deriving DecidableEq

/-- What `daemon.wait()` returns (backend_loop.rs:61). -/
inductive Ended where
  | ok
  | request (e : ReqErr)
  | other
deriving DecidableEq

/-- What happens to one session: whether the threads and channels can be made (backend_loop.rs:27-36), the socket be opened and its
permissions set (50-56), a client be accepted (60), and how it ends (61). -/
structure Session where
  created : Bool
  listens : Bool
  accepted : Bool
  ended : Ended

/-- The ends that are taken for the client's going (backend_loop.rs:67-74). -/
def Ended.gone : Ended → Bool
  | .ok => true
  | .request .disconnected | .request .partialMessage | .request .invalidMessage | .request .socketBroken => true
  | _ => false

/-- `serve_vhost` (backend_loop.rs:22-83): whether it returns Ok. -/
def serveVhost (socket : Option String) (s : Session) : Bool :=
  s.created && socket.isSome && s.listens && s.accepted && s.ended.gone

/-- The loop (common/mod.rs:320-323): how many sessions were served to their end, and whether the backend has ended with an error. -/
def backendLoop (socket : Option String) : List Session → Nat × Bool
  | [] => (0, false)
  | s :: ss =>
    if serveVhost socket s then ((backendLoop socket ss).1 + 1, (backendLoop socket ss).2) else (0, true)

/-- A queue of the next session (backend_loop.rs:24-36: new threads and channels, so nothing in flight and no signal to be decided on;
backend_thread.rs:103-115). The rings are in guest memory and stay. The client sets the start of the queue: `fromUsed`, at the index of
the used ring; otherwise where the last session stopped. It may kick (`k`). -/
def Sys.nextClient (fromUsed k : Bool) (s : Sys) : Sys :=
  { s with next := if fromUsed then s.ring.length else s.next, kick := s.kick || k, pc := .wait, inflight := [], pending := false, added := 0 }

end Verif.Wake
