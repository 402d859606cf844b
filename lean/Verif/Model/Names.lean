import Verif.Util.Bytes

/-! # Names a backend puts into the file system: the RPC socket and the device link

Models `start_rpc_server` (`/repo/src/backends/common/rpc.rs:73-102`), `UmaskGuard` (`utils/umask_guard.rs:10-26`), their place
in `run_backend_loop` (`backends/common/mod.rs:309-329`), and the device link of the ublk backend
(`backends/ublk/mod.rs:55-212`), one system call at a time, for any number of backends at once.

Simplifications: a path is a list of names and stands for one place (no links among parent directories, no "..");
permissions other than a socket's mode are not tracked; the vhost socket is not included, since removing and binding it
is done by a library. -/

namespace Verif.Names
open Verif

/-- A path, by its names (`Path`; ublk/mod.rs:151, rpc.rs:78). -/
abbrev Path := List (List Char)

/-- What may be at a path. A link is to device `to`; a socket was made by process `owner` (rpc.rs:89, ublk/mod.rs:173). -/
inductive Entry where
  | file (d : Bytes)
  | dir
  | link (to : Nat)
  | sock (owner mode : Nat)
deriving DecidableEq

/-- The file system (rpc.rs:79-97, ublk/mod.rs:151-212). -/
abbrev FS := Path → Option Entry

/-- Replaces the entry at `p` (`unlink`, `bind`, `mkdir`, `symlink`; rpc.rs:79, 89, ublk/mod.rs:153, 162, 173, 199). -/
def upd (fs : FS) (p : Path) (e : Option Entry) : FS := fun q => if q = p then e else fs q

/-- What a backend is started with: `rpc_socket` (common/mod.rs:312), `device_symlink` (ublk/mod.rs:49), and the device the
kernel gives it (ublk/mod.rs:137). -/
structure Conf where
  rpc : Option Path
  link : Option Path
  dev : Nat

/-- The system call the main thread of a backend makes next (rpc.rs:79-97; ublk/mod.rs:92-108, 151-212). -/
inductive Pc where
  | rmSock
  | umask
  | bind
  | restore (ok : Bool)
  | chmod
  | mkdir (k : Nat)
  | look
  | unlink
  | symlink
  | serving (linked : Bool)
  | look2
  | unlink2
  | gone
  | failed
deriving DecidableEq

/-- The Ctrl-C handler's thread (ublk/mod.rs:84-88, 113-126). -/
inductive Hand where
  | idle
  | look
  | unlink
  | done
deriving DecidableEq

/-- A backend: its threads, its umask, and the mask `UmaskGuard` keeps (umask_guard.rs:10-12). -/
structure Inst where
  pc : Pc
  hand : Hand
  mask : Nat
  saved : Nat
deriving DecidableEq

/-- After the RPC server (common/mod.rs:320-326): the ublk backend announces its device (ublk/mod.rs:136-148); with no link
there is nothing to do. -/
def afterRpc (c : Conf) : Pc := if c.link.isSome then .mkdir 0 else .serving false

/-- A backend about to start its RPC server (common/mod.rs:312). -/
def Conf.start (c : Conf) (mask : Nat) : Inst := ⟨if c.rpc.isSome then .rmSock else afterRpc c, .idle, mask, 0⟩

/-- The permissions a new socket gets (rpc.rs:88-89): all, less those in the mask. -/
def newMode (mask : Nat) : Nat := 0o777 &&& (0o777 ^^^ mask)

/-- The next system call of the main thread; `fault`: it fails for a reason of its own. `i` is the process
(rpc.rs:79-97; ublk/mod.rs:92-108, 151-212). -/
def main (c : Conf) (i : Nat) (fault : Bool) (fs : FS) (x : Inst) : FS × Inst :=
  let to (pc : Pc) : Inst := { x with pc }
  match x.pc, c.rpc, c.link with
  | .rmSock, some p, _ =>                                                       -- rpc.rs:79-85
    match fs p with
    | none => (fs, to .umask)
    | some .dir => (fs, to .failed)
    | some _ => if fault then (fs, to .failed) else (upd fs p none, to .umask)
  | .umask, _, _ => (fs, { x with pc := .bind, mask := 0o117, saved := x.mask })  -- rpc.rs:88, umask_guard.rs:16-19
  | .bind, some p, _ =>                                                         -- rpc.rs:89-93
    if fault ∨ (fs p).isSome then (fs, to (.restore false))
    else (upd fs p (some (.sock i (newMode x.mask))), to (.restore true))
  | .restore ok, _, _ =>                                                        -- umask_guard.rs:22-26
    (fs, { x with pc := if ok then .chmod else .failed, mask := x.saved })
  | .chmod, some p, _ =>                                                        -- rpc.rs:97
    match fs p with
    | none => (fs, to .failed)
    | some (.sock o _) => if fault then (fs, to .failed) else (upd fs p (some (.sock o 0o660)), to (afterRpc c))
    | some _ => if fault then (fs, to .failed) else (fs, to (afterRpc c))
  | .mkdir k, _, some l =>                                                      -- ublk/mod.rs:152-157
    if l.length ≤ k + 1 then (fs, to .look)
    else
      match fs (l.take (k + 1)) with
      | none => if fault then (fs, to (.serving false)) else (upd fs (l.take (k + 1)) (some .dir), to (.mkdir (k + 1)))
      | some .dir => (fs, to (.mkdir (k + 1)))
      | some _ => (fs, to (.serving false))
  | .look, _, some l =>                                                         -- ublk/mod.rs:159-171
    if fault then (fs, to (.serving false))
    else if (fs l).isSome then (fs, to .unlink) else (fs, to .symlink)
  | .unlink, _, some l =>                                                       -- ublk/mod.rs:162-165
    match fs l with
    | none => (fs, to (.serving false))
    | some .dir => (fs, to (.serving false))
    | some _ => if fault then (fs, to (.serving false)) else (upd fs l none, to .symlink)
  | .symlink, _, some l =>                                                      -- ublk/mod.rs:173-177
    if fault ∨ (fs l).isSome then (fs, to (.serving false))
    else (upd fs l (some (.link c.dev)), to (.serving true))
  | .serving _, _, l =>                                                         -- ublk/mod.rs:92-101: `run_target` returns
    if fault then (fs, to .failed) else (fs, to (if l.isSome then .look2 else .gone))
  | .look2, _, some l =>                                                        -- ublk/mod.rs:190-208
    match fs l with
    | some (.link _) => if fault then (fs, to .gone) else (fs, to .unlink2)
    | _ => (fs, to .gone)
  | .unlink2, _, some l =>                                                      -- ublk/mod.rs:199-202
    match fs l with
    | none => (fs, to .gone)
    | some .dir => (fs, to .gone)
    | some _ => if fault then (fs, to .gone) else (upd fs l none, to .gone)
  | _, _, _ => (fs, x)

/-- Whether the process still exists: it ends when `run_backend_loop` returns (common/mod.rs:322-329). -/
def Inst.alive (x : Inst) : Bool := x.pc ≠ .gone && x.pc ≠ .failed

/-- The next system call of the Ctrl-C handler (ublk/mod.rs:113-126, 189-212); the first one is the signal's arrival, which the
handler answers from when it is set (84-88), after the RPC server. -/
def handler (c : Conf) (fault : Bool) (fs : FS) (x : Inst) : FS × Inst :=
  let to (hand : Hand) : Inst := { x with hand }
  if !x.alive then (fs, x)
  else
    match x.hand, c.link with
    | .idle, some _ =>
      match x.pc with
      | .rmSock | .umask | .bind | .restore _ | .chmod => (fs, x)
      | _ => (fs, to .look)
    | .look, some l =>
      match fs l with
      | some (.link _) => if fault then (fs, to .done) else (fs, to .unlink)
      | _ => (fs, to .done)
    | .unlink, some l =>
      match fs l with
      | none => (fs, to .done)
      | some .dir => (fs, to .done)
      | some _ => if fault then (fs, to .done) else (upd fs l none, to .done)
    | _, _ => (fs, x)

/-- The file system and all backends (common/mod.rs:295-329, one call of `run_backend_loop` each). -/
structure World where
  fs : FS
  inst : Nat → Inst

/-- Replaces backend `i`; bookkeeping for the steps below (common/mod.rs:295-329). -/
def World.set (w : World) (fs : FS) (i : Nat) (x : Inst) : World := ⟨fs, fun j => if j = i then x else w.inst j⟩

/-- What happens: a system call of a backend's main thread or handler, a kill, or an act of another program on a path
(common/mod.rs:295-329, ublk/mod.rs:55-126). -/
inductive Ev where
  | main (i : Nat) (fault : Bool)
  | handler (i : Nat) (fault : Bool)
  | kill (i : Nat)
  | user (p : Path) (e : Option Entry)
deriving DecidableEq

/-- One step (common/mod.rs:295-329, ublk/mod.rs:55-126). -/
def step (cfg : Nat → Conf) (w : World) : Ev → World
  | .main i f => let r := main (cfg i) i f w.fs (w.inst i); w.set r.1 i r.2
  | .handler i f => let r := handler (cfg i) f w.fs (w.inst i); w.set r.1 i r.2
  | .kill i => w.set w.fs i { w.inst i with pc := .failed }
  | .user p e => { w with fs := upd w.fs p e }

/-- A history (common/mod.rs:295-329, ublk/mod.rs:55-126). -/
def run (cfg : Nat → Conf) (w : World) (es : List Ev) : World := es.foldl (step cfg) w

/-- Every backend at its start (common/mod.rs:312), over any file system, with any masks. -/
def World.init (cfg : Nat → Conf) (fs : FS) (mask : Nat → Nat) : World := ⟨fs, fun i => (cfg i).start (mask i)⟩

end Verif.Names
