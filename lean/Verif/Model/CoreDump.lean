/-! # Core dumps of the programs

Models `disable_core_dumps` of /repo/src/utils/security.rs (Linux) and the order of the steps in the nine programs of /repo/src/bin. Only what
matters for a core dump is kept: the two system calls, the point from which secrets are in memory, and the rest of the work, which is a number of
steps without names. When the kernel writes a core dump is taken from core(5). -/

namespace Verif.CoreDump

/-- The programs (one file each in /repo/src/bin, e.g. vhost-backend.rs:20-28). -/
inductive Program where
  | vhost | ublk | server | archive | exportArchive | initMetadata | dumpMetadata | xts | shell
deriving DecidableEq, Repr

/-- A step of a program. `load` reads configurations and resolves their secrets; `work` is anything else (vhost-backend.rs:20-35). -/
inductive Step where
  | logger
  | setDumpable
  | setCoreLimit
  | args
  | load
  | work
deriving DecidableEq, Repr

/-- `disable_core_dumps` (security.rs:8-25). -/
def disableCoreDumps : List Step := [.setDumpable, .setCoreLimit]

/-- The steps of a program with `n` steps of work: vhost-backend.rs:20-35, ublk-backend.rs:25-40, remote-stripe-server.rs:41-74,
archive.rs:79-135, export-archive.rs:25-38, init-metadata.rs:26-53, dump-metadata.rs:102-114, xts.rs:209-236, remote-stripe-shell.rs:24-37. -/
def Program.steps (n : Nat) : Program → List Step
  | .vhost | .ublk => [.logger] ++ disableCoreDumps ++ [.args, .load] ++ List.replicate n .work
  | .server => [.logger] ++ disableCoreDumps ++ [.args, .load, .load] ++ List.replicate n .work
  | .archive => [.logger, .args, .load] ++ List.replicate n .work ++ [.load] ++ List.replicate n .work
  | .exportArchive | .initMetadata | .dumpMetadata | .xts | .shell => [.logger, .args, .load] ++ List.replicate n .work

/-- A process: `PR_SET_DUMPABLE`, `RLIMIT_CORE`, whether a secret was ever in its memory, and the warnings logged (security.rs:8-25). -/
structure Proc where
  dumpable : Bool
  coreLimit : Nat
  secrets : Bool
  warnings : Nat

/-- A process at its start, with the limit it inherits (security.rs:8-25; exec makes a process dumpable). -/
def Proc.start (limit : Nat) : Proc := ⟨true, limit, false, 0⟩

/-- Which of the two system calls succeed (security.rs:16-24). -/
structure Calls where
  dumpable : Bool
  limit : Bool

/-- One step (security.rs:16-24): a call that fails is logged and nothing else. -/
def Proc.step (k : Calls) (p : Proc) : Step → Proc
  | .logger | .args | .work => p
  | .setDumpable => if k.dumpable then { p with dumpable := false } else { p with warnings := p.warnings + 1 }
  | .setCoreLimit => if k.limit then { p with coreLimit := 0 } else { p with warnings := p.warnings + 1 }
  | .load => { p with secrets := true }

/-- A process after some steps (security.rs:16-24). -/
def Proc.after (k : Calls) (limit : Nat) (ss : List Step) : Proc := ss.foldl (Proc.step k) (Proc.start limit)

/-- Whether the kernel dumps a process that dies by a signal (core(5); security.rs:13-21): it must be dumpable, and the limit is not 0, which
counts only if dumps are not piped to a program. -/
def Proc.dumps (piped : Bool) (p : Proc) : Bool := p.dumpable && (piped || 0 < p.coreLimit)

end Verif.CoreDump
