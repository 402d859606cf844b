import Verif.Model.DirStore

/-! # Files and power loss

What programs see of a file system, and what of it is certain to be found after the power fails. A name is certain once its
directory has been synced after it was made, contents once the file has been synced after they were written; of everything else the
system may have stored anything or nothing. -/

namespace Verif.Durable
open Verif Verif.Dir Verif.Disk

/-- System calls that change files or make changes certain. -/
inductive Call where
  | mkdir (p : Path)
  /-- open, making an empty file if there is none -/
  | create (p : Path)
  | truncate (p : Path)
  | setLen (p : Path) (n : Nat)
  | write (p : Path) (off : Nat) (b : Bytes)
  | syncFile (p : Path)
  | syncDir (p : Path)
deriving DecidableEq

/-- The file system as programs see it, whose names are certain, and which files' contents are. -/
structure Files where
  cur : FS
  named : Path → Bool
  stored : Path → Bool

/-- `b` with `d` written at `off`. -/
def patch (b : Bytes) (off : Nat) (d : Bytes) : Bytes := b.take off ++ zeros (off - b.length) ++ d ++ b.drop (off + d.length)

/-- `b` cut or extended with zeros to `n` bytes. -/
def resize (b : Bytes) (n : Nat) : Bytes := b.take n ++ zeros (n - b.length)

/-- The contents of the file at `p`; nothing if there is none. -/
def Files.bytes (s : Files) (p : Path) : Bytes := match s.cur p with | some (.file b) => b | _ => []

/-- The contents of a file change. -/
def Files.set (s : Files) (p : Path) (b : Bytes) : Files :=
  { s with cur := upd s.cur p (some (.file b)), stored := upd s.stored p false }

/-- The effect of a call that succeeds. -/
def Files.call (s : Files) : Call → Files
  | .mkdir p => { s with cur := upd s.cur p (some .dir), named := upd s.named p false }
  | .create p => match s.cur p with
    | none => { s with cur := upd s.cur p (some (.file [])), named := upd s.named p false, stored := upd s.stored p false }
    | some _ => s
  | .truncate p => s.set p []
  | .setLen p n => s.set p (resize (s.bytes p) n)
  | .write p off b => s.set p (patch (s.bytes p) off b)
  | .syncFile p => { s with stored := upd s.stored p true }
  | .syncDir p => { s with named := fun q => if q ≠ [] ∧ q.dropLast = p then true else s.named q }

/-- Calls one after the other. -/
def Files.calls (s : Files) (cs : List Call) : Files := cs.foldl Files.call s

/-- The names on the way to `p` and its own are certain. -/
def Files.Named (s : Files) (p : Path) : Prop := ∀ q, q ≠ [] → q <+: p → s.named q = true

/-- What is at `p` is certain: the names and, for a file, the contents. -/
def Files.Certain (s : Files) (p : Path) : Prop := s.Named p ∧ ∀ b, s.cur p = some (.file b) → s.stored p = true

/-- `fs` may be found after a power loss: what is certain is there, and a file whose name is certain is there with some contents. -/
def PowerLoss (s : Files) (fs : FS) : Prop :=
  (∀ p, s.cur p ≠ none → s.Certain p → fs p = s.cur p) ∧ ∀ p b, s.cur p = some (.file b) → s.Named p → ∃ b', fs p = some (.file b')

end Verif.Durable
