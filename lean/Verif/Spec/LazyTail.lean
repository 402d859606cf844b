import Verif.Model.Lazy

/-! # Vocabulary for C17: sectors of a stripe past the end of the image -/

namespace Verif.Lazy
open Verif Verif.Metadata Verif.Disk

variable {D : Type}

/-- The image ends before sector `x`, inside (or before) a stripe that is fetched from it. -/
def pastEnd (c : Cfg D) (x : Nat) : Prop := x < c.tsec ∧ c.hs (x / c.ss) = true ∧ c.src x = none

/-- What offset `i` of an image buffer can hold: what it was allocated with, image data of the same offset in some
stripe, or either of these encrypted any number of times for a sector of that offset (on an encrypted volume the write
of a fetched stripe leaves the ciphertext in the buffer). -/
inductive Stale (c : Cfg D) (Z : D → Prop) (i : Nat) : D → Prop where
  | init (v : D) : Z v → Stale c Z i v
  | image (k : Nat) (v : D) : c.src (k * c.ss + i) = some v → Stale c Z i v
  | enc (k : Nat) (v : D) : Stale c Z i v → Stale c Z i (c.enc (k * c.ss + i) v)

/-- A failed read leaves in every sector of the buffer what was there or what the source has. -/
def Act.tame (c : Cfg D) (s : Sys D) : Act D → Prop
  | .sourceDone k ok _ garbage => ok = false → ∀ b i, s.fe.alloc k = some b →
      garbage i = s.fe.bufs b i ∨ c.src (k * c.ss + i) = some (garbage i)
  | _ => True

/-- Runs, with power losses, in which failed reads do that, and buffers are allocated with contents in `Z`. -/
inductive Tame (c : Cfg D) (Z : D → Prop) : Sys D → List (Lab D) → Sys D → Prop where
  | nil (s : Sys D) : Tame c Z s [] s
  | step {s s' s'' : Sys D} {ls ls' : List (Lab D)} {a : Act D} :
      Tame c Z s ls s' → Step c s' a ls' s'' → a.tame c s' → Tame c Z s (ls ++ ls') s''
  | crash {s s' : Sys D} {ls : List (Lab D)} {tv : Nat → D} {mv : Nat → Bytes} {meta' : Meta}
      (buf0 : Nat → Nat → D) (hz : ∀ b i, Z (buf0 b i)) :
      Tame c Z s ls s' → s'.t.survives tv → s'.m.survives mv → fromBytes (devBytes c.msec mv) = .ok meta' →
      Tame c Z s (ls ++ [.ev .crash]) (Sys.boot c meta'.headers tv mv buf0)

/-- A read of sector `x` issued now goes to the local disk, and if it transfers the sector now it returns `v`. -/
def readNow (c : Cfg D) (s : Sys D) (q id x : Nat) (v : D) : Prop :=
  addRead c s q id x 1 true = (toBase s q { id, off := x, cnt := 1, out := none }, [.toBase q { id, off := x, cnt := 1, out := none }]) ∧
  ((toBase s q { id, off := x, cnt := 1, out := none }).t.exec (.guest q id) x).result (.guest q id) true = [some v]

/-- C17 for one volume: after any history, a sector past the end of the image reads as what the local disk held
there, something the guest wrote there, or what the buffers were allocated with. -/
def TailClean (c : Cfg D) (hdrs : Bytes) (tv : Nat → D) (mv : Nat → Bytes) (buf0 : Nat → Nat → D) (Z : D → Prop) : Prop :=
  ∀ ls s, Tame c Z (Sys.boot c hdrs tv mv buf0) ls s → ∀ q id x v, pastEnd c x → readNow c s q id x v → v = tv x ∨ wrote (visible ls) x v ∨ Z v

end Verif.Lazy
