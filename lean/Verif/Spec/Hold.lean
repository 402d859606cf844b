import Verif.Util.Bytes

/-! # Bounds for what peers can make a process hold

Specification vocabulary for C100. -/

namespace Verif.Hold
open Verif

/-- A mebibyte. -/
def MiB : Nat := 2 ^ 20

/-- All bytes of a list of buffers together. -/
def total (l : List Nat) : Nat := l.foldr (· + ·) 0

/-- The lines in what a client has sent so far, the last one possibly unfinished, have at most `n` bytes each, newline included: between any two newlines
less than `n` bytes. -/
def LinesUpTo (n : Nat) (b : Bytes) : Prop :=
  ∀ pre mid post : Bytes, b = pre ++ mid ++ post → (10 : UInt8) ∉ mid.dropLast → mid.length ≤ n

end Verif.Hold
