import Verif.Model.Init
import Verif.Spec.Remote

/-! # What initialising a volume should do -/

namespace Verif.Init
open Verif Verif.Remote

/-- Part of stripe `k`, of `ssc` sectors, comes from the source. -/
def Source.Has (ssc : Nat) : Source → Nat → Prop
  | .none, _ => False
  | .raw size, k => k * ssc * 512 < size
  | .archive ids, k => k ∈ ids
  | .remote _ hs, k => ∃ h, hs[k]? = some h ∧ ((flagsOf h).written = true ∨ (flagsOf h).hasSource = true)

/-- The source can be used for stripes of `ssc` sectors. -/
def Source.Usable (ssc : Nat) : Source → Prop
  | .none => True
  | .raw size => 512 ∣ size
  | .archive _ => True
  | .remote rs _ => rs = ssc

/-- Number of stripes of a disk. -/
def stripes (dataSize ssc : Nat) : Nat := (dataSize / 512 + ssc - 1) / ssc

/-- Bytes of metadata for `n` stripes: one sector of header, then 508 stripes per sector. -/
def metaBytes (n : Nat) : Nat := 512 + (n + 507) / 508 * 512

/-- The metadata path can hold `n` bytes: nothing is there yet, or a file that is short or of whole sectors. -/
def Node.Fits (n : Nat) : Node → Prop
  | .absent => True
  | .other => False
  | .file _ size => size < n ∨ 512 ∣ size ∧ size / 512 < 2 ^ 32

end Verif.Init
