import Verif.Util.Bytes

/-! # What base64 text means (RFC 4648, section 4) -/

namespace Verif.Base64
open Verif

/-- The alphabet: A–Z, a–z, 0–9, + and /. -/
def alphabet : List UInt8 :=
  (List.range 26).map (fun i => UInt8.ofNat (65 + i)) ++ (List.range 26).map (fun i => UInt8.ofNat (97 + i)) ++
    (List.range 10).map (fun i => UInt8.ofNat (48 + i)) ++ [43, 47]

/-- The lowest `w` bits of a number, highest first. -/
def bits (w n : Nat) : List Nat := (List.range w).map fun i => n / 2 ^ (w - 1 - i) % 2

/-- `t` is the base64 text of `b`: characters of the alphabet followed by fewer than four `=`, a multiple of four in all, such that the
six bits of each character in a row are the eight bits of each byte in a row, followed by fewer than six zeros. -/
def Denotes (t b : Bytes) : Prop :=
  ∃ (ss : List Nat) (p z : Nat), (∀ s ∈ ss, s < 64) ∧ p < 4 ∧ z < 6 ∧ t.length % 4 = 0 ∧
    t = ss.map (fun s => alphabet.getD s 0) ++ List.replicate p 61 ∧
    ss.flatMap (bits 6) = b.flatMap (fun x => bits 8 x.toNat) ++ List.replicate z 0

end Verif.Base64
