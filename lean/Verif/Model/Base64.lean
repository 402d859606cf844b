import Verif.Util.Bytes

/-! # Base64

`base64::engine::general_purpose::STANDARD` of the library `base64`, as called at `/repo/src/crypt/key_serialization.rs:11, 22, 33, 40`,
`/repo/src/config/v2/secrets.rs:199`, `/repo/src/stripe_server/psk.rs:64` and `/repo/src/stripe_server/legacy.rs:221`: the standard
alphabet; padding is written, and required when reading; bits left over must be zero. -/

namespace Verif.Base64
open Verif

/-- The padding character (library; key_serialization.rs:11). -/
def pad : UInt8 := 61

/-- The character of a group of six bits (library; key_serialization.rs:22). -/
def sym (n : Nat) : UInt8 :=
  if n < 26 then UInt8.ofNat (65 + n)
  else if n < 52 then UInt8.ofNat (97 + (n - 26))
  else if n < 62 then UInt8.ofNat (48 + (n - 52))
  else if n = 62 then 43 else 47

/-- The group of six bits of a character (library; key_serialization.rs:11). -/
def value (c : UInt8) : Option Nat :=
  let n := c.toNat
  if 65 ≤ n ∧ n ≤ 90 then some (n - 65)
  else if 97 ≤ n ∧ n ≤ 122 then some (n - 97 + 26)
  else if 48 ≤ n ∧ n ≤ 57 then some (n - 48 + 52)
  else if n = 43 then some 62
  else if n = 47 then some 63
  else none

/-- `STANDARD.encode` (library; key_serialization.rs:22, 40, legacy.rs:221). -/
def encode : Bytes → Bytes
  | [] => []
  | [a] => [sym (a.toNat / 4), sym (a.toNat % 4 * 16), pad, pad]
  | [a, b] => [sym (a.toNat / 4), sym (a.toNat % 4 * 16 + b.toNat / 16), sym (b.toNat % 16 * 4), pad]
  | a :: b :: c :: r =>
    sym (a.toNat / 4) :: sym (a.toNat % 4 * 16 + b.toNat / 16) :: sym (b.toNat % 16 * 4 + c.toNat / 64) :: sym (c.toNat % 64) ::
      encode r

/-- `STANDARD.decode` (library; key_serialization.rs:11, 33, secrets.rs:199, psk.rs:64). -/
def decode : Bytes → Option Bytes
  | [] => some []
  | a :: b :: c :: d :: r =>
    match value a, value b with
    | some x, some y =>
      if c = pad ∧ d = pad ∧ r = [] then
        if y % 16 = 0 then some [UInt8.ofNat (x * 4 + y / 16)] else none
      else
        match value c with
        | none => none
        | some z =>
          if d = pad ∧ r = [] then
            if z % 4 = 0 then some [UInt8.ofNat (x * 4 + y / 16), UInt8.ofNat (y % 16 * 16 + z / 4)] else none
          else
            match value d, decode r with
            | some u, some bs =>
              some (UInt8.ofNat (x * 4 + y / 16) :: UInt8.ofNat (y % 16 * 16 + z / 4) :: UInt8.ofNat (z % 4 * 64 + u) :: bs)
            | _, _ => none
    | _, _ => none
  | _ => none

end Verif.Base64
