import Verif.Spec.Base64
import Verif.Spec.Secrets
import Verif.Model.LegacyConfig

/-! # The disk key of a legacy volume

Specification vocabulary for C77. -/

namespace Verif.LegacyConfig
open Verif

/-- The disk key of a legacy volume: its two keys of 32 bytes in a row, as they are stored, or as AES-256-GCM (`open_`, of key, nonce,
associated data and ciphertext) decrypts each under the key file's key and nonce. -/
inductive DiskKey (open_ : Bytes → Bytes → Bytes → Bytes → Option Bytes) (k1 k2 : Bytes) : Remote.LegacyKek → Bytes → Prop where
  | stored {key iv aad : Option Bytes} : k1.length = 32 → k2.length = 32 → DiskKey open_ k1 k2 ⟨false, key, iv, aad⟩ (k1 ++ k2)
  | wrapped {key iv a b : Bytes} {aad : Option Bytes} : key.length = 32 → iv.length = 12 → a.length = 32 → b.length = 32 →
      open_ key iv (aad.getD []) k1 = some a → open_ key iv (aad.getD []) k2 = some b →
      DiskKey open_ k1 k2 ⟨true, some key, some iv, aad⟩ (a ++ b)

/-- `s` is a text of `key`, when there is one. -/
def OptText : Option Bytes → Option Bytes → Prop
  | none, none => True
  | some t, some b => Base64.Denotes t b
  | _, _ => False

end Verif.LegacyConfig
