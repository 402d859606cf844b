import Verif.Spec.Config
import Verif.Model.Secrets

/-! # What a named secret is

Specification vocabulary for C44, C45 and C57. -/

namespace Verif.Config
open Verif

/-- The switches the configuration needs for a secret: a regular file, an environment variable, and text in the
configuration that is not encrypted need the danger zone and their own flag. -/
def Allowed (w : World) (dz : DangerZone) (d : SecretDef) : Prop :=
  match d.source with
  | .file p => ∀ f, w.file p = some f → f.regular = true → dz.enabled = true ∧ dz.regularFile = true
  | .inline _ => d.encryptedBy = none → dz.enabled = true ∧ dz.inlinePlaintext = true
  | .env _ => dz.enabled = true ∧ dz.envSecrets = true

/-- The text at a secret's source; of a file at most the first 10929 bytes are looked at. -/
def sourceText (w : World) : Source → Option Bytes
  | .file p => ((w.file p).bind SecretFile.contents).map (·.take 10929)
  | .inline t => some t
  | .env v => w.env v

/-- White space: tab, line feed, form feed, carriage return, space. -/
def white (b : UInt8) : Bool := [9, 10, 12, 13, 32].contains b

/-- `s` is `t` without trailing white space. -/
def Stripped (t s : Bytes) : Prop :=
  ∃ e, t = s ++ e ∧ (∀ b ∈ e, white b = true) ∧ ∀ b, s.getLast? = some b → white b = false

/-- `b` is what is at the source of `d`: its text, or the bytes its text encodes. -/
def AtSource (w : World) (d : SecretDef) (b : Bytes) : Prop :=
  ∃ t, sourceText w d.source = some t ∧
    (d.base64 = false ∧ b = t ∨ d.base64 = true ∧ ∃ s, Stripped t s ∧ w.b64 s = some b)

/-- The value of a secret: what is at its source, at most 8192 bytes, decrypted with the value of its key-encryption secret
if it has one: 12 bytes of nonce, then ciphertext and tag, bound to the secret's name. -/
inductive SecretValue (w : World) (dz : DangerZone) (defs : List (String × SecretDef)) : String → Bytes → Prop where
  | plain {n : String} {d : SecretDef} {b : Bytes} : (n, d) ∈ defs → d.encryptedBy = none → Allowed w dz d → AtSource w d b →
      b.length ≤ 8192 → SecretValue w dz defs n b
  | wrapped {n k : String} {d : SecretDef} {kek ct b : Bytes} : (n, d) ∈ defs → d.encryptedBy = some k →
      SecretValue w dz defs k kek → Allowed w dz d → AtSource w d ct → ct.length ≤ 8192 → kek.length = 32 → 28 ≤ ct.length →
      w.gcm.openAt kek (ct.take 12) (w.utf8 n) (ct.drop 12) = some b → SecretValue w dz defs n b

/-- `n` is encrypted, directly or through others, by `k`. -/
inductive EncryptedBy (defs : List (String × SecretDef)) : String → String → Prop where
  | direct {n k : String} {d : SecretDef} : (n, d) ∈ defs → d.encryptedBy = some k → EncryptedBy defs n k
  | step {n k j : String} {d : SecretDef} : (n, d) ∈ defs → d.encryptedBy = some k → EncryptedBy defs k j → EncryptedBy defs n j

end Verif.Config
