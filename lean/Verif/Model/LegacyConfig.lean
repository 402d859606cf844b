import Verif.Model.Base64
import Verif.Model.Load
import Verif.Model.Remote

/-! # Keys as text, and the configuration of a legacy volume

Models `/repo/src/crypt/key_serialization.rs`, the key fields of `ArchiveMetadata` (`/repo/src/archive/mod.rs:88-108`) and
`load_legacy_config` (`/repo/src/stripe_server/legacy.rs:198-264`). Parsing of YAML and JSON is not modelled: the legacy options
start as the parsed values, and an optional JSON string as an optional list of bytes. -/

namespace Verif.LegacyConfig
open Verif Verif.Config

/-- `encode_key` (key_serialization.rs:36-42). -/
def encodeKey (key : Bytes) : Bytes := Base64.encode key

/-- `decode_key` (key_serialization.rs:28-34). -/
def decodeKey (text : Bytes) : Option Bytes := Base64.decode text

/-- `encode_optional_key` (key_serialization.rs:15-26): no key is no text. -/
def encodeOptKey : Option Bytes → Option Bytes
  | none => none
  | some key => some (Base64.encode key)

/-- `decode_optional_key` (key_serialization.rs:6-13); `none` is an error. -/
def decodeOptKey : Option Bytes → Option (Option Bytes)
  | none => some none
  | some text => (Base64.decode text).map some

/-- The keys of `ArchiveMetadata` (archive/mod.rs:88-108). -/
structure ArchiveKeys where
  encryption : Option Bytes
  hmac : Bytes
  metadataHmac : Bytes
deriving DecidableEq

/-- The texts of those keys in `metadata.json` (archive/mod.rs:88-108): a missing field is `none`. -/
structure ArchiveTexts where
  encryption : Option Bytes
  hmac : Option Bytes
  metadataHmac : Option Bytes

/-- Writing the keys (archive/mod.rs:88-108, `serialize_with`). -/
def ArchiveKeys.write (k : ArchiveKeys) : ArchiveTexts :=
  ⟨encodeOptKey k.encryption, some (encodeKey k.hmac), some (encodeKey k.metadataHmac)⟩

/-- Reading one required key; a missing field is empty (archive/mod.rs:95-107, `default`). -/
def readKey : Option Bytes → Option Bytes
  | none => some []
  | some t => decodeKey t

/-- Reading the keys (archive/mod.rs:88-108, `deserialize_with`). -/
def ArchiveTexts.read (t : ArchiveTexts) : Option ArchiveKeys := do
  let encryption ← decodeOptKey t.encryption
  let hmac ← readKey t.hmac
  let metadataHmac ← readKey t.metadataHmac
  return { encryption, hmac, metadataHmac }

/-- `LegacyOptions` (legacy.rs:154-169), as parsed. -/
structure Options where
  path : List Char
  imagePath : Option (List Char)
  metadataPath : Option (List Char)
  trackWritten : Bool
  encryptionKey : Option (Bytes × Bytes)

/-- `LegacyKek::default()` (legacy.rs:174-193). -/
def noKek : Remote.LegacyKek := ⟨false, none, none, none⟩

/-- `LEGACY_XTS_KEY_ID` (legacy.rs:48). -/
def KEY_ID : String := "__legacy_xts_key"

/-- The permissions of a legacy configuration (legacy.rs:208-215). -/
def danger : DangerZone :=
  { enabled := true, unencryptedDisk := true, inlinePlaintext := true, regularFile := true, unencryptedConnection := true,
    envSecrets := false }

/-- Errors of `load_legacy_config` (legacy.rs:199-236) after parsing. -/
inductive LErr where
  | unwrap
  | secret (e : SErr)

/-- The encryption section and the secrets (legacy.rs:217-239). -/
def keySection (w : World) (wrapped : Option (Bytes × Bytes)) (kek : Remote.LegacyKek) :
    Except LErr (Option String × List (String × Bytes)) :=
  match wrapped with
  | none => .ok (none, [])
  | some keys =>
    match Remote.unwrapXtsKey w.gcm.openAt keys kek with
    | none => .error .unwrap
    | some key =>
      match resolveSecrets w danger [(KEY_ID, { source := .inline (Base64.encode key), base64 := true, encryptedBy := none })] with
      | .error e => .error (.secret e)
      | .ok secrets => .ok (some KEY_ID, secrets)

/-- `load_legacy_config` (legacy.rs:198-264) after parsing; `kek` is `none` without `--legacy-kek`. -/
def load (w : World) (o : Options) (kek : Option Remote.LegacyKek) : Except LErr Config :=
  match keySection w o.encryptionKey (kek.getD noKek) with
  | .error e => .error e
  | .ok (encryption, secrets) =>
    .ok { device := { dataPath := o.path, metadataPath := o.metadataPath, vhostSocket := none, rpcSocket := none,
                      deviceId := "ubiblk", trackWritten := o.trackWritten },
          tuning := { Tuning.default with queueSize := 128 },
          encryption, danger,
          source := o.imagePath.map fun p => .raw p false false,
          secrets }

end Verif.LegacyConfig
