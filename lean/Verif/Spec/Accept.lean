import Verif.Spec.Effect
import Verif.Props.Load

/-! # Configurations written as documented

Specification vocabulary for C82: the files of a configuration, taken together, say what a configuration of each kind has to say. What
the settings mean is in `Spec.Effect`, the keys there are in `Spec.Load`, the value of a secret in `Spec.Secrets`. -/

namespace Verif.Config
open Verif

/-- The list of files to include is a list of valid paths of files that can be included, and no two documents give the same key. -/
def Included (e : Env) (root : Tbl) : Prop :=
  ∃ l, includeList root = some l ∧ (∀ s ∈ l, ValidPath e.ws (entryPath s) ∧ Includable e.files e.dir s) ∧
    (root.remove "include" :: listedDocs e.files e.dir l).Pairwise Compatible

/-- A path as the system gets it: as written if absolute, otherwise after the directory of the configuration. -/
def Joined (dir p r : List Char) : Prop :=
  (p.head? = some '/' ∧ r = p) ∨ p.head? ≠ some '/' ∧ (dir = [] ∧ r = p ∨ dir ≠ [] ∧ dir.getLast? = some '/' ∧ r = dir ++ p ∨
    dir ≠ [] ∧ dir.getLast? ≠ some '/' ∧ r = dir ++ ['/'] ++ p)

/-- If there is anything at this key, it is a table. -/
def View.Table (H : View) (p : List String) : Prop := ∀ x, H p x → x = .table

/-- `[danger_zone]`. -/
structure DangerSays (H : View) (d : DangerZone) : Prop where
  enabled : H.Switch ["enabled"] d.enabled
  disk : H.Switch ["allow_unencrypted_disk"] d.unencryptedDisk
  inline : H.Switch ["allow_inline_plaintext_secrets"] d.inlinePlaintext
  file : H.Switch ["allow_secret_over_regular_file"] d.regularFile
  connection : H.Switch ["allow_unencrypted_connection"] d.unencryptedConnection
  env : H.Switch ["allow_env_secrets"] d.envSecrets

/-- One secret, with the path of its file as the system gets it, and with one source. -/
structure SecretIs (utf8 : String → Bytes) (dir : List Char) (H : View) (d : SecretDef) : Prop where
  source : match d.source with
    | .file r => ∃ s, H.Str ["source", "file"] s ∧ Joined dir s.toList r
    | .inline b => ∃ s, H.Str ["source", "inline"] s ∧ b = utf8 s
    | .env v => H.Str ["source", "env"] v
  one : ∀ j k x y, H ["source", j] x → H ["source", k] y → j = k
  encoding : H.Choice ["encoding"] "plaintext" "base64" d.base64
  encrypted_by : H.OptRef ["encrypted_by"] d.encryptedBy

/-- What the files of every kind of configuration say: the flags `dz`, the definitions `defs` of secrets and their values `secrets`. -/
structure CommonWritten (e : Env) (root : Tbl) (dz : DangerZone) (defs : List (String × SecretDef)) (secrets : List (String × Bytes)) : Prop where
  included : Included e root
  danger_table : View.Table (Has.below e root []) ["danger_zone"]
  danger : DangerSays (Has.below e root ["danger_zone"]) dz
  secrets_table : View.Table (Has.below e root []) ["secrets"]
  defined : ∀ n x, Has e root ["secrets", n] x → ∃ d, (n, d) ∈ defs
  says : ∀ n d, (n, d) ∈ defs → SecretIs e.world.utf8 e.dir (Has.below e root ["secrets", n]) d
  resolvable : ∀ n d, (n, d) ∈ defs → ∃ b, SecretValue e.world dz defs n b
  values : ∀ n b, secrets.lookup n = some b ↔ SecretValue e.world dz defs n b

/-- The numbers of a connection fit in 64 bits. -/
def RemoteFits (r : Remote) : Prop := r.connectTimeoutMs < 2 ^ 64 ∧ r.operationTimeoutMs < 2 ^ 64 ∧ r.connections < 2 ^ 64

/-- The numbers of an archive's store fit in 64 bits, the number of attempts in 32. -/
def StorageFits : Storage → Prop
  | .filesystem _ _ _ => True
  | .s3 s => s.connections < 2 ^ 64 ∧ s.connectTimeoutMs < 2 ^ 64 ∧ s.operationTimeoutMs < 2 ^ 64 ∧ s.maxAttempts < 2 ^ 32 ∧
      s.rate.minDelayMs < 2 ^ 64 ∧ s.rate.jitterMs < 2 ^ 64

/-- A connection as it must be: its secret is long enough, or it has none and that is allowed. -/
def RemoteRight (dz : DangerZone) (secrets : List (String × Bytes)) (r : Remote) : Prop :=
  RemoteGood secrets r ∧ RemoteFits r ∧ (r.psk = none → dz.enabled = true ∧ dz.unencryptedConnection = true)

/-- An archive's store as it must be. -/
def StorageRight (secrets : List (String × Bytes)) (s : Storage) : Prop := StorageGood secrets s ∧ StorageFits s

/-- The retries of an archive's store, if given, are a table. -/
def RateTable (H : View) : Storage → Prop
  | .filesystem _ _ _ => True
  | .s3 _ => H.Table ["rate_limited_retry"]

/-- The files of a device's configuration say `c`. -/
structure ConfigWritten (e : Env) (root : Tbl) (c : Config) (defs : List (String × SecretDef)) : Prop where
  common : CommonWritten e root c.danger defs c.secrets
  keys : ∀ p x, Has e root p x → commonKey p ∨ (∃ q ∈ devicePaths, p = "device" :: q) ∨ (∃ q ∈ tuningPaths, p = "tuning" :: q) ∨
    (∃ q ∈ encryptionPaths, p = "encryption" :: q) ∨ ∃ s q, c.source = some s ∧ sourceKey s q ∧ p = "stripe_source" :: q
  device : DeviceSays e.dir (Has.below e root ["device"]) c.device
  tuning_table : View.Table (Has.below e root []) ["tuning"]
  tuning : TuningSays (Has.below e root ["tuning"]) c.tuning ∧ InRange c.tuning
  encryption : match c.encryption with
    | some k => Says e root ["encryption", "xts_key", "ref"] (.str k) ∧ ∃ b, c.secrets.lookup k = some b ∧ b.length = 64
    | none => Silent e root ["encryption"] ∧ c.danger.enabled = true ∧ c.danger.unencryptedDisk = true
  source : match c.source with
    | none => Silent e root ["stripe_source"]
    | some s => SourceSays e.dir (Has.below e root ["stripe_source"]) s ∧
        (match s with
          | .raw _ _ _ => True
          | .archive st => StorageRight c.secrets st ∧ RateTable (Has.below e root ["stripe_source"]) st
          | .remote r => RemoteRight c.danger c.secrets r)

/-- The files of an archive target's configuration say `c`; its path is as written (see C58). -/
structure TargetWritten (e : Env) (root : Tbl) (c : TargetConfig) (defs : List (String × SecretDef)) : Prop where
  common : CommonWritten e root c.danger defs c.secrets
  keys : ∀ p x, Has e root p x → commonKey p ∨ ∃ q, storageKey c.target q ∧ p = "target" :: q
  target : StorageSays (fun H p r => ∃ q, H.Str p q ∧ r = q.toList) (Has.below e root ["target"]) c.target
  right : StorageRight c.secrets c.target ∧ RateTable (Has.below e root ["target"]) c.target

/-- The files of an archive's configuration for reading say `c`. -/
structure ExportWritten (e : Env) (root : Tbl) (c : ExportConfig) (defs : List (String × SecretDef)) : Prop where
  common : CommonWritten e root c.danger defs c.secrets
  keys : ∀ p x, Has e root p x → commonKey p ∨ ∃ q, storageKey c.archive q ∧ p = "archive" :: q
  archive : StorageSays (fun H => H.Path e.dir) (Has.below e root ["archive"]) c.archive
  right : StorageRight c.secrets c.archive ∧ RateTable (Has.below e root ["archive"]) c.archive

/-- The files of a stripe server's configuration say `c`. -/
structure ServerWritten (e : Env) (root : Tbl) (c : ServerConfig) (defs : List (String × SecretDef)) : Prop where
  common : CommonWritten e root c.danger defs c.secrets
  keys : ∀ p x, Has e root p x → commonKey p ∨ ∃ q ∈ remotePaths, p = "server" :: q
  server : RemoteSays (Has.below e root ["server"]) c.server
  right : RemoteRight c.danger c.secrets c.server

end Verif.Config
