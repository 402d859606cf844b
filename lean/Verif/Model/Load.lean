import Verif.Model.Secrets

/-! # Loading a configuration

Models `/repo/src/config/v2/load.rs`, `mod.rs`, `stripe_source.rs` and `tuning.rs`: decoding of the sections (what
`#[derive(Deserialize)]` with the attributes given does with a TOML table), defaults, validation, and paths.

Simplified: serde also accepts a section written as an array of its fields in order, and a unit variant written as a table with
an empty table; here these are refused. Errors carry no messages, and which of several errors is reported is not modelled within a
section. Integers of a document are 64-bit, so `u64` and `usize` fields only refuse negative numbers. -/

namespace Verif.Config
open Verif

/-! ## Fields -/

/-- `deny_unknown_fields` (serde's derived decoding for the sections declared in
config/v2/{mod,tuning,stripe_source,secrets}.rs; library behaviour). -/
def known (t : Tbl) (ks : List String) : Bool := t.keys.all ks.contains

/-- An optional string. `none` is an error; so for the functions below (serde's derived decoding for the sections
declared in config/v2/{mod,tuning,stripe_source,secrets}.rs; library behaviour). -/
def strAt (t : Tbl) (k : String) : Option (Option String) :=
  match t.get k with
  | none => some none
  | some (.atom (.str s)) => some (some s)
  | some _ => none

/-- A required string (serde's derived decoding for the sections declared in
config/v2/{mod,tuning,stripe_source,secrets}.rs; library behaviour). -/
def reqStr (t : Tbl) (k : String) : Option String :=
  match t.get k with
  | some (.atom (.str s)) => some s
  | _ => none

/-- A boolean with `#[serde(default)]` (serde's derived decoding for the sections declared in
config/v2/{mod,tuning,stripe_source,secrets}.rs; library behaviour). -/
def boolAt (t : Tbl) (k : String) : Option Bool :=
  match t.get k with
  | none => some false
  | some (.atom (.bool b)) => some b
  | some _ => none

/-- An unsigned integer below `lim`, with a default (serde's derived decoding for the sections declared in
config/v2/{mod,tuning,stripe_source,secrets}.rs; library behaviour). -/
def natAt (lim : Nat) (t : Tbl) (k : String) (default : Nat) : Option Nat :=
  match t.get k with
  | none => some default
  | some (.atom (.int i)) => if 0 ≤ i ∧ i < lim then some i.toNat else none
  | some _ => none

/-- An optional array of unsigned integers (`cpus`, tuning.rs:28-29; library behaviour). -/
def natsAt (t : Tbl) (k : String) : Option (Option (List Nat)) :=
  match t.get k with
  | none => some none
  | some (.atom (.ints l)) => if l.all (0 ≤ ·) then some (some (l.map Int.toNat)) else none
  | some (.atom (.strings [])) => some (some [])
  | some _ => none

/-- A `SecretRef` (secrets.rs:34-46): a table with the one key `ref`. -/
def decodeRef (t : Tbl) : Option String := if t.keys = ["ref"] then reqStr t "ref" else none

/-- An optional `SecretRef` (secrets.rs:34-38). -/
def refAt (t : Tbl) (k : String) : Option (Option String) :=
  match t.get k with
  | none => some none
  | some (.table r) => (decodeRef r).map some
  | some (.atom _) => none

/-- A required `SecretRef` (secrets.rs:34-38). -/
def reqRef (t : Tbl) (k : String) : Option String :=
  match t.get k with
  | some (.table r) => decodeRef r
  | _ => none

/-! ## Sections -/

/-- `DangerZone` (mod.rs:65-80). -/
def decodeDanger (t : Tbl) : Option DangerZone := do
  guard (known t ["enabled", "allow_unencrypted_disk", "allow_inline_plaintext_secrets", "allow_secret_over_regular_file",
    "allow_unencrypted_connection", "allow_env_secrets"])
  let enabled ← boolAt t "enabled"
  let unencryptedDisk ← boolAt t "allow_unencrypted_disk"
  let inlinePlaintext ← boolAt t "allow_inline_plaintext_secrets"
  let regularFile ← boolAt t "allow_secret_over_regular_file"
  let unencryptedConnection ← boolAt t "allow_unencrypted_connection"
  let envSecrets ← boolAt t "allow_env_secrets"
  some { enabled, unencryptedDisk, inlinePlaintext, regularFile, unencryptedConnection, envSecrets }

/-- `DeviceSection` (mod.rs:121-132). -/
structure Device where
  dataPath : List Char
  metadataPath : Option (List Char)
  vhostSocket : Option (List Char)
  rpcSocket : Option (List Char)
  deviceId : String
  trackWritten : Bool

/-- Decoding of `DeviceSection` (mod.rs:121-136). -/
def decodeDevice (t : Tbl) : Option Device := do
  guard (known t ["data_path", "metadata_path", "vhost_socket", "rpc_socket", "device_id", "track_written"])
  let dataPath ← reqStr t "data_path"
  let metadataPath ← strAt t "metadata_path"
  let vhostSocket ← strAt t "vhost_socket"
  let rpcSocket ← strAt t "rpc_socket"
  let deviceId ← strAt t "device_id"
  let trackWritten ← boolAt t "track_written"
  some { dataPath := dataPath.toList, metadataPath := metadataPath.map String.toList, vhostSocket := vhostSocket.map String.toList,
         rpcSocket := rpcSocket.map String.toList, deviceId := deviceId.getD "ubiblk", trackWritten }

/-- `TuningSection` (tuning.rs:14-35). -/
structure Tuning where
  numQueues : Nat
  queueSize : Nat
  segSizeMax : Nat
  segCountMax : Nat
  pollTimeoutUs : Nat
  cpus : Option (List Nat)
  sync : Bool
  writeThrough : Bool
deriving DecidableEq

/-- `Default` (tuning.rs:36-49) with the default functions (tuning.rs:108-126). -/
def Tuning.default : Tuning := ⟨1, 64, 65536, 4, 1000, none, false, false⟩

/-- `IoEngine` (tuning.rs:5-12): whether it is `sync`. -/
def engineAt (t : Tbl) (k : String) : Option Bool :=
  match t.get k with
  | none => some false
  | some (.atom (.str "io_uring")) => some false
  | some (.atom (.str "sync")) => some true
  | some _ => none

/-- Decoding of `TuningSection` (tuning.rs:15-34). -/
def decodeTuning (t : Tbl) : Option Tuning := do
  guard (known t ["num_queues", "queue_size", "seg_size_max", "seg_count_max", "poll_timeout_us", "cpus", "io_engine", "write_through"])
  let numQueues ← natAt (2 ^ 64) t "num_queues" Tuning.default.numQueues
  let queueSize ← natAt (2 ^ 64) t "queue_size" Tuning.default.queueSize
  let segSizeMax ← natAt (2 ^ 32) t "seg_size_max" Tuning.default.segSizeMax
  let segCountMax ← natAt (2 ^ 32) t "seg_count_max" Tuning.default.segCountMax
  let pollTimeoutUs ← natAt (2 ^ 64) t "poll_timeout_us" Tuning.default.pollTimeoutUs
  let cpus ← natsAt t "cpus"
  let sync ← engineAt t "io_engine"
  let writeThrough ← boolAt t "write_through"
  some { numQueues, queueSize, segSizeMax, segCountMax, pollTimeoutUs, cpus, sync, writeThrough }

/-- `count_ones` (library; through `is_power_of_two` at tuning.rs:61). -/
def countOnes (n : Nat) : Nat := if n = 0 then 0 else n % 2 + countOnes (n / 2)

/-- The check of `cpus` in `TuningSection::validate` (tuning.rs:85-95). -/
def Tuning.cpusOk (t : Tuning) : Bool :=
  match t.cpus with
  | some c => c.length = t.numQueues
  | none => true

/-- `TuningSection::validate` (tuning.rs:52-105); `is_power_of_two` is `count_ones() == 1`. -/
def Tuning.validate (t : Tuning) : Bool :=
  !(t.numQueues = 0 || t.numQueues > 63) &&
  !(t.queueSize = 0 || t.queueSize > 65536 || !(countOnes t.queueSize = 1)) &&
  !(t.segSizeMax = 0 || t.segSizeMax > 1048576) &&
  !(t.segCountMax = 0 || t.segCountMax > 256) &&
  t.cpusOk &&
  !(t.pollTimeoutUs > 10000000)

/-- `EncryptionSection` (mod.rs:140-144): the name of the key's secret. -/
def decodeEncryption (t : Tbl) : Option String := do
  guard (known t ["xts_key"])
  reqRef t "xts_key"

/-- `PskConfig` (stripe_source.rs:393-398): the identity and the name of the secret. -/
structure Psk where
  identity : String
  secret : String

/-- `RemoteStripeConfig` (stripe_source.rs:89-104). -/
structure Remote where
  address : String
  psk : Option Psk
  autofetch : Bool
  connectTimeoutMs : Nat
  operationTimeoutMs : Nat
  connections : Nat

/-- Decoding of `PskConfig` (stripe_source.rs:393-398). -/
def decodePsk (t : Tbl) : Option Psk := do
  guard (known t ["identity", "secret"])
  let identity ← reqStr t "identity"
  let secret ← reqRef t "secret"
  some { identity, secret }

/-- The field `psk` (stripe_source.rs:93). -/
def pskAt (t : Tbl) (k : String) : Option (Option Psk) :=
  match t.get k with
  | none => some none
  | some (.table p) => (decodePsk p).map some
  | some (.atom _) => none

/-- Decoding of `RemoteStripeConfig` (stripe_source.rs:89-104, defaults 222-232). -/
def decodeRemote (t : Tbl) : Option Remote := do
  guard (known t ["address", "psk", "autofetch", "connect_timeout_ms", "operation_attempt_timeout_ms", "connections"])
  let address ← reqStr t "address"
  let psk ← pskAt t "psk"
  let autofetch ← boolAt t "autofetch"
  let connectTimeoutMs ← natAt (2 ^ 64) t "connect_timeout_ms" 5000
  let operationTimeoutMs ← natAt (2 ^ 64) t "operation_attempt_timeout_ms" 20000
  let connections ← natAt (2 ^ 64) t "connections" 16
  some { address, psk, autofetch, connectTimeoutMs, operationTimeoutMs, connections }

/-- `RateLimitedRetryConfig` (stripe_source.rs:211-220). -/
structure Rate where
  enabled : Bool
  minDelayMs : Nat
  jitterMs : Nat

/-- Decoding of `RateLimitedRetryConfig` (stripe_source.rs:211-220). -/
def decodeRate (t : Tbl) : Option Rate := do
  guard (known t ["enabled", "min_delay_ms", "jitter_ms"])
  let enabled ← boolAt t "enabled"
  let minDelayMs ← natAt (2 ^ 64) t "min_delay_ms" 0
  let jitterMs ← natAt (2 ^ 64) t "jitter_ms" 0
  some { enabled, minDelayMs, jitterMs }

/-- The field `rate_limited_retry` with `#[serde(default)]` (stripe_source.rs:199-200). -/
def rateAt (t : Tbl) (k : String) : Option Rate :=
  match t.get k with
  | none => some ⟨false, 0, 0⟩
  | some (.table r) => decodeRate r
  | some (.atom _) => none

/-- The S3 variant of `ArchiveStorageConfig` (stripe_source.rs:181-204). -/
structure S3 where
  bucket : String
  pfx : Option String
  region : Option String
  accessKeyId : String
  secretAccessKey : String
  sessionToken : Option String
  endpoint : Option String
  connections : Nat
  connectTimeoutMs : Nat
  operationTimeoutMs : Nat
  maxAttempts : Nat
  rate : Rate
  kek : Option String
  autofetch : Bool

/-- `ArchiveStorageConfig` (stripe_source.rs:172-205). -/
inductive Storage where
  | filesystem (path : List Char) (kek : Option String) (autofetch : Bool)
  | s3 (s : S3)

/-- Decoding of the filesystem variant of `ArchiveStorageConfig` (stripe_source.rs:172-180). -/
def decodeFs (t : Tbl) : Option Storage := do
  guard (known t ["storage", "path", "archive_kek", "autofetch"])
  let path ← reqStr t "path"
  let kek ← refAt t "archive_kek"
  let autofetch ← boolAt t "autofetch"
  some (.filesystem path.toList kek autofetch)

/-- Decoding of the S3 variant of `ArchiveStorageConfig` (stripe_source.rs:172-173, 181-204, defaults 222-236). -/
def decodeS3 (t : Tbl) : Option Storage := do
  guard (known t ["storage", "bucket", "prefix", "region", "access_key_id", "secret_access_key", "session_token", "endpoint", "connections",
    "connect_timeout_ms", "operation_attempt_timeout_ms", "max_attempts", "rate_limited_retry", "archive_kek", "autofetch"])
  let bucket ← reqStr t "bucket"
  let pfx ← strAt t "prefix"
  let region ← strAt t "region"
  let accessKeyId ← reqRef t "access_key_id"
  let secretAccessKey ← reqRef t "secret_access_key"
  let sessionToken ← refAt t "session_token"
  let endpoint ← strAt t "endpoint"
  let connections ← natAt (2 ^ 64) t "connections" 16
  let connectTimeoutMs ← natAt (2 ^ 64) t "connect_timeout_ms" 5000
  let operationTimeoutMs ← natAt (2 ^ 64) t "operation_attempt_timeout_ms" 20000
  let maxAttempts ← natAt (2 ^ 32) t "max_attempts" 3
  let rate ← rateAt t "rate_limited_retry"
  let kek ← refAt t "archive_kek"
  let autofetch ← boolAt t "autofetch"
  some (.s3 { bucket, pfx, region, accessKeyId, secretAccessKey, sessionToken, endpoint, connections, connectTimeoutMs,
              operationTimeoutMs, maxAttempts, rate, kek, autofetch })

/-- Decoding of `ArchiveStorageConfig`: the variant is chosen by `storage` (stripe_source.rs:173). -/
def decodeStorage (t : Tbl) : Option Storage := do
  let s ← reqStr t "storage"
  if s = "filesystem" then decodeFs t else if s = "s3" then decodeS3 t else none

/-- `StripeSourceConfig` (stripe_source.rs:21-34). -/
inductive StripeSource where
  | raw (imagePath : List Char) (autofetch copyOnRead : Bool)
  | archive (s : Storage)
  | remote (r : Remote)

/-- Decoding of the raw variant of `StripeSourceConfig` (stripe_source.rs:24-30). -/
def decodeRaw (t : Tbl) : Option StripeSource := do
  guard (known t ["image_path", "autofetch", "copy_on_read"])
  let imagePath ← reqStr t "image_path"
  let autofetch ← boolAt t "autofetch"
  let copyOnRead ← boolAt t "copy_on_read"
  some (.raw imagePath.toList autofetch copyOnRead)

/-- Decoding of `StripeSourceConfig`: the variant is chosen by `type`; the other variants decode what remains
(stripe_source.rs:21-33). -/
def decodeSource (t : Tbl) : Option StripeSource := do
  let s ← reqStr t "type"
  let rest := t.remove "type"
  if s = "raw" then decodeRaw rest
  else if s = "archive" then (decodeStorage rest).map .archive
  else if s = "remote" then (decodeRemote rest).map .remote
  else none

/-- `SecretSource` (secrets.rs:18-24): a table with one key. -/
def decodeSecretSource (utf8 : String → Bytes) (t : Tbl) : Option Source :=
  if t.keys = ["file"] then (reqStr t "file").map fun s => .file s.toList
  else if t.keys = ["inline"] then (reqStr t "inline").map fun s => .inline (utf8 s)
  else if t.keys = ["env"] then (reqStr t "env").map .env
  else none

/-- `SecretEncoding` (secrets.rs:26-32): whether it is base64. -/
def encodingAt (t : Tbl) (k : String) : Option Bool :=
  match t.get k with
  | none => some false
  | some (.atom (.str "plaintext")) => some false
  | some (.atom (.str "base64")) => some true
  | some _ => none

/-- `SecretDef` (secrets.rs:48-59). -/
def decodeSecretDef (utf8 : String → Bytes) (t : Tbl) : Option SecretDef := do
  guard (known t ["source", "encoding", "encrypted_by"])
  let source ← match t.get "source" with
    | some (.table s) => decodeSecretSource utf8 s
    | _ => none
  let base64 ← encodingAt t "encoding"
  let encryptedBy ← refAt t "encrypted_by"
  some { source, base64, encryptedBy }

/-- Decoding the `[secrets]` table, in its order (`parse_secrets`, secrets.rs:85-108). -/
def decodeSecrets (utf8 : String → Bytes) : Tbl → Option (List (String × SecretDef))
  | .nil => some []
  | .leaf _ _ _ => none
  | .sub k t r =>
    match decodeSecretDef utf8 t, decodeSecrets utf8 r with
    | some d, some ds => some ((k, d) :: ds)
    | _, _ => none

/-! ## Validation -/

/-- `get_resolved_secret` (secrets.rs:284-298) and a condition on its bytes. -/
def secretOk (secrets : List (String × Bytes)) (name : String) (p : Bytes → Bool) : Bool :=
  match secrets.lookup name with
  | some b => p b
  | none => false

/-- The same for an optional secret (stripe_source.rs:120-122, 242-246, 261-266, 275-280). -/
def optSecretOk (secrets : List (String × Bytes)) (name : Option String) (p : Bytes → Bool) : Bool :=
  match name with
  | some n => secretOk secrets n p
  | none => true

/-- `RemoteStripeConfig::validate` (stripe_source.rs:107-169). -/
def Remote.validate (r : Remote) (dz : DangerZone) (secrets : List (String × Bytes)) : Bool :=
  !(r.psk.isNone && !(dz.enabled && dz.unencryptedConnection)) &&
  optSecretOk secrets (r.psk.map Psk.secret) (fun b => !(b.length < 16)) &&
  !(r.connectTimeoutMs = 0) && !(r.operationTimeoutMs = 0) && !(r.connections = 0)

/-- `validate_prefix` (stripe_source.rs:301-313). -/
def prefixOk (p : Option String) : Bool :=
  match p with
  | some p => !(components p.toList).any fun c => c = .cur || c = .parent
  | none => true

/-- `ArchiveStorageConfig::validate` (stripe_source.rs:239-390). -/
def Storage.validate (s : Storage) (secrets : List (String × Bytes)) : Bool :=
  match s with
  | .filesystem _ kek _ => optSecretOk secrets kek (fun b => b.length = 32)
  | .s3 s =>
    optSecretOk secrets s.kek (fun b => b.length = 32) && secretOk secrets s.accessKeyId (fun b => !b.isEmpty) &&
    secretOk secrets s.secretAccessKey (fun b => !b.isEmpty) && optSecretOk secrets s.sessionToken (fun b => !b.isEmpty) &&
    prefixOk s.pfx && !(s.connections = 0) && !(s.connectTimeoutMs = 0) && !(s.operationTimeoutMs = 0) && !(s.maxAttempts = 0) &&
    !(s.rate.enabled && s.rate.minDelayMs = 0)

/-- `StripeSourceConfig::validate` (stripe_source.rs:73-86). -/
def StripeSource.validate (s : StripeSource) (dz : DangerZone) (secrets : List (String × Bytes)) : Bool :=
  match s with
  | .remote r => r.validate dz secrets
  | .archive st => st.validate secrets
  | .raw _ _ _ => true

/-! ## Paths -/

/-- `resolve_path` (load.rs:74-80). -/
def resolvePath (dir p : List Char) : List Char := if isAbsolute p then p else join dir p

/-- `resolve_device_paths` (load.rs:86-91). -/
def Device.resolve (dir : List Char) (d : Device) : Device :=
  { d with dataPath := resolvePath dir d.dataPath, metadataPath := d.metadataPath.map (resolvePath dir),
           vhostSocket := d.vhostSocket.map (resolvePath dir), rpcSocket := d.rpcSocket.map (resolvePath dir) }

/-- The path of a filesystem store (load.rs:131-133, stripe_source.rs:66-68). -/
def Storage.resolve (dir : List Char) : Storage → Storage
  | .filesystem p kek a => .filesystem (resolvePath dir p) kek a
  | .s3 s => .s3 s

/-- `resolve_paths` (stripe_source.rs:60-70). -/
def StripeSource.resolve (dir : List Char) : StripeSource → StripeSource
  | .raw p a c => .raw (resolvePath dir p) a c
  | .archive s => .archive (s.resolve dir)
  | .remote r => .remote r

/-- `resolve_secret_paths` (load.rs:254-263). -/
def SecretDef.resolve (dir : List Char) (d : SecretDef) : SecretDef :=
  match d.source with
  | .file p => { d with source := .file (resolvePath dir p) }
  | _ => d

/-! ## Loading -/

/-- Errors of loading (the `ubiblk_error!`s of load.rs:19-308, includes.rs, secrets.rs), by what was wrong; messages
are left out. -/
inductive CErr where
  | includes (e : IErr)
  | unknownKey | missing | decode
  | secrets (e : SErr)
  | tuning | source | encryption | unencryptedDisk
deriving DecidableEq

/-- What a configuration is loaded from: white space, the other files, where the configuration is, and the world of
its secrets. (Arguments of load.rs:19-33 and what the functions there read.) -/
structure Env where
  ws : Char → Bool
  files : List Char → FileRes
  dir : List Char
  world : World

/-- `load_merged` with `validate_top_level_keys` (load.rs:235-239, 294-308). -/
def loadMerged (e : Env) (root : Tbl) (allowed : List String) : Except CErr Tbl :=
  match resolveIncludes e.ws e.files e.dir root with
  | .error x => .error (.includes x)
  | .ok m => if known m allowed then .ok m else .error .unknownKey

/-- `parse_optional_section` (load.rs:278-292) for a section that is a table. -/
def optSection {α : Type} (m : Tbl) (k : String) (dec : Tbl → Option α) : Except CErr (Option α) :=
  match m.get k with
  | none => .ok none
  | some (.table t) => match dec t with | some x => .ok (some x) | none => .error .decode
  | some (.atom _) => .error .decode

/-- `parse_required_section` (load.rs:265-276). -/
def reqSection {α : Type} (m : Tbl) (k : String) (dec : Tbl → Option α) : Except CErr α :=
  match optSection m k dec with
  | .error e => .error e
  | .ok none => .error .missing
  | .ok (some x) => .ok x

/-- `load_common` (load.rs:241-252). -/
def loadCommon (e : Env) (m : Tbl) : Except CErr (DangerZone × List (String × Bytes)) :=
  match optSection m "danger_zone" decodeDanger with
  | .error x => .error x
  | .ok dz =>
    match optSection m "secrets" (decodeSecrets e.world.utf8) with
    | .error x => .error x
    | .ok defs =>
      match resolveSecrets e.world (dz.getD .off) ((defs.getD []).map fun p => (p.1, p.2.resolve e.dir)) with
      | .error x => .error (.secrets x)
      | .ok secrets => .ok (dz.getD .off, secrets)

/-- `Config` (mod.rs:22-32). -/
structure Config where
  device : Device
  tuning : Tuning
  encryption : Option String
  danger : DangerZone
  source : Option StripeSource
  secrets : List (String × Bytes)

/-- `EncryptionSection::validate_secrets` (load.rs:174-196) for an optional section, and the check without one (load.rs:44-50). -/
def checkEncryption (enc : Option String) (dz : DangerZone) (secrets : List (String × Bytes)) : Except CErr Unit :=
  match enc with
  | some k => if secretOk secrets k (fun b => b.length = 64) then .ok () else .error .encryption
  | none => if !(dz.enabled && dz.unencryptedDisk) then .error .unencryptedDisk else .ok ()

/-- The check of the optional stripe source (load.rs:40-43). -/
def sourceOk (source : Option StripeSource) (danger : DangerZone) (secrets : List (String × Bytes)) : Bool :=
  match source with
  | some s => s.validate danger secrets
  | none => true

/-- `Config::load_from_value` (load.rs:25-60). -/
def Config.load (e : Env) (root : Tbl) : Except CErr Config := do
  let m ← loadMerged e root ["device", "tuning", "encryption", "danger_zone", "stripe_source", "secrets"]
  let (danger, secrets) ← loadCommon e m
  let device ← reqSection m "device" decodeDevice
  let tuning ← optSection m "tuning" decodeTuning
  let tuning := tuning.getD Tuning.default
  if !tuning.validate then throw .tuning
  let encryption ← optSection m "encryption" decodeEncryption
  let source ← optSection m "stripe_source" decodeSource
  let source := source.map (StripeSource.resolve e.dir)
  if !sourceOk source danger secrets then throw .source
  checkEncryption encryption danger secrets
  return { device := device.resolve e.dir, tuning, encryption, danger, source, secrets }

/-- `ArchiveTargetConfig` (mod.rs:34-41). -/
structure TargetConfig where
  target : Storage
  danger : DangerZone
  secrets : List (String × Bytes)

/-- `ArchiveTargetConfig::load_from_value` (load.rs:100-116). The path is not resolved. -/
def TargetConfig.load (e : Env) (root : Tbl) : Except CErr TargetConfig := do
  let m ← loadMerged e root ["target", "danger_zone", "secrets"]
  let (danger, secrets) ← loadCommon e m
  let target ← reqSection m "target" decodeStorage
  if !target.validate secrets then throw .source
  return { target, danger, secrets }

/-- `ExportArchiveConfig` (mod.rs:43-50). -/
structure ExportConfig where
  archive : Storage
  danger : DangerZone
  secrets : List (String × Bytes)

/-- `ExportArchiveConfig::load_from_value` (load.rs:126-145). -/
def ExportConfig.load (e : Env) (root : Tbl) : Except CErr ExportConfig := do
  let m ← loadMerged e root ["archive", "danger_zone", "secrets"]
  let (danger, secrets) ← loadCommon e m
  let archive ← reqSection m "archive" decodeStorage
  let archive := archive.resolve e.dir
  if !archive.validate secrets then throw .source
  return { archive, danger, secrets }

/-- `RemoteStripeServerConfig` (mod.rs:52-59). -/
structure ServerConfig where
  server : Remote
  danger : DangerZone
  secrets : List (String × Bytes)

/-- `RemoteStripeServerConfig::load_from_value` (load.rs:155-171). -/
def ServerConfig.load (e : Env) (root : Tbl) : Except CErr ServerConfig := do
  let m ← loadMerged e root ["server", "danger_zone", "secrets"]
  let (danger, secrets) ← loadCommon e m
  let server ← reqSection m "server" decodeRemote
  if !server.validate danger secrets then throw .source
  return { server, danger, secrets }

end Verif.Config
