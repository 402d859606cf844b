import Verif.Spec.Load

/-! # What the settings of a configuration mean

Specification vocabulary for C61. `H p x` says that the documents have `x` at the dotted key `p` (below a section). -/

namespace Verif.Config
open Verif

abbrev View := List String → Setting → Prop

/-- The documents below a section. -/
def Has.below (e : Env) (root : Tbl) (pre : List String) : View := fun p x => Has e root (pre ++ p) x

namespace View
variable (H : View)

def Nothing (p : List String) : Prop := ∀ x, ¬H p x

/-- A required string. -/
def Str (p : List String) (s : String) : Prop := H p (.value (.str s))

/-- An optional string. -/
def Opt (p : List String) : Option String → Prop
  | some s => H p (.value (.str s))
  | none => H.Nothing p

/-- A string with a default. -/
def StrOr (p : List String) (default s : String) : Prop := H p (.value (.str s)) ∨ H.Nothing p ∧ s = default

/-- A switch, off by default. -/
def Switch (p : List String) (b : Bool) : Prop := H p (.value (.bool b)) ∨ H.Nothing p ∧ b = false

/-- A number with a default. -/
def NatOr (p : List String) (default n : Nat) : Prop := H p (.value (.int n)) ∨ H.Nothing p ∧ n = default

/-- An optional list of numbers. -/
def OptNats (p : List String) : Option (List Nat) → Prop
  | some l => H p (.value (.ints (l.map Int.ofNat))) ∨ l = [] ∧ H p (.value (.strings []))
  | none => H.Nothing p

/-- One of two words, the first by default. -/
def Choice (p : List String) (no yes : String) (b : Bool) : Prop := H p (.value (.str (if b then yes else no))) ∨ H.Nothing p ∧ b = false

/-- A path: the file it means relative to the directory of the configuration. -/
def Path (dir : List Char) (p : List String) (r : List Char) : Prop := ∃ s, H.Str p s ∧ Leads dir s r

def OptPath (dir : List Char) (p : List String) : Option (List Char) → Prop
  | some r => H.Path dir p r
  | none => H.Nothing p

/-- A pre-shared key. -/
def Psk (p : List String) : Option Psk → Prop
  | some k => H.Str (p ++ ["identity"]) k.identity ∧ H.Str (p ++ ["secret", "ref"]) k.secret
  | none => H.Nothing p

/-- A reference to a secret. -/
def OptRef (p : List String) : Option String → Prop
  | some s => H.Str (p ++ ["ref"]) s
  | none => H.Nothing p

end View

/-- `[device]`. -/
structure DeviceSays (dir : List Char) (H : View) (d : Device) : Prop where
  data_path : H.Path dir ["data_path"] d.dataPath
  metadata_path : H.OptPath dir ["metadata_path"] d.metadataPath
  vhost_socket : H.OptPath dir ["vhost_socket"] d.vhostSocket
  rpc_socket : H.OptPath dir ["rpc_socket"] d.rpcSocket
  device_id : H.StrOr ["device_id"] "ubiblk" d.deviceId
  track_written : H.Switch ["track_written"] d.trackWritten

/-- `[tuning]`. -/
structure TuningSays (H : View) (t : Tuning) : Prop where
  num_queues : H.NatOr ["num_queues"] 1 t.numQueues
  queue_size : H.NatOr ["queue_size"] 64 t.queueSize
  seg_size_max : H.NatOr ["seg_size_max"] 65536 t.segSizeMax
  seg_count_max : H.NatOr ["seg_count_max"] 4 t.segCountMax
  poll_timeout_us : H.NatOr ["poll_timeout_us"] 1000 t.pollTimeoutUs
  cpus : H.OptNats ["cpus"] t.cpus
  io_engine : H.Choice ["io_engine"] "io_uring" "sync" t.sync
  write_through : H.Switch ["write_through"] t.writeThrough

/-- `[server]`, and `[stripe_source]` of type remote. -/
structure RemoteSays (H : View) (r : Remote) : Prop where
  address : H.Str ["address"] r.address
  psk : H.Psk ["psk"] r.psk
  autofetch : H.Switch ["autofetch"] r.autofetch
  connect_timeout_ms : H.NatOr ["connect_timeout_ms"] 5000 r.connectTimeoutMs
  operation_attempt_timeout_ms : H.NatOr ["operation_attempt_timeout_ms"] 20000 r.operationTimeoutMs
  connections : H.NatOr ["connections"] 16 r.connections

/-- The S3 storage of an archive. -/
structure S3Says (H : View) (s : S3) : Prop where
  bucket : H.Str ["bucket"] s.bucket
  pfx : H.Opt ["prefix"] s.pfx
  region : H.Opt ["region"] s.region
  access_key_id : H.Str ["access_key_id", "ref"] s.accessKeyId
  secret_access_key : H.Str ["secret_access_key", "ref"] s.secretAccessKey
  session_token : H.OptRef ["session_token"] s.sessionToken
  endpoint : H.Opt ["endpoint"] s.endpoint
  connections : H.NatOr ["connections"] 16 s.connections
  connect_timeout_ms : H.NatOr ["connect_timeout_ms"] 5000 s.connectTimeoutMs
  operation_attempt_timeout_ms : H.NatOr ["operation_attempt_timeout_ms"] 20000 s.operationTimeoutMs
  max_attempts : H.NatOr ["max_attempts"] 3 s.maxAttempts
  rate_enabled : H.Switch ["rate_limited_retry", "enabled"] s.rate.enabled
  rate_min_delay : H.NatOr ["rate_limited_retry", "min_delay_ms"] 0 s.rate.minDelayMs
  rate_jitter : H.NatOr ["rate_limited_retry", "jitter_ms"] 0 s.rate.jitterMs
  archive_kek : H.OptRef ["archive_kek"] s.kek
  autofetch : H.Switch ["autofetch"] s.autofetch

/-- The storage of an archive; `path` says what a path means. -/
def StorageSays (path : View → List String → List Char → Prop) (H : View) : Storage → Prop
  | .filesystem r kek a => H.Str ["storage"] "filesystem" ∧ path H ["path"] r ∧ H.OptRef ["archive_kek"] kek ∧ H.Switch ["autofetch"] a
  | .s3 s => H.Str ["storage"] "s3" ∧ S3Says H s

/-- `[stripe_source]`. -/
def SourceSays (dir : List Char) (H : View) : StripeSource → Prop
  | .raw r a c => H.Str ["type"] "raw" ∧ H.Path dir ["image_path"] r ∧ H.Switch ["autofetch"] a ∧ H.Switch ["copy_on_read"] c
  | .archive s => H.Str ["type"] "archive" ∧ StorageSays (fun H => H.Path dir) H s
  | .remote r => H.Str ["type"] "remote" ∧ RemoteSays H r

/-- One secret. -/
structure SecretSays (utf8 : String → Bytes) (dir : List Char) (H : View) (d : SecretDef) : Prop where
  source : match d.source with
    | .file r => H.Path dir ["source", "file"] r
    | .inline b => ∃ s, H.Str ["source", "inline"] s ∧ b = utf8 s
    | .env v => H.Str ["source", "env"] v
  encoding : H.Choice ["encoding"] "plaintext" "base64" d.base64
  encrypted_by : H.OptRef ["encrypted_by"] d.encryptedBy

/-! ## What secrets must be like -/

/-- The storage of an accepted configuration. -/
def StorageGood (secrets : List (String × Bytes)) : Storage → Prop
  | .filesystem _ kek _ => ∀ k, kek = some k → ∃ b, secrets.lookup k = some b ∧ b.length = 32
  | .s3 s => (∀ k, s.kek = some k → ∃ b, secrets.lookup k = some b ∧ b.length = 32) ∧
      (∃ b, secrets.lookup s.accessKeyId = some b ∧ b ≠ []) ∧ (∃ b, secrets.lookup s.secretAccessKey = some b ∧ b ≠ []) ∧
      (∀ k, s.sessionToken = some k → ∃ b, secrets.lookup k = some b ∧ b ≠ []) ∧
      0 < s.connections ∧ 0 < s.connectTimeoutMs ∧ 0 < s.operationTimeoutMs ∧ 0 < s.maxAttempts ∧
      (s.rate.enabled = true → 0 < s.rate.minDelayMs) ∧
      ∀ p, s.pfx = some p → .cur ∉ components p.toList ∧ .parent ∉ components p.toList

/-- The connection of an accepted configuration. -/
def RemoteGood (secrets : List (String × Bytes)) (r : Remote) : Prop :=
  (∀ k, r.psk = some k → ∃ b, secrets.lookup k.secret = some b ∧ 16 ≤ b.length) ∧ 0 < r.connectTimeoutMs ∧ 0 < r.operationTimeoutMs ∧ 0 < r.connections

end Verif.Config
