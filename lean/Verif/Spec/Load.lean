import Verif.Props.Includes
import Verif.Spec.Secrets
import Verif.Model.Load

/-! # What the files of a configuration say

Specification vocabulary for C44, C47, C58 and C59: the settings in the configuration file and the files it includes (C46), and the
dotted keys the documentation knows. -/

namespace Verif.Config
open Verif

/-- TOML documents: no key twice in a table. -/
def Docs (e : Env) (root : Tbl) : Prop := root.Wf ∧ ∀ p t, e.files p = .ok t → t.Wf

/-- The configuration file or a file it includes has `x` at the dotted key `p`. -/
def Has (e : Env) (root : Tbl) (p : List String) (x : Setting) : Prop :=
  ∃ l, includeList root = some l ∧ (withoutInclude root p = some x ∨ ∃ t ∈ listedDocs e.files e.dir l, settings t p = some x)

/-- It has the value `a` there. -/
def Says (e : Env) (root : Tbl) (p : List String) (a : Atom) : Prop := Has e root p (.value a)

/-- It has nothing there. -/
def Silent (e : Env) (root : Tbl) (p : List String) : Prop := ∀ x, ¬Has e root p x

/-- The danger zone is enabled and the given flag is set. -/
def Allows (e : Env) (root : Tbl) (flag : String) : Prop :=
  Says e root ["danger_zone", "enabled"] (.bool true) ∧ Says e root ["danger_zone", flag] (.bool true)

/-- A configuration of one of the four kinds is accepted, with these secrets. -/
def Accepted (e : Env) (root : Tbl) (secrets : List (String × Bytes)) : Prop :=
  (∃ c, Config.load e root = .ok c ∧ c.secrets = secrets) ∨ (∃ c, TargetConfig.load e root = .ok c ∧ c.secrets = secrets) ∨
    (∃ c, ExportConfig.load e root = .ok c ∧ c.secrets = secrets) ∨ (∃ c, ServerConfig.load e root = .ok c ∧ c.secrets = secrets)

/-- `r` is the file a path `p` written in a configuration in `dir` means: `p` itself if absolute, otherwise where `p` leads from
where `dir` leads. -/
def Leads (dir : List Char) (p : String) (r : List Char) : Prop :=
  if p.toList.head? = some '/' then r = p.toList else ∀ cwd, walk cwd (pieces r) = walk (walk cwd (pieces dir)) (pieces p.toList)

/-! ## Known settings -/

/-- A reference to a secret. -/
def refPaths (k : String) : List (List String) := [[k], [k, "ref"]]

def dangerPaths : List (List String) :=
  [[], ["enabled"], ["allow_unencrypted_disk"], ["allow_inline_plaintext_secrets"], ["allow_secret_over_regular_file"],
    ["allow_unencrypted_connection"], ["allow_env_secrets"]]

def devicePaths : List (List String) :=
  [[], ["data_path"], ["metadata_path"], ["vhost_socket"], ["rpc_socket"], ["device_id"], ["track_written"]]

def tuningPaths : List (List String) :=
  [[], ["num_queues"], ["queue_size"], ["seg_size_max"], ["seg_count_max"], ["poll_timeout_us"], ["cpus"], ["io_engine"], ["write_through"]]

def encryptionPaths : List (List String) := [] :: refPaths "xts_key"

def remotePaths : List (List String) :=
  [[], ["address"], ["psk"], ["psk", "identity"], ["psk", "secret"], ["psk", "secret", "ref"], ["autofetch"], ["connect_timeout_ms"],
    ["operation_attempt_timeout_ms"], ["connections"]]

def fsPaths : List (List String) := [[], ["storage"], ["path"], ["archive_kek"], ["archive_kek", "ref"], ["autofetch"]]

def s3Paths : List (List String) :=
  [[], ["storage"], ["bucket"], ["prefix"], ["region"], ["access_key_id"], ["access_key_id", "ref"], ["secret_access_key"],
    ["secret_access_key", "ref"], ["session_token"], ["session_token", "ref"], ["endpoint"], ["connections"], ["connect_timeout_ms"],
    ["operation_attempt_timeout_ms"], ["max_attempts"], ["rate_limited_retry"], ["rate_limited_retry", "enabled"],
    ["rate_limited_retry", "min_delay_ms"], ["rate_limited_retry", "jitter_ms"], ["archive_kek"], ["archive_kek", "ref"], ["autofetch"]]

def rawPaths : List (List String) := [[], ["image_path"], ["autofetch"], ["copy_on_read"]]

def secretPaths : List (List String) :=
  [[], ["source"], ["source", "file"], ["source", "inline"], ["source", "env"], ["encoding"], ["encrypted_by"], ["encrypted_by", "ref"]]

/-- Keys of an archive store: those of the kind its `storage` names. -/
def storageKey (s : Storage) (p : List String) : Prop :=
  match s with
  | .filesystem _ _ _ => p ∈ fsPaths
  | .s3 _ => p ∈ s3Paths

/-- Keys of `[stripe_source]`: `type` and those of that type. -/
def sourceKey (s : StripeSource) (p : List String) : Prop :=
  p = ["type"] ∨ match s with
    | .raw _ _ _ => p ∈ rawPaths
    | .archive st => storageKey st p
    | .remote _ => p ∈ remotePaths

/-- Keys of the sections every kind of configuration may have. -/
def commonKey (p : List String) : Prop :=
  p = [] ∨ (∃ q ∈ dangerPaths, p = "danger_zone" :: q) ∨ p = ["secrets"] ∨ ∃ n, ∃ q ∈ secretPaths, p = "secrets" :: n :: q

end Verif.Config
