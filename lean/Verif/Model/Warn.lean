import Verif.Model.Load

/-! # Warnings of loading a configuration

Models `load_root_toml` and `warn_if_loose_permissions` of `/repo/src/config/v2/load.rs` and `ignored_flags` and `warn_ignored_flags`
of `/repo/src/config/v2/mod.rs`, with what they log. Simplified: a warning is kept as its parts, not as one text; files do not change
while a configuration is loaded. -/

namespace Verif.Config
open Verif

/-- `DangerZone::ignored_flags` (mod.rs:85-106). -/
def DangerZone.ignoredFlags (d : DangerZone) : List String :=
  if d.enabled then []
  else
    (if d.unencryptedDisk then ["allow_unencrypted_disk"] else []) ++
    (if d.inlinePlaintext then ["allow_inline_plaintext_secrets"] else []) ++
    (if d.regularFile then ["allow_secret_over_regular_file"] else []) ++
    (if d.unencryptedConnection then ["allow_unencrypted_connection"] else []) ++
    (if d.envSecrets then ["allow_env_secrets"] else [])

/-- The two warnings: the file and the digits of its mode (load.rs:217-221), and the flags (mod.rs:112-115). -/
inductive Warning where
  | loose (path : List Char) (mode : List Nat)
  | ignored (flags : List String)
deriving DecidableEq

/-- `{:04o}` of a mode of at most twelve bits (load.rs:218-220): its four digits to base eight. -/
def octal4 (n : Nat) : List Nat := [n / 512 % 8, n / 64 % 8, n / 8 % 8, n % 8]

/-- `warn_if_loose_permissions` (load.rs:214-230); `mode` is what `get_file_mode` finds, `0o077` and `0o7777` are 63 and 4095. -/
def warnLoose (path : List Char) (mode : Option Nat) : List Warning :=
  match mode with
  | none => []
  | some m => if m &&& 63 ≠ 0 then [.loose path (octal4 (m &&& 4095))] else []

/-- `warn_ignored_flags` (mod.rs:109-117). -/
def DangerZone.warnIgnored (d : DangerZone) : List Warning :=
  if d.ignoredFlags.isEmpty then [] else [.ignored d.ignoredFlags]

/-- Errors of loading from a path (load.rs:203-211 and the errors of `CErr`): the file cannot be read, is not TOML, or its
contents are refused. -/
inductive PErr where
  | read | parse
  | refused (e : CErr)

/-- The configuration file (load.rs:203-211): its document, if it can be read and if it is TOML; and the modes of files
(load.rs:226-230). -/
structure Disk where
  read : List Char → Option (Option Tbl)
  mode : List Char → Option Nat

/-- What `load_common` logs (load.rs:241-244): the danger zone is decoded first. -/
def logCommon (m : Tbl) : List Warning :=
  match optSection m "danger_zone" decodeDanger with
  | .error _ => []
  | .ok dz => (dz.getD .off).warnIgnored

/-- What `load_from_value` of each of the four kinds logs (load.rs:25-27, 100-102, 126-128, 155-157): they begin alike. -/
def logValue (e : Env) (root : Tbl) (allowed : List String) : List Warning :=
  match loadMerged e root allowed with
  | .error _ => []
  | .ok m => logCommon m

/-- `load` of each of the four kinds (load.rs:19-23, 94-98, 120-124, 149-153) with `load_root_toml` (load.rs:203-211): what is logged and
what is returned. -/
def loadPath {α : Type} (allowed : List String) (load : Env → Tbl → Except CErr α) (d : Disk) (e : Env) (path : List Char) :
    List Warning × Except PErr α :=
  match d.read path with
  | none => ([], .error .read)
  | some none => (warnLoose path (d.mode path), .error .parse)
  | some (some root) =>
    (warnLoose path (d.mode path) ++ logValue e root allowed,
      match load e root with
      | .error x => .error (.refused x)
      | .ok c => .ok c)

/-- `Config::load` (load.rs:19-23, 62-71). -/
def Config.loadPath (d : Disk) (e : Env) (path : List Char) : List Warning × Except PErr Config :=
  Verif.Config.loadPath ["device", "tuning", "encryption", "danger_zone", "stripe_source", "secrets"] Config.load d e path

/-- `ArchiveTargetConfig::load` (load.rs:94-98, 114-116). -/
def TargetConfig.loadPath (d : Disk) (e : Env) (path : List Char) : List Warning × Except PErr TargetConfig :=
  Verif.Config.loadPath ["target", "danger_zone", "secrets"] TargetConfig.load d e path

/-- `ExportArchiveConfig::load` (load.rs:120-124, 143-145). -/
def ExportConfig.loadPath (d : Disk) (e : Env) (path : List Char) : List Warning × Except PErr ExportConfig :=
  Verif.Config.loadPath ["archive", "danger_zone", "secrets"] ExportConfig.load d e path

/-- `RemoteStripeServerConfig::load` (load.rs:149-153, 169-171). -/
def ServerConfig.loadPath (d : Disk) (e : Env) (path : List Char) : List Warning × Except PErr ServerConfig :=
  Verif.Config.loadPath ["server", "danger_zone", "secrets"] ServerConfig.load d e path

end Verif.Config
