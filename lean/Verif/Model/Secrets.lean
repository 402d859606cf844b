import Verif.Model.Toml
import Verif.Model.Crypt

/-! # Named secrets

Models `/repo/src/config/v2/secrets.rs` and `DangerZone` of `/repo/src/config/v2/mod.rs`. Parameters: the files, the environment,
base64 decoding and AES-256-GCM. A secret's name stands for its UTF-8 bytes (`utf8`). `HashMap`s are association lists in
iteration order. -/

namespace Verif.Config
open Verif

/-- `DangerZone` (config/v2/mod.rs:65-80). -/
structure DangerZone where
  enabled : Bool
  unencryptedDisk : Bool
  inlinePlaintext : Bool
  regularFile : Bool
  unencryptedConnection : Bool
  envSecrets : Bool
deriving DecidableEq

/-- All switches off (derived `Default`, mod.rs:65-80). -/
def DangerZone.off : DangerZone := ⟨false, false, false, false, false, false⟩

/-- `SecretSource` (secrets.rs:18-24). -/
inductive Source where
  | file (path : List Char)
  | inline (text : Bytes)
  | env (var : String)

/-- `SecretDef` (secrets.rs:48-59). -/
structure SecretDef where
  source : Source
  base64 : Bool
  encryptedBy : Option String

/-- A file that can be opened (secrets.rs:219-245): whether it is a regular file, and its contents if reading
succeeds. -/
structure SecretFile where
  regular : Bool
  contents : Option Bytes

/-- What secrets are resolved against (secrets.rs:169, 199, 219, 276): files, environment, base64, AES-256-GCM. -/
structure World where
  file : List Char → Option SecretFile
  env : String → Option Bytes
  /-- `base64::STANDARD.decode` -/
  b64 : Bytes → Option Bytes
  gcm : Crypt.Aead
  utf8 : String → Bytes

/-- Errors of `resolve_secrets` (secrets.rs:110-284). -/
inductive SErr where
  | missingKek | circular | open_ | regularFile | read | inlinePlaintext | envNotAllowed | envMissing | base64 | tooLong | decrypt
deriving DecidableEq

/-- MAX_SECRET_BYTES (secrets.rs:16). -/
def MAX_SECRET : Nat := 8192

/-- Bytes read from a file (secrets.rs:240-245): enough for the base64 text of the longest secret, and one more. -/
def READ_LIMIT : Nat := (MAX_SECRET + 2) / 3 * 4 + 4 + 1

/-- `load_file_source` (secrets.rs:214-246). -/
def loadFile (w : World) (dz : DangerZone) (path : List Char) : Except SErr Bytes :=
  match w.file path with
  | none => .error .open_
  | some f =>
    if f.regular && !(dz.enabled && dz.regularFile) then .error .regularFile
    else
      match f.contents with
      | none => .error .read
      | some c => .ok (c.take READ_LIMIT)

/-- `load_inline_source` (secrets.rs:248-263). -/
def loadInline (dz : DangerZone) (text : Bytes) (encrypted : Bool) : Except SErr Bytes :=
  if !(encrypted || dz.enabled && dz.inlinePlaintext) then .error .inlinePlaintext else .ok text

/-- `load_env_source` (secrets.rs:265-282). -/
def loadEnv (w : World) (dz : DangerZone) (var : String) : Except SErr Bytes :=
  if !(dz.enabled && dz.envSecrets) then .error .envNotAllowed
  else
    match w.env var with
    | none => .error .envMissing
    | some v => .ok v

/-- `load_source` (secrets.rs:183-194). -/
def loadSource (w : World) (dz : DangerZone) (s : Source) (encrypted : Bool) : Except SErr Bytes :=
  match s with
  | .file p => loadFile w dz p
  | .inline t => loadInline dz t encrypted
  | .env v => loadEnv w dz v

/-- ASCII white space, as `trim_ascii_end` of the standard library removes it (secrets.rs:199). -/
def asciiWs (b : UInt8) : Bool := b = 9 || b = 10 || b = 12 || b = 13 || b = 32

/-- `trim_ascii_end` of the standard library (secrets.rs:199). -/
def trimEnd (bs : Bytes) : Bytes := (bs.reverse.dropWhile asciiWs).reverse

/-- `decode` (secrets.rs:196-205). -/
def decode (w : World) (base64 : Bool) (bs : Bytes) : Except SErr Bytes :=
  if base64 then
    match w.b64 (trimEnd bs) with
    | none => .error .base64
    | some d => .ok d
  else .ok bs

/-- `load_source`, `decode` and `validate_secret_length` (secrets.rs:207-217) in a row. -/
def loadDecoded (w : World) (dz : DangerZone) (d : SecretDef) : Except SErr Bytes :=
  match loadSource w dz d.source d.encryptedBy.isSome with
  | .error e => .error e
  | .ok bs =>
    match decode w d.base64 bs with
    | .error e => .error e
    | .ok bs => if bs.length > MAX_SECRET then .error .tooLong else .ok bs

/-- `maybe_resolve_secret` (secrets.rs:153-181). -/
def maybeResolve (w : World) (dz : DangerZone) (name : String) (d : SecretDef) (resolved : List (String × Bytes)) :
    Except SErr (Option Bytes) :=
  match d.encryptedBy with
  | some k =>
    match resolved.lookup k with
    | none => .ok none
    | some kek =>
      match loadDecoded w dz d with
      | .error e => .error e
      | .ok ct =>
        match Crypt.gcmDecrypt w.gcm kek (w.utf8 name) ct with
        | .error _ => .error .decrypt
        | .ok b => .ok (some b)
  | none =>
    match loadDecoded w dz d with
    | .error e => .error e
    | .ok b => .ok (some b)

/-- One pass over the remaining definitions (secrets.rs:131-141): what is resolved and what remains. -/
def pass (w : World) (dz : DangerZone) : List (String × SecretDef) → List (String × Bytes) →
    Except SErr (List (String × Bytes) × List (String × SecretDef))
  | [], resolved => .ok (resolved, [])
  | (n, d) :: ds, resolved =>
    match maybeResolve w dz n d resolved with
    | .error e => .error e
    | .ok (some b) => pass w dz ds ((n, b) :: resolved)
    | .ok none =>
      match pass w dz ds resolved with
      | .error e => .error e
      | .ok (r, rest) => .ok (r, (n, d) :: rest)

theorem pass_length {w : World} {dz : DangerZone} {ds rest : List (String × SecretDef)} {r r' : List (String × Bytes)}
    (h : pass w dz ds r = .ok (r', rest)) : rest.length ≤ ds.length := by
  induction ds generalizing r r' rest with
  | nil => simp only [pass, Except.ok.injEq, Prod.mk.injEq] at h; rw [← h.2]; exact Nat.le_refl _
  | cons p ds ih =>
    obtain ⟨n, d⟩ := p
    simp only [pass] at h
    split at h
    · cases h
    · have := ih h; simp only [List.length_cons]; omega
    · split at h
      · cases h
      · rename_i h'
        simp only [Except.ok.injEq, Prod.mk.injEq] at h
        have := ih h'
        rw [← h.2]; simp only [List.length_cons]; omega

/-- The loop of `resolve_secrets` (secrets.rs:128-149); `count` is the number of definitions. -/
def resolveLoop (w : World) (dz : DangerZone) (count : Nat) (remaining : List (String × SecretDef)) (resolved : List (String × Bytes)) :
    Except SErr (List (String × Bytes)) :=
  if resolved.length < count then
    match h : pass w dz remaining resolved with
    | .error e => .error e
    | .ok (r, rest) => if rest.length = remaining.length then .error .circular else resolveLoop w dz count rest r
  else .ok resolved
termination_by remaining.length
decreasing_by
  have := pass_length h
  omega

/-- Whether some key-encryption reference is not defined (secrets.rs:118-126). -/
def missingRef (defs : List (String × SecretDef)) : Bool :=
  defs.any fun p => match p.2.encryptedBy with | some k => !(defs.any fun q => q.1 = k) | none => false

/-- `resolve_secrets` (secrets.rs:111-151), for the iteration order of `defs`. -/
def resolveSecrets (w : World) (dz : DangerZone) (defs : List (String × SecretDef)) : Except SErr (List (String × Bytes)) :=
  if missingRef defs then .error .missingKek
  else resolveLoop w dz defs.length defs []

end Verif.Config
