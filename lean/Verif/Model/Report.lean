import Verif.Model.Secrets

/-! # Error reports

Models `/repo/src/error.rs`, the macro `error_context` of `/repo/crates/ubiblk-macros/src/lib.rs`, the errors of
`/repo/src/config/v2/secrets.rs` with their texts, and the hand-written `Debug` implementations. `Model/Secrets` has the same
resolution of secrets with errors that are only kinds. An error of a library is the text it displays. -/

namespace Verif.Report
open Verif Verif.Config

/-- Text as it is displayed (error.rs:46-50). -/
abbrev Text := List Char

/-- `ErrorLocation` (error.rs:25-35). -/
structure Loc where
  file : Text
  line : Nat
deriving DecidableEq

/-- Display of `ErrorLocation` (error.rs:46-50). -/
def Loc.text (l : Loc) : Text := l.file ++ ':' :: Nat.toDigits 10 l.line

/-- The variants of `UbiblkError` without `meta` (error.rs:122-215); the error of a library is its text. -/
inductive Cause where
  | thread (source : Text)
  | guestMemory (source : Text)
  | io (source : Text)
  | channel (reason : Text)
  | parameter (description : Text)
  | metadata (description : Text)
  | protocol (description : Text)
  | missingStripeMetadata
  | stripeUnavailable (stripe : Nat)
  | stripeSize (stripe expected actual : Nat)
  | fetchFailed (stripe : Nat)
  | fetchTimeout (stripe : Nat)
  | remoteStatus (status : Nat)
  | tls (source : Text)
  | rpc (description : Text)
  | vhostUser (source : Text)
  | vhostBackend (reason : Text)
  | archive (description : Text)
  | crypto (description : Text)
  | cpuPinning (source : Text)
  | ublk (source : Text)
deriving DecidableEq

/-- What a variant displays between its two `meta`s (error.rs:127, 132, …, 214), without the blank before the second. -/
def Cause.text : Cause → Text
  | .thread s => "Thread creation error: ".toList ++ s
  | .guestMemory s => "Guest memory access error: ".toList ++ s
  | .io s => "I/O error: ".toList ++ s
  | .channel s => "Channel error: ".toList ++ s
  | .parameter s => "Invalid parameter error: ".toList ++ s
  | .metadata s => "Metadata error: ".toList ++ s
  | .protocol s => "Protocol error: ".toList ++ s
  | .missingStripeMetadata => "Missing stripe metadata on client".toList
  | .stripeUnavailable n => "Stripe ".toList ++ (Nat.toDigits 10 n ++ " is unavailable".toList)
  | .stripeSize n e a => "Stripe ".toList ++ (Nat.toDigits 10 n ++ (" size mismatch: expected ".toList ++ (Nat.toDigits 10 e ++
      (" bytes, got ".toList ++ (Nat.toDigits 10 a ++ " bytes".toList)))))
  | .fetchFailed n => "Stripe ".toList ++ ("fetch failed for stripe ".toList ++ Nat.toDigits 10 n)
  | .fetchTimeout n => "Stripe ".toList ++ ("fetch timeout for stripe ".toList ++ Nat.toDigits 10 n)
  | .remoteStatus n => "Remote server returned error status: ".toList ++ Nat.toDigits 10 n
  | .tls s => "TLS setup failed: ".toList ++ s
  | .rpc s => "RPC error: ".toList ++ s
  | .vhostUser s => "Vhost user error: ".toList ++ s
  | .vhostBackend s => "Vhost user backend error: ".toList ++ s
  | .archive s => "Archive error: ".toList ++ s
  | .crypto s => "Cryptography error: ".toList ++ s
  | .cpuPinning s => "CPU pinning error: ".toList ++ s
  | .ublk s => "Ublk error: ".toList ++ s

/-- `UbiblkError` with its `ErrorMeta` (error.rs:52-65, 98-108); `contexts` in the order in which they were pushed. -/
structure Failure where
  cause : Cause
  loc : Loc
  contexts : List (Text × Loc)
deriving DecidableEq

/-- `ubiblk_error!` (error.rs:7-23), `From` (error.rs:228-271) and `param_err` (crypt/key.rs:215-222): no contexts. -/
def fresh (c : Cause) (l : Loc) : Failure := ⟨c, l, []⟩

/-- `context_at` (error.rs:280-290); `context` (error.rs:274-278), `ResultExt::context` (error.rs:298-307) and a function with
`#[error_context]` (ubiblk-macros/src/lib.rs:45-53) call it with the caller's location. -/
def Failure.context (e : Failure) (message : Text) (l : Loc) : Failure := { e with contexts := e.contexts ++ [(message, l)] }

/-- Text between two parts of a report (error.rs:88, 90). -/
def causedBy : Text := "\n  - caused by: ".toList

/-- A message and where (error.rs:85, 88); a variant's message and `{meta:#}` (error.rs:77-79). -/
def at_ (m : Text) (l : Loc) : Text := m ++ (" (at ".toList ++ (l.text ++ ")".toList))

/-- `{meta}`: Display of `ErrorMeta` (error.rs:80-91). -/
def contextsText (cs : List (Text × Loc)) : Text :=
  match cs.reverse with
  | [] => []
  | c :: older => at_ c.1 c.2 ++ (older.flatMap (fun o => causedBy ++ at_ o.1 o.2) ++ causedBy)

/-- Display of `UbiblkError` (error.rs:101, 122-215), which every binary logs when `run` fails (for instance
bin/vhost-backend.rs:24-26). -/
def Failure.report (e : Failure) : Text := contextsText e.contexts ++ at_ e.cause.text e.loc

/-! ## Resolving secrets, with the texts of the errors -/

/-- What opening, examining and reading a file gives (secrets.rs:219-245). -/
inductive FileView where
  | cannotOpen
  | cannotStat
  | opened (regular : Bool) (contents : Option Bytes)

/-- Texts that do not come from a secret: a path as `{:?}` shows it, the errors of the file system for a path (secrets.rs:219-245),
`VarError::NotPresent` (secrets.rs:276), `InvalidLength` and `aead::Error` of AES-GCM (crypt/key.rs:142, 171). -/
structure Os where
  pathDebug : List Char → Text
  openText : List Char → Text
  statText : List Char → Text
  readText : List Char → Text
  notPresent : Text
  badKeyLength : Text
  badTag : Text

/-- What secrets are resolved against (secrets.rs:169, 199, 219, 276). An environment variable has bytes, and `std::env::var` fails
for bytes that are not Unicode with a text made from them (`VarError::NotUnicode`); base64 decoding fails with a text. -/
structure Box where
  os : Os
  file : List Char → FileView
  var : String → Option Bytes
  unicode : Bytes → Bool
  notUnicode : Bytes → Text
  b64 : Bytes → Except Text Bytes
  gcm : Crypt.Aead
  utf8 : String → Bytes

/-- The world of `Model/Secrets` (secrets.rs:169, 199, 219, 276): the same without the texts. -/
def Box.world (b : Box) : World where
  file p := match b.file p with
    | .cannotOpen => none
    | .cannotStat => none
    | .opened r c => some ⟨r, c⟩
  env v := (b.var v).filter b.unicode
  b64 t := match b.b64 t with
    | .ok d => some d
    | .error _ => none
  gcm := b.gcm
  utf8 := b.utf8

/-- A line of secrets.rs (error.rs:13: `file!()`, `line!()`; secrets.rs:122). -/
def here (line : Nat) : Loc := ⟨"src/config/v2/secrets.rs".toList, line⟩

/-- The characters of a name (secrets.rs:123). -/
def chars (s : String) : Text := s.toList

/-- `secrets.{name}: ` (secrets.rs:123, 170, 177, 211, 221, 228, 235, 245, 259, 271, 279). -/
def of (name : String) : Text := "secrets.".toList ++ (chars name ++ ": ".toList)

/-- An `InvalidParameter` made in secrets.rs (for instance secrets.rs:122-124). -/
def bad (line : Nat) (t : Text) : Failure := fresh (.parameter t) (here line)

/-- Where an error of a library turned into a `UbiblkError` by `ResultExt::context` says it happened: in `context` itself, as the
closure that calls `into` is not `track_caller` (error.rs:231-238, 305). -/
def converted : Loc := ⟨"src/error.rs".toList, 305⟩

/-- `load_file_source` (secrets.rs:218-248). -/
def loadFile (b : Box) (dz : DangerZone) (name : String) (path : List Char) : Except Failure Bytes :=
  match b.file path with
  | .cannotOpen =>
    .error (bad 220 (of name ++ "failed to open '".toList ++ b.os.pathDebug path ++ "': ".toList ++ b.os.openText path))
  | .cannotStat =>
    .error (bad 227 (of name ++ "failed to stat '".toList ++ b.os.pathDebug path ++ "': ".toList ++ b.os.statText path))
  | .opened regular contents =>
    if regular && !(dz.enabled && dz.regularFile) then
      .error (bad 233 (of name ++
        "regular file cannot be used as source unless danger_zone.allow_secret_over_regular_file is enabled.".toList))
    else
      match contents with
      | none =>
        .error ((fresh (.io (b.os.readText path)) converted).context
          (of name ++ "failed to read '".toList ++ b.os.pathDebug path ++ "'".toList) (here 245))
      | some c => .ok (c.take READ_LIMIT)

/-- `load_inline_source` (secrets.rs:250-265). -/
def loadInline (dz : DangerZone) (name : String) (text : Bytes) (encrypted : Bool) : Except Failure Bytes :=
  if !(encrypted || dz.enabled && dz.inlinePlaintext) then
    .error (bad 257 (of name ++
      "inline secret source requires a KEK unless danger_zone.allow_inline_plaintext_secrets is enabled".toList))
  else .ok text

/-- `load_env_source` (secrets.rs:267-284) and `std::env::var`. -/
def loadEnv (b : Box) (dz : DangerZone) (name var : String) : Except Failure Bytes :=
  if !(dz.enabled && dz.envSecrets) then
    .error (bad 269 (of name ++
      "source.env requires danger_zone.allow_env_secrets to be enabled (environment variables persist in /proc/PID/environ)".toList))
  else
    match b.var var with
    | none => .error (bad 277 (of name ++ "failed to read environment variable '".toList ++ chars var ++ "': ".toList ++ b.os.notPresent))
    | some v =>
      if b.unicode v then .ok v
      else .error (bad 277 (of name ++ "failed to read environment variable '".toList ++ chars var ++ "': ".toList ++ b.notUnicode v))

/-- `load_source` (secrets.rs:183-194). -/
def loadSource (b : Box) (dz : DangerZone) (name : String) (s : Source) (encrypted : Bool) : Except Failure Bytes :=
  match s with
  | .file p => loadFile b dz name p
  | .inline t => loadInline dz name t encrypted
  | .env v => loadEnv b dz name v

/-- `decode` (secrets.rs:196-205). -/
def decode (b : Box) (base64 : Bool) (bs : Bytes) : Except Failure Bytes :=
  if base64 then
    match b.b64 (trimEnd bs) with
    | .error t => .error (bad 200 ("invalid base64: ".toList ++ t))
    | .ok d => .ok d
  else .ok bs

/-- `validate_secret_length` (secrets.rs:207-216). -/
def validateLength (name : String) (bs : Bytes) : Except Failure Bytes :=
  if bs.length > MAX_SECRET then
    .error (bad 209 (of name ++ "secret data exceeds maximum allowed size of 8192 bytes".toList))
  else .ok bs

/-- A line of crypt/key.rs, as `param_err` records it (key.rs:145, 157, 174, 215-222). -/
def inKey (line : Nat) : Loc := ⟨"src/crypt/key.rs".toList, line⟩

/-- `aes256gcm_decrypt` with the texts of its errors (crypt/key.rs:141-178). -/
def gcmDecrypt (b : Box) (key aad ct : Bytes) : Except Failure Bytes :=
  if key.length = 32 then
    if ct.length < 12 + 16 then
      .error (fresh (.parameter "Failed to decrypt data: ciphertext is too short to include nonce and tag".toList) (inKey 157))
    else
      match b.gcm.openAt key (ct.take 12) aad (ct.drop 12) with
      | some pt => .ok pt
      | none => .error (fresh (.parameter ("Failed to decrypt data: ".toList ++ b.os.badTag)) (inKey 174))
  else .error (fresh (.parameter ("Failed to initialize cipher: ".toList ++ b.os.badKeyLength)) (inKey 145))

/-- `maybe_resolve_secret` (secrets.rs:153-181). -/
def maybeResolve (b : Box) (dz : DangerZone) (name : String) (d : SecretDef) (resolved : List (String × Bytes)) :
    Except Failure (Option Bytes) :=
  match d.encryptedBy with
  | some k =>
    match resolved.lookup k with
    | none => .ok none
    | some kek =>
      match loadSource b dz name d.source true with
      | .error e => .error e
      | .ok t =>
        match decode b d.base64 t with
        | .error e => .error e
        | .ok ct =>
          match validateLength name ct with
          | .error e => .error e
          | .ok ct =>
            match gcmDecrypt b kek (b.utf8 name) ct with
            | .error e => .error (e.context (of name ++ "failed to decrypt using KEK '".toList ++ chars k ++ "'".toList) (here 169))
            | .ok v => .ok (some v)
  | none =>
    match loadSource b dz name d.source false with
    | .error e => .error e
    | .ok t =>
      match decode b d.base64 t with
      | .error e => .error (e.context (of name ++ "failed to decode".toList) (here 177))
      | .ok v =>
        match validateLength name v with
        | .error e => .error e
        | .ok v => .ok (some v)

/-- One pass over the remaining definitions (secrets.rs:130-139). -/
def pass (b : Box) (dz : DangerZone) : List (String × SecretDef) → List (String × Bytes) →
    Except Failure (List (String × Bytes) × List (String × SecretDef))
  | [], resolved => .ok (resolved, [])
  | (n, d) :: ds, resolved =>
    match maybeResolve b dz n d resolved with
    | .error e => .error e
    | .ok (some v) => pass b dz ds ((n, v) :: resolved)
    | .ok none =>
      match pass b dz ds resolved with
      | .error e => .error e
      | .ok (r, rest) => .ok (r, (n, d) :: rest)

/-- A pass leaves no more definitions than it was given (secrets.rs:132-139). -/
theorem pass_length {b : Box} {dz : DangerZone} {ds rest : List (String × SecretDef)} {r r' : List (String × Bytes)}
    (h : pass b dz ds r = .ok (r', rest)) : rest.length ≤ ds.length := by
  induction ds generalizing r r' rest with
  | nil => simp only [pass, Except.ok.injEq, Prod.mk.injEq] at h; rw [← h.2]; exact Nat.le_refl _
  | cons p ds ih =>
    obtain ⟨n, d⟩ := p
    simp only [pass] at h
    split at h
    · cases h
    · have := ih h; simp only [List.length_cons]; omega
    · split at h
      · cases h
      · rename_i h'
        simp only [Except.ok.injEq, Prod.mk.injEq] at h
        have := ih h'
        rw [← h.2]; simp only [List.length_cons]; omega

/-- The loop of `resolve_secrets` (secrets.rs:129-150). -/
def resolveLoop (b : Box) (dz : DangerZone) (count : Nat) (remaining : List (String × SecretDef)) (resolved : List (String × Bytes)) :
    Except Failure (List (String × Bytes)) :=
  if resolved.length < count then
    match h : pass b dz remaining resolved with
    | .error e => .error e
    | .ok (r, rest) =>
      if rest.length = remaining.length then .error (bad 142 "circular secret references detected".toList)
      else resolveLoop b dz count rest r
  else .ok resolved
termination_by remaining.length
decreasing_by
  have := pass_length h
  omega

/-- The first key-encryption reference that is not defined (secrets.rs:119-127). -/
def firstMissing (defs : List (String × SecretDef)) : List (String × SecretDef) → Option (String × String)
  | [] => none
  | (n, d) :: rest =>
    match d.encryptedBy with
    | some k => if defs.any (fun q => q.1 = k) then firstMissing defs rest else some (n, k)
    | none => firstMissing defs rest

/-- `resolve_secrets` (secrets.rs:110-151), for the iteration order of `defs`. -/
def resolve (b : Box) (dz : DangerZone) (defs : List (String × SecretDef)) : Except Failure (List (String × Bytes)) :=
  match firstMissing defs defs with
  | some (n, k) => .error (bad 122 (of n ++ "missing KEK reference '".toList ++ chars k ++ "'".toList))
  | none => resolveLoop b dz defs.length defs []

/-! ## `Debug` -/

/-- `[REDACTED]` as `{:?}` shows it (secrets.rs:70). -/
def redacted : Text := "\"[REDACTED]\"".toList

/-- Debug of `ResolvedSecret` (secrets.rs:67-73). -/
def debugSecret (_bytes : Bytes) : Text := "ResolvedSecret { bytes: ".toList ++ (redacted ++ " }".toList)

/-- Debug of `PskCredentials` (stripe_server/psk.rs:19-26); `shown` is Debug of a string. -/
def debugPsk (shown : Text → Text) (identity : Text) (_secret : Bytes) : Text :=
  "PskCredentials { identity: ".toList ++ (shown identity ++ (", secret: ".toList ++ (redacted ++ " }".toList)))

/-- Debug of `XtsBlockCipher` (crypt/block.rs:13-20). -/
def debugXts (_k : Crypt.Keys) : Text :=
  "XtsBlockCipher { key1: ".toList ++ (redacted ++ (", key2: ".toList ++ (redacted ++ " }".toList)))

/-- Debug of an option of a redacted value (crypt/key.rs:34-35, archive/mod.rs:117). -/
def debugOption (o : Option Bytes) : Text :=
  match o with
  | none => "None".toList
  | some _ => "Some(".toList ++ (redacted ++ ")".toList)

/-- Debug of `KeyEncryptionCipher` (crypt/key.rs:30-38). -/
def debugKek (k : Crypt.Kek) : Text :=
  "KeyEncryptionCipher { method: ".toList ++ ((match k.method with | .none => "None".toList | .aes256Gcm => "Aes256Gcm".toList) ++
    (", key: ".toList ++ (debugOption k.key ++ (", auth_data: ".toList ++ (debugOption k.auth ++ " }".toList)))))

/-- Debug of `SecretSource::Inline` in the derived Debug of `SecretDef` (secrets.rs:18-24, 49-59): the text as it is. -/
def debugInline (shown : Bytes → Text) (t : Bytes) : Text := "Inline(".toList ++ (shown t ++ ")".toList)

end Verif.Report
