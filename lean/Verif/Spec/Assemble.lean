import Verif.Model.Assemble

/-! # What a program is to be put together from

The configuration in words: which key goes in front of the volume's files, which store, wrapping key, connection and source a
configuration stands for. No reference to how the programs are written. -/

namespace Verif.Assemble
open Verif Verif.Config Verif.Metadata

/-- What has been asked for. -/
def asked (l : Log) : List Act := l.map Sigma.fst

/-- The volume's own files. -/
def Own (c : Config) (path : List Char) : Prop := path = c.device.dataPath ∨ c.device.metadataPath = some path

/-- The keys in front of the volume's files: none if no encryption is configured, otherwise the two halves of the named secret. -/
def KeysOf (c : Config) (keys : Option Crypt.Keys) : Prop :=
  match c.encryption with
  | none => keys = none
  | some name => ∃ k, c.secrets.lookup name = some k ∧ k.length = 64 ∧ keys = some ⟨k.take 32, k.drop 32⟩

/-- A text that is the value of a named secret. -/
def TextOf (t : Text) (secrets : List (String × Bytes)) (name s : String) : Prop :=
  ∃ b, secrets.lookup name = some b ∧ t.decode b = some s

/-- The store a section of the configuration stands for. -/
inductive StoreOf (t : Text) (secrets : List (String × Bytes)) : Storage → Store → Prop where
  | directory (path : List Char) (kek : Option String) (a : Bool) : StoreOf t secrets (.filesystem path kek a) (.directory path)
  | bucket (s : S3) (cl : Client) (n : Nat)
      (endpoint : cl.endpoint = s.endpoint) (region : cl.region = s.region)
      (access : TextOf t secrets s.accessKeyId cl.accessKeyId) (secretKey : TextOf t secrets s.secretAccessKey cl.secretAccessKey)
      (token : ∀ name, s.sessionToken = some name → ∃ x, cl.sessionToken = some x ∧ TextOf t secrets name x)
      (noToken : s.sessionToken = none → cl.sessionToken = none)
      (connectTimeout : cl.connectTimeoutMs = s.connectTimeoutMs) (operationTimeout : cl.operationTimeoutMs = s.operationTimeoutMs)
      (attempts : cl.maxAttempts = s.maxAttempts)
      (retry : s.rate.enabled = true → cl.retry = some (s.rate.minDelayMs, s.rate.jitterMs))
      (noRetry : s.rate.enabled = false → cl.retry = none)
      (workers : n = max 1 (min 128 s.connections)) :
      StoreOf t secrets (.s3 s) (.bucket cl s.bucket s.pfx n)

/-- The cipher of an archive's keys: none if no key is configured, otherwise AES-256-GCM under the named secret, with the
archives' authenticated data. -/
def KekOf (secrets : List (String × Bytes)) (name : Option String) (k : Crypt.Kek) : Prop :=
  match name with
  | none => k = ⟨.none, none, none⟩
  | some n => ∃ b, secrets.lookup n = some b ∧ k = ⟨.aes256Gcm, some b, some ("ubiblk_archive".toList.map fun ch => ch.toNat.toUInt8)⟩

/-- The name of the key of an archive. -/
def kekName : Storage → Option String
  | .filesystem _ kek _ => kek
  | .s3 s => s.kek

/-- A connection as the section of a remote source describes it. -/
structure DialOf (secrets : List (String × Bytes)) (r : Remote) (d : Dial) : Prop where
  address : d.address = r.address
  psk : ∀ p, r.psk = some p → ∃ b, secrets.lookup p.secret = some b ∧ 16 ≤ b.length ∧ d.psk = some (p.identity, b)
  noPsk : r.psk = none → d.psk = none
  connectTimeout : d.connectTimeoutMs = r.connectTimeoutMs
  operationTimeout : d.operationTimeoutMs = r.operationTimeoutMs

/-- The image of a raw source: opened for reading only, never decrypted. -/
structure ImageOf (c : Config) (path : List Char) (d : Dev) : Prop where
  path : d.file.path = path
  readonly : d.file.readonly = true
  plain : d.keys = none
  engine : d.file.sync = c.tuning.sync

/-- The source of stripes that are not there yet, as configured. -/
inductive SourceOf (t : Text) (c : Config) : Src → Prop where
  | none : c.source = none → SourceOf t c .nothing
  | raw (path : List Char) (a copy : Bool) (d : Dev) : c.source = some (.raw path a copy) → ImageOf c path d → SourceOf t c (.image d)
  | archive (st : Storage) (s : Store) (k : Crypt.Kek) (n : Nat) :
      c.source = some (.archive st) → StoreOf t c.secrets st s → KekOf c.secrets (kekName st) k → SourceOf t c (.archive s k n)
  | server (r : Remote) (dials : List Dial) (n : Nat) :
      c.source = some (.remote r) → dials.length = r.connections → (∀ d ∈ dials, DialOf c.secrets r d) → SourceOf t c (.server dials n)

/-- Stripes are to be fetched unasked: the flag of the configured source, whichever it is. -/
def Unasked (c : Config) : Prop :=
  (∃ q copy, c.source = some (.raw q true copy)) ∨ (∃ q k, c.source = some (.archive (.filesystem q k true))) ∨
  (∃ s, c.source = some (.archive (.s3 s)) ∧ s.autofetch = true) ∨ ∃ r, c.source = some (.remote r) ∧ r.autofetch = true

/-- Every stripe that has a source has been fetched. -/
def AllThere (m : Meta) : Prop := ∀ h ∈ m.headers, h &&& HAS_SOURCE ≠ 0 → h &&& FETCHED ≠ 0

/-- Whether a program opens the volume's files, and if so, whether only for reading. -/
def Program.opens : Program → Option Bool
  | .backend => some false
  | .server => some false
  | .init _ => some false
  | .archive _ => some true
  | .dump => some true
  | .session _ => none

/-- What a program may ask of the outside, whatever is answered. -/
def MayAsk (t : Text) (c : Config) (p : Program) : Act → Prop
  | .statfs q => p = .backend ∧ q = c.device.dataPath
  | .openFile f =>
    f.direct = true ∧ f.writeThrough = c.tuning.writeThrough ∧
    ((Own c f.path ∧ p.opens = some f.readonly ∧ f.sync = c.tuning.sync) ∨
     ((∃ a b, c.source = some (.raw f.path a b)) ∧ f.readonly = true ∧ (p ≠ .dump → f.sync = c.tuning.sync)))
  | .loadMeta d => c.device.metadataPath = some d.file.path ∧ KeysOf c d.keys
  | .makeDir q =>
    (∃ k a, c.source = some (.archive (.filesystem q k a))) ∨ ∃ tc k a, p = .archive tc ∧ tc.target = .filesystem q k a
  | .startClient s =>
    (∃ st, c.source = some (.archive st) ∧ StoreOf t c.secrets st s) ∨ ∃ tc, p = .archive tc ∧ StoreOf t tc.secrets tc.target s
  | .readArchive s k => ∃ st, c.source = some (.archive st) ∧ StoreOf t c.secrets st s ∧ KekOf c.secrets (kekName st) k
  | .dial d => ∃ r, c.source = some (.remote r) ∧ DialOf c.secrets r d
  | .create q => ∃ shift, p = .init shift ∧ c.device.metadataPath = some q
  | .saveMeta d => ∃ shift, p = .init shift ∧ c.device.metadataPath = some d.file.path ∧ KeysOf c d.keys
  | .loadTarget => ∃ tc, p = .archive tc

/-- The metadata a program goes by. -/
def Program.goesBy (x : Parts) : Program → Option Meta
  | .session m => some m
  | _ => x.md.map Prod.snd

/-- What the parts of a program have to be. -/
structure AsConfigured (t : Text) (c : Config) (p : Program) (x : Parts) : Prop where
  disk : ∀ d, x.disk = some d → d.file.path = c.device.dataPath ∧ KeysOf c d.keys
  md : ∀ d m, x.md = some (d, m) → c.device.metadataPath = some d.file.path ∧ KeysOf c d.keys
  /-- guests read the image directly exactly when `copy_on_read` is off -/
  image : ∀ d, x.image = some d → ∃ q a, c.source = some (.raw q a false) ∧ ImageOf c q d
  /-- nothing more is fetched: no source -/
  noSource : ∀ m s, p.goesBy x = some m → AllThere m → x.source = some s → s = .nothing
  /-- otherwise the one that is configured -/
  source : ∀ s, (∀ m, p.goesBy x = some m → ¬AllThere m) → x.source = some s → SourceOf t c s
  target : ∀ s k, x.target = some (s, k) → ∃ tc, p = .archive tc ∧ StoreOf t tc.secrets tc.target s ∧ KekOf tc.secrets (kekName tc.target) k

/-- The same outside answers every question the same way. -/
abbrev Outside := (a : Act) → Option a.Ans

/-- The run of a program against it. -/
def against {α : Type} (o : Outside) : Prog α → Log × Except Err α
  | .done r => ([], r)
  | .ask a next => (⟨a, o a⟩ :: (against o (next (o a))).1, (against o (next (o a))).2)

end Verif.Assemble
