import Verif.Model.Load
import Verif.Model.Remote
import Verif.Model.S3

/-! # Putting a program together

What the programs do with a loaded configuration before they do their work: which files they open and how, which keys they
put in front of them, which source and store they set up and with which credentials. Models `BackendEnv::build` and what it
calls (`/repo/src/backends/common/mod.rs:53-285, 441-519`), `/repo/src/stripe_source/builder.rs`,
`/repo/src/utils/s3.rs:53-141`, `connect_to_stripe_server` (`/repo/src/stripe_server/client.rs:190-234`), and the beginnings
of `/repo/src/bin/{archive,dump-metadata,export-archive,init-metadata}.rs` and `/repo/src/stripe_server/prepare.rs`.

A program asks the outside for things and goes on with the answers; `none` is a failure. How a directory of an archive is
read, what happens on a connection, and how metadata are read from a device are described elsewhere (Model/Archive,
Model/Remote, Model/Wait); here only that they are asked for. Left out: `statfs` returning a negative block size, threads and
channels that cannot be made, `create_channel` failing. -/

namespace Verif.Assemble
open Verif Verif.Config Verif.Metadata

/-- The arguments of `create_io_engine_device` (common/mod.rs:441-462). `queue` only matters with io_uring. -/
structure File where
  path : List Char
  readonly : Bool
  direct : Bool
  sync : Bool
  writeThrough : Bool
  queue : Nat
deriving DecidableEq

/-- A device made by `build_block_device` or `build_raw_image_device` (common/mod.rs:464-519): the file, the keys of the
encrypting layer if there is one, and the number of sectors. -/
structure Dev where
  file : File
  keys : Option Crypt.Keys
  sectors : Nat

/-- The arguments of `build_s3_client` (utils/s3.rs:93-100) as builder.rs:180-204 gives them; `retry` is the minimal delay
and the jitter in milliseconds. `profile` is always `None`. -/
structure Client where
  endpoint : Option String
  region : Option String
  accessKeyId : String
  secretAccessKey : String
  sessionToken : Option String
  connectTimeoutMs : Nat
  operationTimeoutMs : Nat
  maxAttempts : Nat
  retry : Option (Nat × Nat)

/-- `FileSystemStore` and `S3Store` (archive/fs_store.rs:12-19, archive/s3_store.rs:48-82): the directory; the client, the
bucket, the prefix as configured, and the number of workers. -/
inductive Store where
  | directory (path : List Char)
  | bucket (client : Client) (name : String) (pfx : Option String) (workers : Nat)

/-- What `connect_to_stripe_server` uses (client.rs:190-234): address, identity and secret, and the two time limits. -/
structure Dial where
  address : String
  psk : Option (String × Bytes)
  connectTimeoutMs : Nat
  operationTimeoutMs : Nat

/-- What programs ask of the outside while they are put together (common/mod.rs:53-285, 331-519, builder.rs:42-215, client.rs:190-234). -/
inductive Act where
  /-- `statfs` (common/mod.rs:186-191) -/
  | statfs (path : List Char)
  /-- opening of a file by an engine (common/mod.rs:441-462) -/
  | openFile (f : File)
  /-- `load_from_bdev` (common/mod.rs:141, metadata_flusher.rs:60) or `load_metadata_for_serving` (prepare.rs:32-35) -/
  | loadMeta (d : Dev)
  /-- `create_dir_all` of a store's directory (fs_store.rs:13) -/
  | makeDir (path : List Char)
  /-- an S3 client and its workers (builder.rs:179-213) -/
  | startClient (s : Store)
  /-- `ArchiveStripeSource::new` (archive.rs:38-62) -/
  | readArchive (s : Store) (kek : Crypt.Kek)
  /-- one connection to a stripe server (client.rs:215-234) -/
  | dial (d : Dial)
  /-- creating or changing a file directly: `ensure_metadata_file` (common/mod.rs:365-438), `File::create` (export_archive.rs:34, 41) -/
  | create (path : List Char)
  /-- `save_to_bdev` (common/mod.rs:360) -/
  | saveMeta (d : Dev)
  /-- loading of the configuration of the archive's target (bin/archive.rs:112) -/
  | loadTarget

/-- What is answered: block size, sectors of the file, metadata, sectors of an archive, metadata of a server (return values of
the functions named at `Act`, e.g. common/mod.rs:141, 186-191). -/
abbrev Act.Ans : Act → Type
  | .statfs _ => Nat
  | .openFile _ => Nat
  | .loadMeta _ => Meta
  | .makeDir _ => Unit
  | .startClient _ => Unit
  | .readArchive _ _ => Nat
  | .dial _ => Meta
  | .create _ => Unit
  | .saveMeta _ => Unit
  | .loadTarget => Unit

/-- Errors: of the outside, and those made here (common/mod.rs:331-336, 503-511, builder.rs:100-104, 146-152,
metadata_flusher.rs:64-72, stripe_fetcher.rs:68-75, prepare.rs:40-46, client.rs:201-213). -/
inductive Err where
  | outside (a : Act)
  | missingSecret
  | notText
  | badKey
  | credentials (e : Psk)
  | remote (e : Remote.CErr)
  | tooManyStripes
  | targetTooSmall
  | noMetadataPath
  | noSource
  | panic

/-- A program that asks and goes on with the answer; no counterpart in the code. -/
inductive Prog (α : Type) where
  | done (r : Except Err α)
  | ask (a : Act) (next : Option a.Ans → Prog α)

/-- Sequencing, as `?` does it: after an error nothing else is done (e.g. common/mod.rs:53-83). -/
def Prog.bind {α β : Type} : Prog α → (α → Prog β) → Prog β
  | .done (.ok a), f => f a
  | .done (.error e), _ => .done (.error e)
  | .ask a next, f => .ask a fun x => (next x).bind f

/-- No counterpart in the code: notation for the functions below. -/
instance : Monad Prog where
  pure a := .done (.ok a)
  bind := Prog.bind

/-- Asks, and gives up with an error when that fails: `?` (e.g. common/mod.rs:56-57). -/
def ask (a : Act) : Prog a.Ans :=
  .ask a fun x => match x with
    | some x => .done (.ok x)
    | none => .done (.error (.outside a))

/-- Gives up: `return Err(..)` (e.g. prepare.rs:40-46). -/
def fail {α : Type} (e : Err) : Prog α := .done (.error e)

/-- What has been asked, in order, with the answers; no counterpart in the code. -/
abbrev Log := List (Σ a : Act, Option a.Ans)

/-- A run of a program with any answers; no counterpart in the code. -/
inductive Run {α : Type} : Prog α → Log → Except Err α → Prop where
  | done (r : Except Err α) : Run (.done r) [] r
  | ask (a : Act) (next : Option a.Ans → Prog α) (x : Option a.Ans) (l : Log) (r : Except Err α) :
      Run (next x) l r → Run (.ask a next) (⟨a, x⟩ :: l) r

/-! ## Devices -/

/-- A resolved secret (`config.secrets.get`, common/mod.rs:501-511; `get_resolved_secret`, secrets.rs:284-298). -/
def secret (secrets : List (String × Bytes)) (name : String) : Prog Bytes :=
  match secrets.lookup name with
  | some b => pure b
  | none => fail .missingSecret

/-- The keys of the encrypting layer (common/mod.rs:499-516): `split_at(32)` panics on a shorter secret,
`CryptBlockDevice::new` refuses keys that are not 32 bytes long (bdev_crypt.rs:113-116). -/
def xtsKeys (c : Config) : Prog (Option Crypt.Keys) :=
  match c.encryption with
  | none => pure none
  | some name => do
    let k ← secret c.secrets name
    if k.length < 32 then fail .panic
    else
      match Crypt.Keys.new (k.take 32) (k.drop 32) with
      | .ok keys => pure (some keys)
      | .error _ => fail .badKey

/-- `build_block_device` (common/mod.rs:484-519). -/
def buildBlockDevice (c : Config) (path : List Char) (readonly : Bool) : Prog Dev := do
  let file : File := { path, readonly, direct := true, sync := c.tuning.sync, writeThrough := c.tuning.writeThrough, queue := c.tuning.queueSize }
  let sectors ← ask (.openFile file)
  let keys ← xtsKeys c
  pure { file, keys, sectors }

/-- `raw_image_path` (stripe_source.rs:53-58) of the optional source. -/
def imagePath (c : Config) : Option (List Char) :=
  match c.source with
  | some (.raw p _ _) => some p
  | _ => none

/-- `copy_on_read` (stripe_source.rs:46-51). -/
def copyOnRead : StripeSource → Bool
  | .raw _ _ copy => copy
  | _ => true

/-- `autofetch` (stripe_source.rs:37-44). -/
def autofetch : StripeSource → Bool
  | .raw _ a _ => a
  | .archive (.filesystem _ _ a) => a
  | .archive (.s3 s) => s.autofetch
  | .remote r => r.autofetch

/-- `build_raw_image_device` (common/mod.rs:464-482). -/
def buildRawImage (c : Config) : Prog (Option Dev) :=
  match imagePath c with
  | none => pure none
  | some path => do
    let file : File := { path, readonly := true, direct := true, sync := c.tuning.sync, writeThrough := c.tuning.writeThrough, queue := 64 }
    let sectors ← ask (.openFile file)
    pure (some { file, keys := none, sectors })

/-! ## Stores and sources -/

/-- What stays abstract: `String::from_utf8` (builder.rs:99-104) and the bytes of a string (client.rs:208-212). -/
structure Text where
  decode : Bytes → Option String
  bytes : String → Bytes

/-- `resolved_secret_to_string` (builder.rs:94-105). -/
def secretText (t : Text) (secrets : List (String × Bytes)) (name : String) : Prog String := do
  let b ← secret secrets name
  match t.decode b with
  | some s => pure s
  | none => fail .notText

/-- The same for an optional secret (builder.rs:115-117). -/
def optSecretText (t : Text) (secrets : List (String × Bytes)) : Option String → Prog (Option String)
  | none => pure none
  | some name => do
    let s ← secretText t secrets name
    pure (some s)

/-- The number of workers an S3 store starts (s3_store_workers.rs:38-54). -/
def workers (n : Nat) : Nat :=
  let n := if n < 1 then 1 else n
  if n > 128 then 128 else n

/-- `build_archive_store` (builder.rs:160-215) with `build_aws_credentials` (builder.rs:107-131). -/
def buildStore (t : Text) (st : Storage) (secrets : List (String × Bytes)) : Prog Store :=
  match st with
  | .filesystem path _ _ => do
    ask (.makeDir path)
    pure (.directory path)
  | .s3 s => do
    let accessKeyId ← secretText t secrets s.accessKeyId
    let secretAccessKey ← secretText t secrets s.secretAccessKey
    let sessionToken ← optSecretText t secrets s.sessionToken
    let store : Store := .bucket
      { endpoint := s.endpoint, region := s.region, accessKeyId, secretAccessKey, sessionToken,
        connectTimeoutMs := s.connectTimeoutMs, operationTimeoutMs := s.operationTimeoutMs, maxAttempts := s.maxAttempts,
        retry := if s.rate.enabled then some (s.rate.minDelayMs, s.rate.jitterMs) else none }
      s.bucket s.pfx (workers s.connections)
    ask (.startClient store)
    pure store

/-- `b"ubiblk_archive"` (builder.rs:156). -/
def archiveAuth : Bytes := [117, 98, 105, 98, 108, 107, 95, 97, 114, 99, 104, 105, 118, 101]

/-- The field `archive_kek` of either variant (builder.rs:137-140). -/
def Storage.kek : Storage → Option String
  | .filesystem _ kek _ => kek
  | .s3 s => s.kek

/-- `build_archive_kek` (builder.rs:133-158). -/
def buildKek (st : Storage) (secrets : List (String × Bytes)) : Prog Crypt.Kek :=
  match Storage.kek st with
  | none => pure { method := .none, key := none, auth := none }
  | some name => do
    let key ← secret secrets name
    pure { method := .aes256Gcm, key := some key, auth := some archiveAuth }

/-- The credentials of a connection (client.rs:205-213): the secret of the configured name; `PskCredentials::new`
(psk.rs:29-51) refuses an empty identity and a secret of fewer than 16 bytes. -/
def dialPsk (t : Text) (secrets : List (String × Bytes)) : Option Psk → Prog (Option (String × Bytes))
  | none => pure none
  | some p => do
    let b ← secret secrets p.secret
    if (t.bytes p.identity).isEmpty || b.length < 16 then fail (.credentials p)
    else pure (some (p.identity, b))

/-- `connect_to_stripe_server` (client.rs:190-234). An address that cannot be parsed is a failed dial. -/
def connect (t : Text) (secrets : List (String × Bytes)) (r : Remote) : Prog (Dial × Meta) := do
  let psk ← dialPsk t secrets r.psk
  let d : Dial := { address := r.address, psk, connectTimeoutMs := r.connectTimeoutMs, operationTimeoutMs := r.operationTimeoutMs }
  let m ← ask (.dial d)
  pure (d, m)

/-- The pool of connections (builder.rs:74-78). -/
def connectAll (t : Text) (secrets : List (String × Bytes)) (r : Remote) : Nat → Prog (List (Dial × Meta))
  | 0 => pure []
  | n + 1 => do
    let d ← connect t secrets r
    let rest ← connectAll t secrets r n
    pure (d :: rest)

/-- A stripe source as built (builder.rs:42-92): a block device of no sectors, the image, an archive with its sectors, the
connections to a server with the sectors it has. -/
inductive Src where
  | nothing
  | image (d : Dev)
  | archive (s : Store) (kek : Crypt.Kek) (sectors : Nat)
  | server (dials : List Dial) (sectors : Nat)

/-- `sector_count` of the source (stripe_source/bdev.rs:49-51, archive.rs, remote.rs; bdev_null.rs:67-69). -/
def Src.sectors : Src → Nat
  | .nothing => 0
  | .image d => d.sectors
  | .archive _ _ n => n
  | .server _ n => n

/-- `StripeSourceBuilder::build` (builder.rs:42-92). -/
def buildSource (t : Text) (c : Config) (ssc : Nat) (allFetched : Bool) : Prog Src :=
  if allFetched then pure .nothing
  else
    match c.source with
    | some (.archive st) => do
      let store ← buildStore t st c.secrets
      let kek ← buildKek st c.secrets
      let n ← ask (.readArchive store kek)
      pure (.archive store kek n)
    | some (.remote r) => do
      let pool ← connectAll t c.secrets r r.connections
      match Remote.newSource (pool.map fun p => some p.2) ssc with
      | .ok (_, n, _) => pure (.server (pool.map Prod.fst) n)
      | .error e => fail (.remote e)
    | _ => do
      match ← buildRawImage c with
      | some d => pure (.image d)
      | none => pure .nothing

/-! ## Programs -/

/-- What a program has when it begins its work: data device, metadata device and metadata, the image guests read directly,
the source, whether everything is fetched unasked, whether writes are recorded, alignment of buffers, trackers (number and
size), and the store it writes to with the cipher of its keys (common/mod.rs:31-50, bin/archive.rs:88-129,
stripe_server/mod.rs:35-40). -/
structure Parts where
  disk : Option Dev := none
  md : Option (Dev × Meta) := none
  image : Option Dev := none
  source : Option Src := none
  autofetch : Bool := false
  trackWritten : Bool := false
  alignment : Nat := 0
  trackers : Nat × Nat := (0, 0)
  target : Option (Store × Crypt.Kek) := none

/-- `BUFFER_ALIGNMENT` (utils/aligned_buffer.rs:2). -/
def BUFFER_ALIGNMENT : Nat := 4096

/-- The image of `build_bdev_lazy` (common/mod.rs:203-212). -/
def lazyImage (c : Config) : Prog (Option Dev) :=
  match c.source with
  | none => pure none
  | some s => if copyOnRead s then pure none else buildRawImage c

/-- `BackendEnv::build` (common/mod.rs:53-83), `build_with_bgworker` (common/mod.rs:135-183), and `run_bgworker_thread` up to
the worker's start (common/mod.rs:85-100, 229-276), as `run_backend_loop` calls them (common/mod.rs:309-310). -/
def backend (t : Text) (c : Config) : Prog Parts := do
  let block ← ask (.statfs c.device.dataPath)
  let disk ← buildBlockDevice c c.device.dataPath false
  let parts : Parts :=
    { disk := some disk, alignment := max BUFFER_ALIGNMENT block, trackers := (c.tuning.numQueues, c.tuning.queueSize) }
  match c.device.metadataPath with
  | none => pure parts
  | some path => do
    let md ← buildBlockDevice c path false
    let m ← ask (.loadMeta md)
    let image ← lazyImage c
    let source ← buildSource t c (stripeSectorCount m) (hasFetchedAll m)
    -- MetadataFlusher::new (metadata_flusher.rs:54-72) and StripeFetcher::new (stripe_fetcher.rs:66-75)
    let m' ← ask (.loadMeta md)
    if divCeil source.sectors (stripeSectorCount m') > m'.headers.length then fail .tooManyStripes
    else if disk.sectors < source.sectors then fail .targetTooSmall
    else pure { parts with
      md := some (md, m), image, source := some source, autofetch := (c.source.map autofetch).getD false,
      trackWritten := c.device.trackWritten }

/-- `run` of the archive tool up to the start of its work (bin/archive.rs:83-129). The target's configuration `tc` is loaded only
after the source is there. -/
def archive (t : Text) (c : Config) (tc : TargetConfig) : Prog Parts :=
  match c.device.metadataPath with
  | none => fail .noMetadataPath
  | some path => do
    let md ← buildBlockDevice c path true
    let m ← ask (.loadMeta md)
    let disk ← buildBlockDevice c c.device.dataPath true
    let source ← buildSource t c (stripeSectorCount m) (hasFetchedAll m)
    ask .loadTarget
    let store ← buildStore t tc.target tc.secrets
    let kek ← buildKek tc.target tc.secrets
    pure { disk := some disk, md := some (md, m), source := some source, target := some (store, kek) }

/-- `prepare_stripe_server` (prepare.rs:24-75). Without metadata nothing else is needed. -/
def serve (c : Config) : Prog Parts := do
  let disk ← buildBlockDevice c c.device.dataPath false
  match c.device.metadataPath with
  | none => pure { disk := some disk }
  | some path => do
    let md ← buildBlockDevice c path false
    let m ← ask (.loadMeta md)
    if !hasFetchedAll m && c.source.isNone then fail .noSource
    else pure { disk := some disk, md := some (md, m), trackWritten := c.device.trackWritten }

/-- The source of a session of the stripe server (stripe_server/mod.rs:71-84), which has the metadata `m`. -/
def session (t : Text) (c : Config) (m : Meta) : Prog Parts := do
  let source ← buildSource t c (stripeSectorCount m) (hasFetchedAll m)
  pure { source := some source }

/-- The source whose size `init_metadata` asks for (common/mod.rs:331-362). -/
def initSource (t : Text) (c : Config) (shift : UInt8) : Prog (Option Src) :=
  if c.source.isNone then pure none else do
    let s ← buildSource t c (2 ^ shift.toNat) false
    pure (some s)

/-- `init_metadata` (common/mod.rs:331-362). The file is prepared for what `Model/Init` computes. -/
def initMetadata (t : Text) (c : Config) (shift : UInt8) : Prog Parts :=
  match c.device.metadataPath with
  | none => fail .noMetadataPath
  | some path => do
    let disk ← buildBlockDevice c c.device.dataPath false
    let source ← initSource t c shift
    ask (.create path)
    let md ← buildBlockDevice c path false
    ask (.saveMeta md)
    pure { disk := some disk, md := none, source }

/-- `format_source_info` (bin/dump-metadata.rs:56-98) opens the image, always with io_uring. -/
def dumpImage (c : Config) : Prog Unit :=
  match imagePath c with
  | none => pure ()
  | some p => do
    let _ ← ask (.openFile { path := p, readonly := true, direct := true, sync := false, writeThrough := c.tuning.writeThrough, queue := c.tuning.queueSize })
    pure ()

/-- `run` of dump-metadata (bin/dump-metadata.rs:110-131). -/
def dump (c : Config) : Prog Parts := do
  let disk ← buildBlockDevice c c.device.dataPath true
  dumpImage c
  match c.device.metadataPath with
  | none => fail .noMetadataPath
  | some path => do
    let md ← buildBlockDevice c path true
    let m ← ask (.loadMeta md)
    pure { disk := some disk, md := some (md, m) }

/-- `export_archive` (export_archive.rs:18-41) up to the creation of the target. -/
def exportArchive (t : Text) (c : ExportConfig) (target : List Char) : Prog Parts := do
  let store ← buildStore t c.archive c.secrets
  let kek ← buildKek c.archive c.secrets
  let n ← ask (.readArchive store kek)
  ask (.create target)
  pure { source := some (.archive store kek n) }

/-- The programs that have a volume's configuration, and the sessions of its stripe server (bin/archive.rs:83, bin/dump-metadata.rs:110,
bin/init-metadata.rs:35, bin/vhost-backend.rs:20, stripe_server/mod.rs:71-84). -/
inductive Program where
  | backend
  | archive (tc : TargetConfig)
  | server
  | session (m : Meta)
  | init (shift : UInt8)
  | dump

/-- The programs (bin/archive.rs:83-129, bin/dump-metadata.rs:110-131, bin/init-metadata.rs:35-53, prepare.rs:24-75, common/mod.rs:309-310). -/
def Program.run (t : Text) (c : Config) : Program → Prog Parts
  | .backend => Assemble.backend t c
  | .archive tc => Assemble.archive t c tc
  | .server => serve c
  | .session m => Assemble.session t c m
  | .init shift => initMetadata t c shift
  | .dump => Assemble.dump c

/-! ## Retries of an S3 client -/

/-- What the retry classifier says about a response (utils/s3.rs:54-64): `none` leaves the decision to the others, `some d` asks for
a retry after `d` nanoseconds. `rnd` is `jitter.mul_f64(fastrand::f64())`. -/
def classify (status : Option Nat) (minDelay rnd : Nat) : Option Nat :=
  match status with
  | some s => if s = 500 ∨ s = 502 ∨ s = 503 ∨ s = 504 ∨ s = 429 then some (minDelay + rnd) else none
  | none => none

/-- `max_backoff` of the client (utils/s3.rs:119-132), in nanoseconds; `dflt` is the SDK's (20 s). -/
def maxBackoff (dflt : Nat) (retry : Option (Nat × Nat)) : Nat :=
  match retry with
  | some (minMs, jitterMs) => max (minMs * 1000000 + jitterMs * 1000000) dflt
  | none => dflt

/-- How long the client waits before it tries again, when the classifier asks for a delay: the SDK caps it (comment at
utils/s3.rs:120-126; library behaviour). -/
def waits (dflt : Nat) (retry : Option (Nat × Nat)) (status : Option Nat) (rnd : Nat) : Option Nat :=
  match retry with
  | some (minMs, _) => (classify status (minMs * 1000000) rnd).map fun d => min d (maxBackoff dflt retry)
  | none => none

end Verif.Assemble
