import Verif.Model.Crypt
import Verif.Model.Metadata

/-! # Model of archives

/repo/src/archive/{mod,archiver,compression,hmac,stripe_hashes}.rs, /repo/src/stripe_source/archive.rs and
/repo/src/export_archive.rs. SHA-256, HMAC-SHA-256, zstd, CBOR (ciborium) and JSON (serde_json) are parameters with
their functional laws as hypotheses. -/

namespace Verif.Archive
open Verif Verif.Crypt Verif.Disk

/-! ## Names of stored objects -/

/-- Object names: the `String` keys of `ArchiveStore` (archive/mod.rs:15-28), as characters. -/
abbrev Name := List Char

/-- One hexadecimal digit of `hex::encode` (library; called at archiver.rs:255, stripe_source/archive.rs:209), lower
case. -/
def hexDigit (n : Nat) : Char := if n < 10 then Char.ofNat (48 + n) else Char.ofNat (87 + n)

/-- `hex::encode` (library; called at archiver.rs:255, stripe_source/archive.rs:209). -/
def hex (b : Bytes) : Name := b.flatMap fun x => [hexDigit (x.toNat / 16), hexDigit (x.toNat % 16)]

/-- `object_key` (archiver.rs:254-256, stripe_source/archive.rs:208-210). -/
def objectKey (hash : Bytes) : Name := ['d', 'a', 't', 'a', '/'] ++ hex hash

/-- `"metadata.json"` (archiver.rs:293, stripe_source/archive.rs:70). -/
def metadataName : Name := ['m', 'e', 't', 'a', 'd', 'a', 't', 'a', '.', 'j', 's', 'o', 'n']
/-- `"stripe-mapping"` (archiver.rs:305, stripe_source/archive.rs:86). -/
def mappingName : Name := ['s', 't', 'r', 'i', 'p', 'e', '-', 'm', 'a', 'p', 'p', 'i', 'n', 'g']

/-! ## Contents of the manifest -/

/-- `ArchiveCompressionAlgorithm` (archive/mod.rs:72-80); `level` is the two's complement of the i32. -/
inductive Comp where
  | none
  | zstd (level : Nat)
deriving DecidableEq, Repr

/-- `StripeContentSpecifier` (stripe_hashes.rs:36-41). -/
inductive Spec where
  | zero
  | obj (hash : Bytes)
deriving DecidableEq, Repr

/-- `ArchiveMetadata` (archive/mod.rs:83-111). -/
structure AMeta where
  version : Nat
  ssc : Nat
  encKey : Option Bytes
  comp : Comp
  hmacKey : Bytes
  hmac : Bytes
deriving DecidableEq

/-- The fields fit their types (declarations at archive/mod.rs:83-110; lengths fit `usize`). -/
structure AMeta.InRange (m : AMeta) : Prop where
  version : m.version < 2 ^ 32
  ssc : m.ssc < 2 ^ 64
  key : ∀ k, m.encKey = some k → k.length < 2 ^ 64
  level : ∀ l, m.comp = .zstd l → l < 2 ^ 32
  hmacKey : m.hmacKey.length < 2 ^ 64
  hmac : m.hmac.length < 2 ^ 64

/-- `StripeMappingFile` (stripe_hashes.rs:23-34). -/
structure MapFile where
  domain : Bytes
  version : Nat
  ciphertext : Bytes
  plaintextLen : Nat
  tag : Bytes
deriving DecidableEq

/-- The fields fit their types (declarations at stripe_hashes.rs:24-34). -/
structure MapFile.InRange (f : MapFile) : Prop where
  version : f.version < 2 ^ 32
  len : f.plaintextLen < 2 ^ 64
  domain : f.domain.length < 2 ^ 64
  tag : f.tag.length = 32

/-- Keys are u64, hashes `[u8; 32]` (stripe_hashes.rs:36-41, 53-54). -/
def MapInRange (m : List (Nat × Spec)) : Prop := ∀ kv ∈ m, kv.1 < 2 ^ 64 ∧ ∀ h, kv.2 = .obj h → h.length = 32

/-- The libraries used, as parameters: SHA-256 (utils/hash.rs), HMAC-SHA-256 (hmac.rs:9-17), AES-256-XTS and
AES-256-GCM (`Model/Crypt`), zstd (compression.rs:8-40), CBOR (stripe_hashes.rs:144-160) and JSON (archiver.rs:287,
stripe_source/archive.rs:71). -/
structure Prims where
  sha : Bytes → Bytes
  mac : Bytes → Bytes → Bytes
  xts : Xts
  aead : Aead
  zenc : Nat → Bytes → Option Bytes
  zdec : Bytes → Option Bytes
  encMap : List (Nat × Spec) → Bytes
  decMap : Bytes → Option (List (Nat × Spec))
  encFile : MapFile → Bytes
  decFile : Bytes → Option MapFile
  encMeta : AMeta → Bytes
  decMeta : Bytes → Option AMeta

/-- What is assumed of the libraries; no code of the repository. Nothing is assumed about decoding bytes that were not
encoded. -/
structure Prims.Lawful (P : Prims) : Prop where
  xts : P.xts.Lawful
  aead : P.aead.Lawful
  sha_len : ∀ b, (P.sha b).length = 32
  mac_len : ∀ k b, (P.mac k b).length = 32
  zdec_zenc : ∀ l b c, P.zenc l b = some c → P.zdec c = some b
  decMap_encMap : ∀ m, MapInRange m → P.decMap (P.encMap m) = some m
  decFile_encFile : ∀ f, f.InRange → P.decFile (P.encFile f) = some f
  decMeta_encMeta : ∀ m, m.InRange → P.decMeta (P.encMeta m) = some m
  /-- decoded values fit their types (u32, u64, i32, [u8; 32], lengths below 2^64) -/
  decFile_range : ∀ b f, P.decFile b = some f → f.InRange
  decMeta_range : ∀ b m, P.decMeta b = some m → m.InRange

/-- Errors, by the variant of `UbiblkError` the code makes of them (`ArchiveError`, `MetadataError`, I/O errors of the
store: archive/mod.rs:31-70) and `panic` for a failed assertion or an index out of range; the messages are left out.
-/
inductive Err where
  | panic | archive | metadata | io
deriving DecidableEq, Repr

/-- Errors of `Model/Crypt` as errors of this file: every failed wrapping or unwrapping of a key is one error
(crypt/key.rs:47-238). -/
def liftCrypt {α} : Except Crypt.Err α → Except Err α
  | .ok a => .ok a
  | .error .panic => .error .panic
  | .error _ => .error .archive

/-! ## Compression framing -/

/-- `with_size_header_and_padding` (compression.rs:55-67). -/
def frame (c : Bytes) : Except Err Bytes :=
  if c.length < 2 ^ 32 then
    let f := le 4 c.length ++ c
    .ok (f ++ zeros ((512 - f.length % 512) % 512))
  else .error .archive

/-- `compressed_payload` (compression.rs:69-87). -/
def unframe (d : Bytes) : Except Err Bytes :=
  if d.length < 4 then .error .archive
  else
    let n := fromLe (d.take 4)
    if n + 4 > d.length then .error .archive else .ok (slice d 4 n)

/-- `compress` (compression.rs:8-22). -/
def compress (P : Prims) (c : Comp) (d : Bytes) : Except Err Bytes :=
  if d.length % 512 ≠ 0 then .error .panic
  else match c with
    | .none => .ok d
    | .zstd level => match P.zenc level d with
      | some z => frame z
      | none => .error .archive

/-- `decompress` and `ensure_sector_aligned` (compression.rs:24-53). -/
def decompress (P : Prims) (c : Comp) (d : Bytes) : Except Err Bytes :=
  match c with
  | .none => .ok d
  | .zstd _ => match unframe d with
    | .error e => .error e
    | .ok p => match P.zdec p with
      | none => .error .archive
      | some b => if b.length % 512 ≠ 0 then .error .archive else .ok b

/-! ## Authenticated encodings -/

/-- `b"ARCHIVE_METADATA_HMAC_V1"` (hmac.rs:39). -/
def metaDomain : Bytes := 
  [65, 82, 67, 72, 73, 86, 69, 95, 77, 69, 84, 65, 68, 65, 84, 65, 95, 72, 77, 65, 67, 95, 86, 49]

/-- `push_len_prefixed` (hmac.rs:63-66). -/
def lenPrefixed (b : Bytes) : Bytes := le 8 b.length ++ b

/-- hmac.rs:44-50. -/
def keyField : Option Bytes → Bytes
  | some k => 1 :: lenPrefixed k
  | none => [0]

/-- hmac.rs:52-58. -/
def compField : Comp → Bytes
  | .none => [0]
  | .zstd l => 2 :: le 4 l

/-- `metadata_hmac_input` (hmac.rs:34-61). -/
def metaInput (m : AMeta) : Bytes := metaDomain ++ le 4 m.version ++ le 8 m.ssc ++ keyField m.encKey ++ compField m.comp

/-- `ARCHIVE_STRIPE_MAPPING_DOMAIN` = `b"ubiblk-archive-stripe-mapping"` (stripe_hashes.rs:17). -/
def mapDomain : Bytes := 
  [117, 98, 105, 98, 108, 107, 45, 97, 114, 99, 104, 105, 118, 101, 45, 115, 116, 114, 105, 112, 101, 45, 109, 97, 112, 112, 105, 110, 103]

/-- `manifest_hmac_input` (stripe_hashes.rs:173-180). -/
def mapInput (domain : Bytes) (version plaintextLen : Nat) (payload : Bytes) : Bytes :=
  domain ++ le 4 version ++ le 8 plaintextLen ++ payload

/-- `verify_hmac_tag` (hmac.rs:19-32). -/
def verifyTag (P : Prims) (key msg tag : Bytes) : Except Err Unit :=
  if P.mac key msg = tag then .ok () else .error .archive

/-- `verify_metadata_hmac_tag` (hmac.rs:73-82). -/
def verifyMeta (P : Prims) (key : Bytes) (m : AMeta) : Except Err Unit :=
  if m.hmac.length ≠ 32 then .error .metadata else verifyTag P key (metaInput m) m.hmac

/-! ## The stripe mapping -/

/-- `XTS_SECTOR_START` (stripe_hashes.rs:21). -/
def mapSector : Nat := 2 ^ 60

/-- `pad_to_sector` (stripe_hashes.rs:162-171). -/
def padToSector (b : Bytes) : Bytes := b ++ zeros ((512 - b.length % 512) % 512)

/-- `if let Some(cipher) = cipher { ... }` (stripe_hashes.rs:58-61, 116-119, archiver.rs:187-189). -/
def maybeCrypt (f : Keys → Except Crypt.Err Bytes) (keys : Option Keys) (b : Bytes) : Except Err Bytes :=
  match keys with
  | some k => liftCrypt (f k)
  | none => .ok b

/-- `serialize_stripe_mapping` (stripe_hashes.rs:44-74) of the entries in ascending order (`BTreeMap`). -/
def serializeMapping (P : Prims) (entries : List (Nat × Spec)) (hkey : Bytes) (keys : Option Keys) : Except Err Bytes :=
  let bytes := P.encMap entries
  let padded := padToSector bytes
  match maybeCrypt (fun k => encrypt P.xts k padded mapSector (padded.length / 512)) keys padded with
  | .error e => .error e
  | .ok ct =>
    .ok (P.encFile { domain := mapDomain, version := 1, ciphertext := ct, plaintextLen := bytes.length,
                     tag := P.mac hkey (mapInput mapDomain 1 bytes.length ct) })

/-- `deserialize_stripe_mapping` (stripe_hashes.rs:77-142). -/
def deserializeMapping (P : Prims) (b hkey : Bytes) (keys : Option Keys) : Except Err (List (Nat × Spec)) :=
  match P.decFile b with
  | none => .error .archive
  | some f =>
    if f.version ≠ 1 then .error .archive
    else if f.domain ≠ mapDomain then .error .archive
    else if f.ciphertext.length % 512 ≠ 0 then .error .archive
    else match verifyTag P hkey (mapInput f.domain f.version f.plaintextLen f.ciphertext) f.tag with
      | .error e => .error e
      | .ok () =>
        match maybeCrypt (fun k => decrypt P.xts k f.ciphertext mapSector (f.ciphertext.length / 512)) keys f.ciphertext with
        | .error e => .error e
        | .ok pt =>
          if f.plaintextLen > pt.length then .error .archive
          else match P.decMap (pt.take f.plaintextLen) with
            | none => .error .archive
            | some m => .ok m

/-- A decoded CBOR map as a lookup table; a repeated key overwrites (`BTreeMap`, then `HashMap`, stripe_hashes.rs:134-141). -/
def tableOf (l : List (Nat × Spec)) : Nat → Option Spec := l.foldl (fun m kv => upd m kv.1 (some kv.2)) fun _ => none

/-! ## Archiving one stripe -/

/-- Configuration of a `StripeArchiver` (archiver.rs:21-85): `headers` are the stripe headers of the metadata, `conc`
the number of buffers, `keys` and `hkey` the random keys, `nk`/`nh` the nonces used when wrapping them. -/
structure Cfg where
  P : Prims
  count : Nat
  ssc : Nat
  headers : Bytes
  conc : Nat
  comp : Comp
  keys : Option Keys
  hkey : Bytes
  kek : Kek
  nk : Bytes
  nh : Bytes

/-- `maybe_encrypt` (archiver.rs:180-190). -/
def maybeEncrypt (c : Cfg) (id : Nat) (b : Bytes) : Except Err Bytes :=
  if b.length % 512 ≠ 0 then .error .panic
  else maybeCrypt (fun k => encrypt c.P.xts k b (id * c.ssc) (b.length / 512)) c.keys b

/-- The object made of a fetched stripe; `none` for a stripe of zeros (archiver.rs:200-211, `is_zero_stripe` 258-260). -/
def makeObject (c : Cfg) (id : Nat) (buf : Bytes) : Except Err (Option Bytes) :=
  if buf.all (· == 0) then .ok none
  else match compress c.P c.comp buf with
    | .error e => .error e
    | .ok z => match maybeEncrypt c id z with
      | .error e => .error e
      | .ok o => .ok (some o)

/-- `stripe_should_be_archived` (archiver.rs:262-279); indexing past the headers panics. -/
def shouldArchive (c : Cfg) (id : Nat) : Except Err Bool :=
  match c.headers[id]? with
  | none => .error .panic
  | some h => .ok (h &&& Metadata.WRITTEN != 0 || h &&& Metadata.HAS_SOURCE != 0)

/-- `archive_metadata` (archiver.rs:323-341). -/
def archiveMeta (c : Cfg) : Except Err AMeta :=
  let ek : Except Err (Option Bytes) := match c.keys with
    | some k => match liftCrypt (k.wrap c.P.aead c.kek c.nk) with | .ok b => .ok (some b) | .error e => .error e
    | none => .ok none
  match ek with
  | .error e => .error e
  | .ok ek => match liftCrypt (c.kek.encryptData c.P.aead c.nh c.hkey) with
    | .error e => .error e
    | .ok hk =>
      let m : AMeta := { version := 1, ssc := c.ssc, encKey := ek, comp := c.comp, hmacKey := hk, hmac := [] }
      .ok { m with hmac := c.P.mac c.hkey (metaInput m) }

/-! ## The archiver as a state machine

One step is one action of the archiver's loop (archiver.rs:102-128) or of its environment: the fetches (block device
channel or stripe source) and the object store, whose puts take effect at some moment and complete later. The loop
alternates starting, polling fetches and polling uploads; the model allows these in any order. -/

/-- Where the archiver is in `archive_all_inner` (archiver.rs:102-128): the two loops, inside `put_metadata`, inside
`put_stripe_mapping`, returned Ok, returned Err. -/
inductive Phase where
  | running | metaPut | mapPut | done | failed
deriving DecidableEq, Repr

/-- The variables of `StripeArchiver` that change (archiver.rs:21-37) with `next_stripe_id` (103): `free` is the
number of buffers in the pool, `fetching` the keys of `stripe_fetch_buffers`, `inflight` is `inflight_puts`, `seen`
`seen_object_keys`, `hashes` `stripe_hashes`. `physical_size_bytes` is in `Model/ArchiveSize`. `puts` and `store` are the object
store. -/
structure St where
  next : Nat := 0
  free : Nat
  fetching : List Nat := []
  inflight : Nat := 0
  seen : List Name := []
  hashes : Nat → Option Spec := fun _ => none
  phase : Phase := .running
  /-- Puts handed to the store and not completed, and whether they have taken effect. -/
  puts : List (Name × Bytes × Bool) := []
  store : Name → Option Bytes
  /-- History: names of all puts started, and the buffer delivered for each stripe. -/
  log : List Name := []
  got : Nat → Option Bytes := fun _ => none

/-- State after `StripeArchiver::new` (archiver.rs:41-85), on a store with the given contents. -/
def St.init (c : Cfg) (store : Name → Option Bytes) : St := { free := c.conc, store := store }

/-- `start_put_object` (archive/mod.rs:18). -/
def St.startPut (s : St) (n : Name) (b : Bytes) : St := { s with puts := s.puts ++ [(n, b, false)], log := s.log ++ [n] }

/-- Returning an error from `archive_all_inner` (archiver.rs:88-98). -/
def St.fail (s : St) : St := { s with phase := .failed }

/-- `start_upload_stripe` (archiver.rs:192-235). -/
def upload (c : Cfg) (s : St) (id : Nat) (buf : Bytes) : St :=
  if id ∉ s.fetching then s.fail
  else
    let s := { s with fetching := s.fetching.filter (· ≠ id) }
    match makeObject c id buf with
    | .error _ => s.fail
    | .ok none => { s with hashes := upd s.hashes id (some .zero), free := s.free + 1 }
    | .ok (some o) =>
      let s := { s with free := s.free + 1, hashes := upd s.hashes id (some (.obj (c.P.sha o))) }
      let key := objectKey (c.P.sha o)
      if key ∈ s.seen then s
      else { s with seen := key :: s.seen, inflight := s.inflight + 1 }.startPut key o

/-- The entries of the mapping in ascending order (the `BTreeMap` at stripe_hashes.rs:53-54). -/
def entries (count : Nat) (m : Nat → Option Spec) : List (Nat × Spec) :=
  (List.range count).filterMap fun i => (m i).map fun v => (i, v)

/-- End of `archive_all_inner` (archiver.rs:124-125, 285-296) up to starting the put of metadata.json. -/
def finish (c : Cfg) (s : St) : St :=
  match serializeMapping c.P (entries c.count s.hashes) c.hkey c.keys with
  | .error _ => s.fail
  | .ok _ => match archiveMeta c with
    | .error _ => s.fail
    | .ok m => { s with phase := .metaPut }.startPut metadataName (c.P.encMeta m)

/-- `put_stripe_mapping` after `put_metadata` returned (archiver.rs:126, 303-313). -/
def publish (c : Cfg) (s : St) : St :=
  match serializeMapping c.P (entries c.count s.hashes) c.hkey c.keys with
  | .error _ => s.fail
  | .ok b => { s with phase := .mapPut }.startPut mappingName b

/-- What happened in a step, for stating properties: an answer of the fetches or of the store. No counterpart in the
code. -/
inductive Lab where
  | tau
  | fetched (id : Nat) (ok : Bool) (buf : Bytes)
  | uploaded (n : Name) (ok : Bool)

/-- One step of the archiver (archiver.rs:102-128) or of its environment; each constructor cites its lines. -/
inductive Step (c : Cfg) : St → Lab → St → Prop where
  /-- archiver.rs:104-108 -/
  | skip (s : St) (hr : s.phase = .running) (hn : s.next < c.count) (h : shouldArchive c s.next = .ok false) :
      Step c s .tau { s with next := s.next + 1 }
  /-- indexing past the headers (archiver.rs:267) -/
  | panic (s : St) (hr : s.phase = .running) (hn : s.next < c.count) (e : Err) (h : shouldArchive c s.next = .error e) :
      Step c s .tau s.fail
  /-- `maybe_start_next_stripe` (archiver.rs:134-161); `submitOk` is the outcome of submitting the fetch -/
  | start (s : St) (hr : s.phase = .running) (hn : s.next < c.count) (h : shouldArchive c s.next = .ok true)
      (hf : 0 < s.free) (submitOk : Bool) :
      Step c s .tau (if submitOk then { s with next := s.next + 1, free := s.free - 1, fetching := s.next :: s.fetching }
        else s.fail)
  /-- `poll_fetches` for one completion (archiver.rs:163-178); buffers hold one stripe (archiver.rs:63-67) -/
  | fetchDone (s : St) (hr : s.phase = .running) (id : Nat) (hid : id ∈ s.fetching) (ok : Bool) (buf : Bytes)
      (hb : buf.length = c.ssc * 512) :
      Step c s (.fetched id ok buf)
        (if ok then { upload c s id buf with got := upd s.got id (some buf) } else s.fail)
  /-- the store executes a put -/
  | exec (s : St) (a b : List (Name × Bytes × Bool)) (n : Name) (d : Bytes) (x : Bool) (h : s.puts = a ++ (n, d, x) :: b) :
      Step c s .tau { s with puts := a ++ (n, d, true) :: b, store := upd s.store n (some d) }
  /-- `poll_uploads` for one completion (archiver.rs:237-252) -/
  | putDone (s : St) (hr : s.phase = .running) (a b : List (Name × Bytes × Bool)) (n : Name) (d : Bytes) (x ok : Bool)
      (h : s.puts = a ++ (n, d, x) :: b) (hx : ok = true → x = true) :
      Step c s (.uploaded n ok)
        (if ok && decide (0 < s.inflight) then { s with puts := a ++ b, inflight := s.inflight - 1 } else { s with puts := a ++ b }.fail)
  /-- the loops end (archiver.rs:119-125) -/
  | finish (s : St) (hr : s.phase = .running) (hn : s.next = c.count) (hf : s.fetching = []) (hi : s.inflight = 0) :
      Step c s .tau (finish c s)
  /-- metadata.json stored: `put_object` returned (archive/mod.rs:31-48) -/
  | metaDone (s : St) (hr : s.phase = .metaPut) (a b : List (Name × Bytes × Bool)) (d : Bytes) (x ok : Bool)
      (h : s.puts = a ++ (metadataName, d, x) :: b) (hx : ok = true → x = true) :
      Step c s (.uploaded metadataName ok) (if ok then publish c { s with puts := a ++ b } else { s with puts := a ++ b }.fail)
  /-- stripe-mapping stored -/
  | mapDone (s : St) (hr : s.phase = .mapPut) (a b : List (Name × Bytes × Bool)) (d : Bytes) (x ok : Bool)
      (h : s.puts = a ++ (mappingName, d, x) :: b) (hx : ok = true → x = true) :
      Step c s (.uploaded mappingName ok)
        (if ok then { s with puts := a ++ b, phase := .done } else { s with puts := a ++ b }.fail)
  /-- a synchronous put times out (archive/mod.rs:46-48); it may still take effect -/
  | timeout (s : St) (hr : s.phase = .metaPut ∨ s.phase = .mapPut) : Step c s .tau s.fail

/-- Runs of the archiver: sequences of steps (the loops at archiver.rs:104-122). -/
inductive Run (c : Cfg) : St → List Lab → St → Prop where
  | nil (s : St) : Run c s [] s
  | snoc {s s' s'' : St} {ls : List Lab} {l : Lab} : Run c s ls s' → Step c s' l s'' → Run c s (ls ++ [l]) s''

/-! ## Reading an archive -/

/-- `ArchiveStripeSource` after `new` (stripe_source/archive.rs:25-34). -/
structure Src where
  keys : Option Keys
  table : List (Nat × Spec)
  ssc : Nat
  comp : Comp

/-- `decrypt_hmac_key` (stripe_source/archive.rs:97-105). -/
def unwrapHmacKey (P : Prims) (kek : Kek) (m : AMeta) : Except Err Bytes :=
  match liftCrypt (kek.decryptData P.aead m.hmacKey) with
  | .error e => .error e
  | .ok k => if k.length = 32 then .ok k else .error .metadata

/-- The disk key of the archive (stripe_source/archive.rs:42-45). -/
def openKeys (P : Prims) (kek : Kek) (m : AMeta) : Except Err (Option Keys) :=
  match m.encKey with
  | none => .ok none
  | some k => match liftCrypt (Keys.unwrap P.aead kek k) with | .ok k => .ok (some k) | .error e => .error e

/-- `ArchiveStripeSource::new` with `fetch_metadata` and `fetch_stripe_hashes` (stripe_source/archive.rs:38-95). -/
def openArchive (P : Prims) (kek : Kek) (store : Name → Option Bytes) : Except Err Src :=
  match store metadataName with
  | none => .error .io
  | some mb => match P.decMeta mb with
    | none => .error .metadata
    | some m =>
      if m.version ≠ 1 then .error .metadata
      else match unwrapHmacKey P kek m with
        | .error e => .error e
        | .ok hkey => match verifyMeta P hkey m with
          | .error e => .error e
          | .ok () =>
            match openKeys P kek m with
            | .error e => .error e
            | .ok keys => match store mappingName with
              | none => .error .io
              | some b => match deserializeMapping P b hkey keys with
                | .error e => .error e
                | .ok table => .ok { keys := keys, table := table, ssc := m.ssc, comp := m.comp }

/-- `maybe_decrypt` (stripe_source/archive.rs:144-161). -/
def maybeDecrypt (P : Prims) (s : Src) (id : Nat) (d : Bytes) : Except Err Bytes :=
  match s.keys with
  | none => .ok d
  | some k =>
    if d.length % 512 ≠ 0 then .error .archive
    else liftCrypt (decrypt P.xts k d (id * s.ssc) (d.length / 512))

/-- `finish_stripe_fetch` and `verify_stripe_data` (stripe_source/archive.rs:163-206): the new contents of the caller's
buffer of `len` bytes. -/
def finishFetch (P : Prims) (s : Src) (id len : Nat) (data expected : Bytes) : Except Err Bytes :=
  if P.sha data ≠ expected then .error .archive
  else match maybeDecrypt P s id data with
    | .error e => .error e
    | .ok d => match decompress P s.comp d with
      | .error e => .error e
      | .ok r => if r.length > len then .error .archive else .ok (r ++ zeros (len - r.length))

/-- The contents of a buffer of `len` bytes after requesting stripe `id` and waiting for its object
(stripe_source/archive.rs:214-231 and 233-256 for one request). -/
def readStripe (P : Prims) (s : Src) (store : Name → Option Bytes) (id len : Nat) : Except Err Bytes :=
  match tableOf s.table id with
  | none => .ok (zeros len)
  | some .zero => .ok (zeros len)
  | some (.obj h) => match store (objectKey h) with
    | none => .error .io
    | some d => finishFetch P s id len d h

end Verif.Archive
