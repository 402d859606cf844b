import Verif.Model.Archive
import Verif.Model.Base64

/-! # The bytes of an archive's description and index

What `serde_json` writes for `ArchiveMetadata` (`/repo/src/archive/mod.rs:72-111`) and `ciborium` for the stripe mapping
(`/repo/src/archive/stripe_hashes.rs:23-41, 144-160`, `/repo/src/archive/bytes32.rs`), and reading it back. `Model/Archive` has
these as parameters; here they are functions. Simplified: the readers accept documents in the form in which they are written (fields in
order, no white space, no escapes in strings, definite lengths, no tags; CBOR numbers in any of their forms). The libraries accept other
forms of the same documents, which no ubiblk program writes; on a written document, cut anywhere or followed by anything, reader and library agree.
-/

namespace Verif.Formats
open Verif Verif.Archive

/-- A reader: a value and the bytes behind it (library; stripe_hashes.rs:154-160). -/
abbrev P (α : Type) := Bytes → Option (α × Bytes)

/-- One reader after another (library; stripe_hashes.rs:154-160). -/
def P.then {α β : Type} (p : P α) (f : α → P β) : P β := fun b =>
  match p b with
  | some (a, r) => f a r
  | none => none

/-- Reading nothing (library; stripe_hashes.rs:154-160). -/
def P.ret {α : Type} (a : α) : P α := fun b => some (a, b)

/-- No value of the type (library; stripe_hashes.rs:154-160). -/
def P.fail {α : Type} : P α := fun _ => none

/-- The next `n` bytes (library; stripe_hashes.rs:154-160). -/
def takeN (n : Nat) : P Bytes := fun b => if n ≤ b.length then some (b.take n, b.drop n) else none

/-- Exactly these bytes (library; stripe_hashes.rs:154-160, stripe_source/archive.rs:71). -/
def lit (t : Bytes) : P Unit := (takeN t.length).then fun x => if x = t then P.ret () else P.fail

/-! ## CBOR -/

/-- An integer of `n` bytes, the highest first (library `ciborium-ll`; stripe_hashes.rs:144-152). -/
def be (n x : Nat) : Bytes := (le n x).reverse

/-- The first bytes of an item: its kind and a number in the shortest form (library `ciborium-ll`; stripe_hashes.rs:144-152). Numbers from
2^64, which do not occur, are written in a form of their own so that no bound has to be carried along. -/
def head (kind n : Nat) : Bytes :=
  if n < 24 then [UInt8.ofNat (kind * 32 + n)]
  else if n < 2 ^ 8 then UInt8.ofNat (kind * 32 + 24) :: be 1 n
  else if n < 2 ^ 16 then UInt8.ofNat (kind * 32 + 25) :: be 2 n
  else if n < 2 ^ 32 then UInt8.ofNat (kind * 32 + 26) :: be 4 n
  else if n < 2 ^ 64 then UInt8.ofNat (kind * 32 + 27) :: be 8 n
  else UInt8.ofNat (kind * 32 + 28) :: (List.replicate n 1 ++ [0])

/-- Reading the form of its own of `head` (no code; see there, stripe_hashes.rs:154-160). -/
def unary : Nat → P Nat
  | _, [] => none
  | n, x :: r => if x = 0 then (if 2 ^ 64 ≤ n then some (n, r) else none) else if x = 1 then unary (n + 1) r else none

/-- Reading a number of `n` bytes (library `ciborium-ll`; stripe_hashes.rs:154-160). -/
def readBe (n : Nat) : P Nat := (takeN n).then fun x => P.ret (fromLe x.reverse)

/-- Reading the first bytes of an item of this kind (library `ciborium-ll`; stripe_hashes.rs:154-160); every form of a number is accepted. -/
def readHead (kind : Nat) : P Nat := (takeN 1).then fun x =>
  let b := (x.headD 0).toNat
  if b / 32 ≠ kind then P.fail
  else
    let i := b % 32
    if i < 24 then P.ret i
    else if i = 24 then readBe 1
    else if i = 25 then readBe 2
    else if i = 26 then readBe 4
    else if i = 27 then readBe 8
    else if i = 28 then unary 0
    else P.fail

/-- `n` values in a row (library; stripe_hashes.rs:154-160). -/
def times {α : Type} (p : P α) : Nat → P (List α)
  | 0 => P.ret []
  | n + 1 => p.then fun a => (times p n).then fun l => P.ret (a :: l)

/-- A string, as `serialize_str` writes it (library; names of fields and variants at stripe_hashes.rs:23-41). -/
def text (t : Bytes) : Bytes := head 3 t.length ++ t

/-- Reading exactly this string (library; stripe_hashes.rs:23-41). -/
def readText (t : Bytes) : P Unit := (readHead 3).then fun n => if n = t.length then lit t else P.fail

/-- A byte string (bytes32.rs:4-9). -/
def bytes (b : Bytes) : Bytes := head 2 b.length ++ b

/-- Reading a byte string (bytes32.rs:11-38); its length is checked at the end (`MapFile.InRange`, `MapInRange`). -/
def readBytes : P Bytes := (readHead 2).then fun n => takeN n

/-- A `Vec<u8>` without `serde_bytes`: a list of numbers (stripe_hashes.rs:25, 28). -/
def byteList (b : Bytes) : Bytes := head 4 b.length ++ b.flatMap fun x => head 0 x.toNat

/-- Reading one `u8` (library; stripe_hashes.rs:25, 28). -/
def readU8 : P UInt8 := (readHead 0).then fun n => if n < 256 then P.ret (UInt8.ofNat n) else P.fail

/-- Reading a `Vec<u8>` (stripe_hashes.rs:25, 28). -/
def readByteList : P Bytes := (readHead 4).then fun n => times readU8 n

/-- The bytes of "Zero" (stripe_hashes.rs:38). -/
def tZero : Bytes := [90, 101, 114, 111]
/-- The bytes of "Some" (stripe_hashes.rs:40). -/
def tSome : Bytes := [83, 111, 109, 101]

/-- `StripeContentSpecifier` (stripe_hashes.rs:36-41): a variant without contents is its name, one with contents a map of one entry. -/
def encSpec : Spec → Bytes
  | .zero => text tZero
  | .obj h => head 5 1 ++ text tSome ++ bytes h

/-- Reading a `StripeContentSpecifier` (stripe_hashes.rs:36-41). -/
def readSpec : P Spec := fun b =>
  match readHead 5 b with
  | some (n, r) => (if n = 1 then (readText tSome).then fun _ => readBytes.then fun h => P.ret (.obj h) else P.fail) r
  | none => ((readText tZero).then fun _ => P.ret .zero) b

/-- `cbor_to_vec` of the mapping (stripe_hashes.rs:53-56, 144-152). -/
def encMap (m : List (Nat × Spec)) : Bytes := head 5 m.length ++ m.flatMap fun kv => head 0 kv.1 ++ encSpec kv.2

/-- One entry of the mapping (stripe_hashes.rs:134-135). -/
def readEntry : P (Nat × Spec) := (readHead 0).then fun k => readSpec.then fun v => P.ret (k, v)

/-- The entries of the mapping (stripe_hashes.rs:134-135). -/
def readMap : P (List (Nat × Spec)) := (readHead 5).then fun n => times readEntry n

/-- Keys are `u64`, hashes 32 bytes (stripe_hashes.rs:36-41, 134, bytes32.rs:27-33). -/
def mapFits (m : List (Nat × Spec)) : Bool :=
  m.all fun kv => decide (kv.1 < 2 ^ 64) && (match kv.2 with | .obj h => h.length == 32 | .zero => true)

/-- `cbor_from_slice` of the mapping (stripe_hashes.rs:134-135, 154-160); what follows the document is not looked at. -/
def decMap (b : Bytes) : Option (List (Nat × Spec)) :=
  match readMap b with
  | some (m, _) => if mapFits m then some m else none
  | none => none

/-- The bytes of "domain" (stripe_hashes.rs:25). -/
def tDomain : Bytes := [100, 111, 109, 97, 105, 110]
/-- The bytes of "version" (stripe_hashes.rs:26). -/
def tVersion : Bytes := [118, 101, 114, 115, 105, 111, 110]
/-- The bytes of "ciphertext" (stripe_hashes.rs:28). -/
def tCiphertext : Bytes := [99, 105, 112, 104, 101, 114, 116, 101, 120, 116]
/-- The bytes of "plaintext_len" (stripe_hashes.rs:30). -/
def tPlaintextLen : Bytes := [112, 108, 97, 105, 110, 116, 101, 120, 116, 95, 108, 101, 110]
/-- The bytes of "hmac_tag" (stripe_hashes.rs:33). -/
def tHmacTag : Bytes := [104, 109, 97, 99, 95, 116, 97, 103]

/-- `cbor_to_vec` of `StripeMappingFile` (stripe_hashes.rs:23-34, 74): a map of its fields in the order of the declaration. -/
def encFile (f : MapFile) : Bytes :=
  head 5 5 ++ (text tDomain ++ (byteList f.domain ++ (text tVersion ++ (head 0 f.version ++ (text tCiphertext ++ (byteList f.ciphertext ++
    (text tPlaintextLen ++ (head 0 f.plaintextLen ++ (text tHmacTag ++ bytes f.tag)))))))))

/-- Reading a `StripeMappingFile` (stripe_hashes.rs:23-34, 82-89). -/
def readFile : P MapFile :=
  (readHead 5).then fun n => (if n = 5 then P.ret () else P.fail).then fun _ =>
  (readText tDomain).then fun _ => readByteList.then fun domain =>
  (readText tVersion).then fun _ => (readHead 0).then fun version =>
  (readText tCiphertext).then fun _ => readByteList.then fun ciphertext =>
  (readText tPlaintextLen).then fun _ => (readHead 0).then fun plaintextLen =>
  (readText tHmacTag).then fun _ => readBytes.then fun tag => P.ret ⟨domain, version, ciphertext, plaintextLen, tag⟩

/-- The fields fit their types (stripe_hashes.rs:23-34, bytes32.rs:27-33; a length fits `usize`). -/
def fileFits (f : MapFile) : Bool :=
  decide (f.version < 2 ^ 32) && decide (f.plaintextLen < 2 ^ 64) && decide (f.domain.length < 2 ^ 64) && f.tag.length == 32

/-- `cbor_from_slice` of `StripeMappingFile` (stripe_hashes.rs:82-89, 154-160); what follows the document is not looked at. -/
def decFile (b : Bytes) : Option MapFile :=
  match readFile b with
  | some (f, _) => if fileFits f then some f else none
  | none => none

/-! ## JSON -/

/-- A number in decimal digits (library; archiver.rs:287). -/
def dec (n : Nat) : Bytes := if n < 10 then [UInt8.ofNat (48 + n)] else dec (n / 10) ++ [UInt8.ofNat (48 + n % 10)]

/-- A decimal digit (library; stripe_source/archive.rs:71). -/
def isDigit (x : UInt8) : Bool := 48 ≤ x.toNat && x.toNat ≤ 57

/-- The number of these digits (library; stripe_source/archive.rs:71). -/
def ofDigits (ds : Bytes) : Nat := ds.foldl (fun n x => n * 10 + (x.toNat - 48)) 0

/-- Reading a number in decimal digits, up to something that is not one: at least one digit and no zeros in front (library;
stripe_source/archive.rs:71). -/
def readDec : P Nat := fun b =>
  let ds := b.takeWhile isDigit
  let r := b.dropWhile isDigit
  if r = [] then none else if ds = [] then none else if ds.head? = some 48 ∧ ds.length ≠ 1 then none else some (ofDigits ds, r)

/-- The end of a string (library; stripe_source/archive.rs:71). -/
def quote : UInt8 := 34

/-- Reading a string from behind its first quote to its end (library; stripe_source/archive.rs:71). -/
def readString : P Bytes := fun b =>
  match b.dropWhile (· ≠ quote) with
  | [] => none
  | _ :: r => some (b.takeWhile (· ≠ quote), r)

/-- Reading a string of base64 (key_serialization.rs:28-34). -/
def readKey : P Bytes := readString.then fun t => match Base64.decode t with | some k => P.ret k | none => P.fail

/-- The bytes of an ASCII text (library; archiver.rs:287). -/
def ascii (s : String) : Bytes := s.toList.map fun c => UInt8.ofNat c.toNat

/-- `{"format_version":` (archive/mod.rs:85). -/
def jVersion : Bytes := ascii "{\"format_version\":"
/-- `,"stripe_sector_count":` (archive/mod.rs:87). -/
def jSsc : Bytes := ascii ",\"stripe_sector_count\":"
/-- `,"encryption_key":` (archive/mod.rs:94). -/
def jKey : Bytes := ascii ",\"encryption_key\":"
/-- `,"compression":` (archive/mod.rs:96). -/
def jComp : Bytes := ascii ",\"compression\":"
/-- `,"hmac_key":"` (archive/mod.rs:102). -/
def jHmacKey : Bytes := ascii ",\"hmac_key\":\""
/-- `,"metadata_hmac":"` (archive/mod.rs:108). -/
def jHmac : Bytes := ascii ",\"metadata_hmac\":\""
/-- `null` (key_serialization.rs:20). -/
def jNull : Bytes := ascii "null"
/-- `"none"` (archive/mod.rs:72-76). -/
def jNone : Bytes := ascii "\"none\""
/-- `{"zstd":{"level":` (archive/mod.rs:77-79). -/
def jZstd : Bytes := ascii "{\"zstd\":{\"level\":"

/-- An optional key (key_serialization.rs:15-26). -/
def optKey : Option Bytes → Bytes
  | none => jNull
  | some k => quote :: (Base64.encode k ++ [quote])

/-- Reading an optional key (key_serialization.rs:6-13). -/
def readOptKey : P (Option Bytes) := fun b =>
  match lit [quote] b with
  | some (_, r) => (readKey.then fun k => P.ret (some k)) r
  | none => ((lit jNull).then fun _ => P.ret none) b

/-- An `i32` given in two's complement (archive/mod.rs:78). -/
def level (l : Nat) : Bytes := if 2 ^ 31 ≤ l ∧ l < 2 ^ 32 then 45 :: dec (2 ^ 32 - l) else dec l

/-- Reading an `i32` (archive/mod.rs:78); that it is below 2^32 is checked at the end (`AMeta.InRange`). -/
def readLevel : P Nat := fun b =>
  match lit [45] b with
  | some (_, r) => (readDec.then fun n => if 1 ≤ n ∧ n ≤ 2 ^ 31 then P.ret (2 ^ 32 - n) else P.fail) r
  | none => (readDec.then fun n => if 2 ^ 31 ≤ n ∧ n < 2 ^ 32 then P.fail else P.ret n) b

/-- `ArchiveCompressionAlgorithm` (archive/mod.rs:72-80). -/
def comp : Comp → Bytes
  | .none => jNone
  | .zstd l => jZstd ++ (level l ++ ascii "}}")

/-- Reading an `ArchiveCompressionAlgorithm` (archive/mod.rs:72-80). -/
def readComp : P Comp := fun b =>
  match lit jZstd b with
  | some (_, r) => (readLevel.then fun l => (lit (ascii "}}")).then fun _ => P.ret (.zstd l)) r
  | none => ((lit jNone).then fun _ => P.ret .none) b

/-- `serde_json::to_string` of `ArchiveMetadata` (archiver.rs:287, archive/mod.rs:83-111). -/
def encMeta (m : AMeta) : Bytes :=
  jVersion ++ (dec m.version ++ (jSsc ++ (dec m.ssc ++ (jKey ++ (optKey m.encKey ++ (jComp ++ (comp m.comp ++ (jHmacKey ++
    ((Base64.encode m.hmacKey ++ [quote]) ++ (jHmac ++ ((Base64.encode m.hmac ++ [quote]) ++ ascii "}")))))))))))

/-- Reading an `ArchiveMetadata` (archive/mod.rs:83-111). -/
def readMeta : P AMeta :=
  (lit jVersion).then fun _ => readDec.then fun version => (lit jSsc).then fun _ => readDec.then fun ssc =>
  (lit jKey).then fun _ => readOptKey.then fun key => (lit jComp).then fun _ => readComp.then fun c =>
  (lit jHmacKey).then fun _ => readKey.then fun hkey => (lit jHmac).then fun _ => readKey.then fun hmac =>
  (lit (ascii "}")).then fun _ => P.ret ⟨version, ssc, key, c, hkey, hmac⟩

/-- The fields fit their types (archive/mod.rs:83-111; a length fits `usize`). -/
def metaFits (m : AMeta) : Bool :=
  decide (m.version < 2 ^ 32) && decide (m.ssc < 2 ^ 64) && (match m.encKey with | some k => decide (k.length < 2 ^ 64) | none => true) &&
    (match m.comp with | .zstd l => decide (l < 2 ^ 32) | .none => true) && decide (m.hmacKey.length < 2 ^ 64) && decide (m.hmac.length < 2 ^ 64)

/-- White space of JSON, which may follow a document (library; stripe_source/archive.rs:71). -/
def jsonWs (x : UInt8) : Bool := x = 32 || x = 9 || x = 10 || x = 13

/-- `serde_json::from_slice` of `ArchiveMetadata` (stripe_source/archive.rs:71): nothing but white space may follow. -/
def decMeta (b : Bytes) : Option AMeta :=
  match readMeta b with
  | some (m, r) => if r.all jsonWs && metaFits m then some m else none
  | none => none

/-- The libraries of `Model/Archive` with these formats (stripe_hashes.rs:144-160, archiver.rs:287, stripe_source/archive.rs:71). -/
def withFormats (p : Prims) : Prims :=
  { p with encMap := encMap, decMap := decMap, encFile := encFile, decFile := decFile, encMeta := encMeta, decMeta := decMeta }

end Verif.Formats
