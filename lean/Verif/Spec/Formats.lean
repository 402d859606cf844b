import Verif.Spec.Base64
import Verif.Model.Archive

/-! # What an archive's description and index look like

Specification vocabulary for C99: CBOR (RFC 8949, the preferred serialization of section 4.1) and JSON (RFC 8259) without white space, as
relations between values and bytes, and the values that stand for an archive's description and index. -/

namespace Verif.Formats
open Verif Verif.Archive

/-! ## CBOR -/

/-- Values of CBOR, as far as needed. -/
inductive Item where
  | uint (n : Nat)
  | bytes (b : Bytes)
  | text (b : Bytes)
  | array (l : List Item)
  | map (l : List (Item × Item))

/-- The number that bytes denote, highest first. -/
def bigEndian (b : Bytes) : Nat := b.foldl (fun n x => n * 256 + x.toNat) 0

/-- The beginning of an item of major type `major` with argument `n`: three bits of type, and the argument in five bits or in the fewest of one, two, four or
eight bytes. -/
def Head (major n : Nat) (b : Bytes) : Prop :=
  ∃ (x : UInt8) (arg : Bytes), b = x :: arg ∧ x.toNat / 32 = major ∧
    (n < 24 ∧ x.toNat % 32 = n ∧ arg = [] ∨
     bigEndian arg = n ∧
      (24 ≤ n ∧ n < 2 ^ 8 ∧ x.toNat % 32 = 24 ∧ arg.length = 1 ∨
       2 ^ 8 ≤ n ∧ n < 2 ^ 16 ∧ x.toNat % 32 = 25 ∧ arg.length = 2 ∨
       2 ^ 16 ≤ n ∧ n < 2 ^ 32 ∧ x.toNat % 32 = 26 ∧ arg.length = 4 ∨
       2 ^ 32 ≤ n ∧ n < 2 ^ 64 ∧ x.toNat % 32 = 27 ∧ arg.length = 8))

mutual
/-- The bytes of a value. -/
inductive Cbor : Item → Bytes → Prop where
  | uint {n : Nat} {h : Bytes} : Head 0 n h → Cbor (.uint n) h
  | bytes {b h : Bytes} : Head 2 b.length h → Cbor (.bytes b) (h ++ b)
  | text {b h : Bytes} : Head 3 b.length h → Cbor (.text b) (h ++ b)
  | array {l : List Item} {h b : Bytes} : Head 4 l.length h → Items l b → Cbor (.array l) (h ++ b)
  | map {l : List (Item × Item)} {h b : Bytes} : Head 5 l.length h → Pairs l b → Cbor (.map l) (h ++ b)
/-- The bytes of values in a row. -/
inductive Items : List Item → Bytes → Prop where
  | nil : Items [] []
  | cons {i : Item} {l : List Item} {a b : Bytes} : Cbor i a → Items l b → Items (i :: l) (a ++ b)
/-- The bytes of keys and values in a row. -/
inductive Pairs : List (Item × Item) → Bytes → Prop where
  | nil : Pairs [] []
  | cons {k v : Item} {l : List (Item × Item)} {a b c : Bytes} : Cbor k a → Cbor v b → Pairs l c → Pairs ((k, v) :: l) (a ++ (b ++ c))
end

/-- The bytes of an ASCII text. -/
def ascii8 (s : String) : Bytes := s.toList.map fun c => UInt8.ofNat c.toNat

/-- What stands for the contents of a stripe: `"Zero"`, or a map from `"Some"` to the hash. -/
def Item.ofSpec : Spec → Item
  | .zero => .text (ascii8 "Zero")
  | .obj h => .map [(.text (ascii8 "Some"), .bytes h)]

/-- The index: a map from the stripes' numbers. -/
def Item.ofMap (m : List (Nat × Spec)) : Item := .map (m.map fun kv => (.uint kv.1, Item.ofSpec kv.2))

/-- Bytes as a list of numbers. -/
def Item.ofByteList (b : Bytes) : Item := .array (b.map fun x => .uint x.toNat)

/-- The file of the index: its fields by name. -/
def Item.ofFile (f : MapFile) : Item := .map [(.text (ascii8 "domain"), Item.ofByteList f.domain), (.text (ascii8 "version"), .uint f.version),
  (.text (ascii8 "ciphertext"), Item.ofByteList f.ciphertext), (.text (ascii8 "plaintext_len"), .uint f.plaintextLen),
  (.text (ascii8 "hmac_tag"), .bytes f.tag)]

/-! ## JSON -/

/-- Values of JSON, as far as needed. -/
inductive Json where
  | null
  | num (n : Int)
  | str (b : Bytes)
  | obj (l : List (Bytes × Json))

/-- The decimal digits of a number. -/
def Decimal (n : Nat) (b : Bytes) : Prop :=
  b ≠ [] ∧ (∀ x ∈ b, 48 ≤ x.toNat ∧ x.toNat ≤ 57) ∧ b.foldl (fun n x => n * 10 + (x.toNat - 48)) 0 = n ∧ (b.head? = some 48 → b = [48])

/-- A character that stands for itself in a string. -/
def plain (x : UInt8) : Prop := 32 ≤ x.toNat ∧ x.toNat < 127 ∧ x ≠ 34 ∧ x ≠ 92

mutual
/-- The text of a value. -/
inductive JsonText : Json → Bytes → Prop where
  | null : JsonText .null (ascii8 "null")
  | nat {n : Nat} {b : Bytes} : Decimal n b → JsonText (.num n) b
  | neg {n : Nat} {b : Bytes} : 0 < n → Decimal n b → JsonText (.num (-n)) (45 :: b)
  | str {b : Bytes} : (∀ x ∈ b, plain x) → JsonText (.str b) ([34] ++ b ++ [34])
  | obj {l : List (Bytes × Json)} {b : Bytes} : Fields l b → JsonText (.obj l) ([123] ++ b ++ [125])
/-- The text of fields separated by commas. -/
inductive Fields : List (Bytes × Json) → Bytes → Prop where
  | nil : Fields [] []
  | one {k : Bytes} {v : Json} {b : Bytes} : (∀ x ∈ k, plain x) → JsonText v b → Fields [(k, v)] ([34] ++ k ++ [34, 58] ++ b)
  | cons {k : Bytes} {v : Json} {l : List (Bytes × Json)} {b c : Bytes} : (∀ x ∈ k, plain x) → JsonText v b → l ≠ [] → Fields l c →
      Fields ((k, v) :: l) ([34] ++ k ++ [34, 58] ++ b ++ [44] ++ c)
end

/-- The signed number with this two's complement in 32 bits. -/
def signed32 (l : Nat) : Int := if l < 2 ^ 31 then l else (l : Int) - 2 ^ 32

/-- The compression: `"none"`, or `{"zstd":{"level":…}}`. -/
def Json.ofComp : Comp → Json
  | .none => .str (ascii8 "none")
  | .zstd l => .obj [(ascii8 "zstd", .obj [(ascii8 "level", .num (signed32 l))])]

/-- `j` is the description `m`: its fields by name, keys and the tag in base64. -/
def IsMeta (m : AMeta) (j : Json) : Prop :=
  ∃ key hkey hmac, (match m.encKey with | none => key = .null | some k => ∃ t, Base64.Denotes t k ∧ key = .str t) ∧
    Base64.Denotes hkey m.hmacKey ∧ Base64.Denotes hmac m.hmac ∧
    j = .obj [(ascii8 "format_version", .num m.version), (ascii8 "stripe_sector_count", .num m.ssc), (ascii8 "encryption_key", key),
      (ascii8 "compression", Json.ofComp m.comp), (ascii8 "hmac_key", .str hkey), (ascii8 "metadata_hmac", .str hmac)]

/-! ## What is still assumed of the libraries -/

/-- Encryption is undone by decryption, hashes and tags have 32 bytes, decompression undoes compression. Nothing about formats. -/
structure Core (p : Prims) : Prop where
  xts : p.xts.Lawful
  aead : p.aead.Lawful
  sha_len : ∀ b, (p.sha b).length = 32
  mac_len : ∀ k b, (p.mac k b).length = 32
  zdec_zenc : ∀ l b c, p.zenc l b = some c → p.zdec c = some b

end Verif.Formats
