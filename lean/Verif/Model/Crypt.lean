import Verif.Util.Bytes
import Verif.Spec.Disk

/-! # Model of disk encryption and key wrapping

/repo/src/crypt/block.rs (sector cipher), /repo/src/block_device/bdev_crypt.rs (encrypting channel) and
/repo/src/crypt/key.rs (key-encryption key). The primitives AES-256-XTS (isa-l_crypto) and AES-256-GCM (aes-gcm
crate) are parameters with their functional laws as hypotheses; their secrecy is not modelled. -/

namespace Verif.Crypt
open Verif Verif.Disk

/-- Errors: a panic, `InvalidParameter` (`param_err`, key.rs:216-222), a failure of AES-GCM (key.rs:150-205). -/
inductive Err where
  | panic | param | aead
deriving DecidableEq, Repr

/-! ## Sector cipher -/

/-- `XTS_AES_256_enc` / `XTS_AES_256_dec` (block.rs:125-161): arguments key2, key1, tweak, data. -/
structure Xts where
  enc : Bytes → Bytes → Bytes → Bytes → Bytes
  dec : Bytes → Bytes → Bytes → Bytes → Bytes

/-- What is assumed of them on 512-byte sectors: they are inverse permutations for fixed keys and tweak. The library
is outside the repository (linked at block.rs:115-125). -/
structure Xts.Lawful (p : Xts) : Prop where
  enc_len : ∀ k2 k1 t s, s.length = 512 → (p.enc k2 k1 t s).length = 512
  dec_len : ∀ k2 k1 t s, s.length = 512 → (p.dec k2 k1 t s).length = 512
  dec_enc : ∀ k2 k1 t s, s.length = 512 → p.dec k2 k1 t (p.enc k2 k1 t s) = s
  enc_dec : ∀ k2 k1 t s, s.length = 512 → p.enc k2 k1 t (p.dec k2 k1 t s) = s

/-- `XtsBlockCipher` (block.rs:7-11). -/
structure Keys where
  key1 : Bytes
  key2 : Bytes
deriving DecidableEq

/-- `ensure_32_bytes` (block.rs:164-170, key.rs:207-213). -/
def ensure32 (b : Bytes) : Except Err Bytes := if b.length = 32 then .ok b else .error .param

/-- `XtsBlockCipher::new` (block.rs:23-31). -/
def Keys.new (key1 key2 : Bytes) : Except Err Keys := do
  let k1 ← ensure32 key1
  let k2 ← ensure32 key2
  return { key1 := k1, key2 := k2 }

/-- `get_initial_tweak` (block.rs:102-113). -/
def tweak (sector : Nat) : Bytes := zeros 8 ++ le 8 sector

/-- The loop of `encrypt` / `decrypt` (block.rs:125-161) with the per-sector transformation `f`; slicing past the end
of the buffer panics. Sector numbers are below 2^64 (no wrap-around of `sector_start + i`). -/
def cryptLoop (f : Nat → Bytes → Bytes) (start : Nat) : Nat → Nat → Bytes → Except Err Bytes
  | _, 0, buf => .ok buf
  | i, n + 1, buf =>
    if (i + 1) * 512 ≤ buf.length then
      cryptLoop f start (i + 1) n (splice buf (i * 512) (f (start + i) (slice buf (i * 512) 512)))
    else .error .panic

/-- One sector (block.rs:149-160). -/
def encSector (p : Xts) (k : Keys) (sector : Nat) (s : Bytes) : Bytes := p.enc k.key2 k.key1 (tweak sector) s
/-- One sector (block.rs:130-141). -/
def decSector (p : Xts) (k : Keys) (sector : Nat) (s : Bytes) : Bytes := p.dec k.key2 k.key1 (tweak sector) s

/-- `XtsBlockCipher::encrypt` (block.rs:145-161). -/
def encrypt (p : Xts) (k : Keys) (buf : Bytes) (start count : Nat) : Except Err Bytes :=
  cryptLoop (encSector p k) start 0 count buf

/-- `XtsBlockCipher::decrypt` (block.rs:127-143). -/
def decrypt (p : Xts) (k : Keys) (buf : Bytes) (start count : Nat) : Except Err Bytes :=
  cryptLoop (decSector p k) start 0 count buf

/-- A 512-byte sector (`SECTOR_SIZE`, backends/common/mod.rs:28). -/
abbrev Sector := { b : Bytes // b.length = 512 }

/-- The sector of a buffer at position `i`, zeros past its end; the slice taken at block.rs:130-132 and 148-150. -/
def sectorAt (buf : Bytes) (i : Nat) : Sector :=
  if h : (i + 1) * 512 ≤ buf.length then ⟨slice buf (i * 512) 512, slice_length _ _ _ (by omega)⟩ else ⟨zeros 512, zeros_length 512⟩

/-- A buffer as the data of a request for `cnt` sectors at `off` (`add_write`, block_device/mod.rs and
bdev_crypt.rs:43-51); sectors outside the request are immaterial. -/
def bufData (buf : Bytes) (off cnt : Nat) : Nat → Sector :=
  fun x => if covers off cnt x then sectorAt buf (x - off) else ⟨zeros 512, zeros_length 512⟩

/-! ## Encrypting channel -/

variable {O : Type} [DecidableEq O]

/-- The encrypting device over a base device, with the read requests its channels have recorded
(`CryptIoChannel`, bdev_crypt.rs:13-17; one entry per channel and id). -/
structure CDev (O : Type) where
  base : Dev O Sector
  reads : O → Option (Nat × Nat)

/-- New channels (`CryptIoChannel::new`, bdev_crypt.rs:20-26) over a device with contents `v`. -/
def CDev.fresh (v : Nat → Sector) : CDev O := { base := Dev.fresh v, reads := fun _ => none }

/-- `add_read` (bdev_crypt.rs:30-42). -/
def CDev.addRead (d : CDev O) (o : O) (off cnt : Nat) : CDev O :=
  { base := d.base.issueRead o off cnt, reads := upd d.reads o (some (off, cnt)) }

/-- `add_write` (bdev_crypt.rs:43-51): the buffer is encrypted in place and handed to the base channel. A buffer
shorter than the request panics. -/
def CDev.addWrite (p : Xts) (k : Keys) (d : CDev O) (o : O) (off cnt : Nat) (buf : Bytes) : Except Err (CDev O) :=
  match encrypt p k buf off cnt with
  | .ok buf' => .ok { d with base := d.base.issueWrite o off cnt (bufData buf' off cnt) }
  | .error e => .error e

/-- `add_flush` (bdev_crypt.rs:53-55). -/
def CDev.addFlush (d : CDev O) (o : O) : CDev O := { d with base := d.base.issueFlush o }

/-- One sector of the buffer of `add_read` (bdev_crypt.rs:30-41). -/
def secBytes : Option Sector → Bytes
  | some s => s.1
  | none => zeros 512

/-- The buffer of a completed read as bytes (sectors the base did not deliver are left out of the model: a completed
successful read has delivered all of them). (The buffer decrypted at bdev_crypt.rs:67-71.) -/
def readBuf (r : List (Option Sector)) : Bytes := r.flatMap secBytes

/-- `poll` for one completion of the base channel (bdev_crypt.rs:61-80): the buffer the caller of `add_read` sees. -/
def CDev.complete (p : Xts) (k : Keys) (d : CDev O) (o : O) (ok : Bool) : Except Err (CDev O × Bytes) :=
  let buf := readBuf (d.base.result o ok)
  let d' : CDev O := { base := d.base.complete o ok, reads := upd d.reads o none }
  match d.reads o with
  | some (off, cnt) => if ok then (decrypt p k buf off cnt).map fun b => (d', b) else .ok (d', buf)
  | none => .ok (d', buf)

/-! ## Key-encryption key -/

/-- AES-256-GCM (library aes-gcm, called at key.rs:150-205): `sealAt key nonce aad plaintext` and `openAt`, for
32-byte keys and 12-byte nonces. -/
structure Aead where
  sealAt : Bytes → Bytes → Bytes → Bytes → Option Bytes
  openAt : Bytes → Bytes → Bytes → Bytes → Option Bytes

/-- What is assumed of the AEAD: opening what was sealed under the same key, nonce and associated data gives the
plaintext back, and the tag adds 16 bytes. (`GCM_TAG_SIZE`, key.rs:43.) -/
structure Aead.Lawful (g : Aead) : Prop where
  openAt_sealAt : ∀ key nonce aad pt ct, g.sealAt key nonce aad pt = some ct → g.openAt key nonce aad ct = some pt
  sealAt_len : ∀ key nonce aad pt ct, g.sealAt key nonce aad pt = some ct → ct.length = pt.length + 16

/-- `CipherMethod` (key.rs:10-17). -/
inductive Method where
  | none | aes256Gcm
deriving DecidableEq

/-- `KeyEncryptionCipher` (key.rs:19-28). -/
structure Kek where
  method : Method
  key : Option Bytes
  auth : Option Bytes

/-- `new_cipher` (key.rs:141-147): any length but 32 is refused. -/
def newCipher (key : Bytes) : Except Err Unit := if key.length = 32 then .ok () else .error .param

/-- `init_context` (key.rs:49-61). -/
def Kek.context (k : Kek) : Except Err (Bytes × Bytes) :=
  match k.key, k.auth with
  | .some key, .some auth => .ok (key, auth)
  | _, _ => .error .param

/-- `aes256gcm_encrypt` (key.rs:182-205); the random nonce is an argument. -/
def gcmEncrypt (g : Aead) (nonce key aad pt : Bytes) : Except Err Bytes := do
  newCipher key
  match g.sealAt key nonce aad pt with
  | .some ct => return nonce ++ ct
  | .none => throw .aead

/-- `aes256gcm_decrypt` (key.rs:150-178). -/
def gcmDecrypt (g : Aead) (key aad ct : Bytes) : Except Err Bytes := do
  newCipher key
  if ct.length < 12 + 16 then throw .param
  match g.openAt key (ct.take 12) aad (ct.drop 12) with
  | .some pt => return pt
  | .none => throw .aead

/-- `encrypt_key_data` (key.rs:120-128). -/
def Kek.encryptData (g : Aead) (k : Kek) (nonce pt : Bytes) : Except Err Bytes :=
  match k.method with
  | .none => .ok pt
  | .aes256Gcm => do
    let (key, auth) ← k.context
    gcmEncrypt g nonce key auth pt

/-- `decrypt_key_data` (key.rs:130-138); `decrypt_psk_secret` (key.rs:94-102) and `decrypt_aws_credential` before its
UTF-8 check (key.rs:104-118) are the same function. -/
def Kek.decryptData (g : Aead) (k : Kek) (ct : Bytes) : Except Err Bytes :=
  match k.method with
  | .none => .ok ct
  | .aes256Gcm => do
    let (key, auth) ← k.context
    gcmDecrypt g key auth ct

/-- `encrypt_xts_keys` (key.rs:63-75). -/
def Kek.encryptXts (g : Aead) (k : Kek) (n1 n2 : Bytes) (keys : Keys) : Except Err (Bytes × Bytes) :=
  match k.method with
  | .none => .ok (keys.key1, keys.key2)
  | .aes256Gcm => do
    let (key, auth) ← k.context
    let k1 ← gcmEncrypt g n1 key auth keys.key1
    let k2 ← gcmEncrypt g n2 key auth keys.key2
    return (k1, k2)

/-- `decrypt_xts_keys` (key.rs:77-92), the keys of `XtsBlockCipher::from_encrypted` (block.rs:33-44). -/
def Kek.decryptXts (g : Aead) (k : Kek) (c1 c2 : Bytes) : Except Err Keys :=
  match k.method with
  | .none => do
    let k1 ← ensure32 c1
    let k2 ← ensure32 c2
    return { key1 := k1, key2 := k2 }
  | .aes256Gcm => do
    let (key, auth) ← k.context
    let p1 ← gcmDecrypt g key auth c1
    let p2 ← gcmDecrypt g key auth c2
    let k1 ← ensure32 p1
    let k2 ← ensure32 p2
    return { key1 := k1, key2 := k2 }

/-- `XtsBlockCipher::encrypted_key` (block.rs:71-76). -/
def Keys.wrap (g : Aead) (kek : Kek) (nonce : Bytes) (k : Keys) : Except Err Bytes :=
  kek.encryptData g nonce (k.key1 ++ k.key2)

/-- `XtsBlockCipher::from_encrypted_key` and `from_combined_key` (block.rs:46-49, 78-98). -/
def Keys.unwrap (g : Aead) (kek : Kek) (ct : Bytes) : Except Err Keys := do
  let b ← kek.decryptData g ct
  if b.length ≠ 64 then throw .param
  return { key1 := b.take 32, key2 := b.drop 32 }

end Verif.Crypt
