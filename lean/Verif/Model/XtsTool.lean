import Verif.Model.Crypt

/-! # Model of the image encode/decode tool

/repo/src/bin/xts.rs over /repo/src/block_device/bdev_sync.rs and the encrypting channel. Files are byte lists; reads
and writes of the operating system do not fail. Sector numbers times 512 stay below 2^64 (they are bounded by the input
size). -/

namespace Verif.XtsTool
open Verif Verif.Crypt

/-- Errors of `encode` and `decode` (xts.rs:57-216). -/
inductive TErr where
  | notMultiple | startRange | lenRange | shortRead | crypt (e : Err)
deriving DecidableEq, Repr

/-- `read_exact_at` (bdev_sync.rs:44-60): reading past the end of the file fails. -/
def readAt (f : Bytes) (off len : Nat) : Option Bytes := if off + len ≤ f.length then some (slice f off len) else none

/-- `write_all_at` (bdev_sync.rs:62-76): a write past the end extends the file, a gap reads as zeros. -/
def writeAt (f : Bytes) (off : Nat) (d : Bytes) : Bytes :=
  (f ++ zeros (off - f.length)).take off ++ d ++ f.drop (off + d.length)

/-- Start sector and number of sectors to process (xts.rs:64-89, 139-164); `total` is the number of sectors of the
input. -/
def window (total : Nat) (start len : Option Nat) : Except TErr (Nat × Nat) :=
  let s := start.getD 0
  if s ≥ total then .error .startRange
  else
    let avail := total - s
    match len with
    | some l => if l = 0 then .ok (s, 0) else if l > avail then .error .lenRange else .ok (s, l)
    | none => .ok (s, avail)

/-- `MAX_CHUNK_SECTORS` (xts.rs:18). -/
def MAX_CHUNK : Nat := 1024

/-- The loop of `decode` (xts.rs:104-119). -/
def decodeLoop (p : Xts) (k : Keys) (input : Bytes) (cur remaining : Nat) (written : Bytes) : Except TErr Bytes :=
  if h : remaining = 0 then .ok written
  else
    let n := min remaining MAX_CHUNK
    match readAt input (cur * 512) (n * 512) with
    | none => .error .shortRead
    | some buf =>
      match decrypt p k buf cur n with
      | .error e => .error (.crypt e)
      | .ok b => decodeLoop p k input (cur + n) (remaining - n) (written ++ b.take (n * 512))
termination_by remaining
decreasing_by simp only [MAX_CHUNK]; omega

/-- `decode` (xts.rs:57-124): the contents of the output file. `SyncBlockDevice::new` refuses files whose size is not a
multiple of the sector size (bdev_sync.rs:131-139). -/
def decode (p : Xts) (k : Keys) (input : Bytes) (start len : Option Nat) : Except TErr Bytes :=
  if input.length % 512 ≠ 0 then .error .notMultiple
  else
    match window (input.length / 512) start len with
    | .error e => .error e
    | .ok (s, n) => decodeLoop p k input s n []

/-- The loop of `encode` (xts.rs:187-204); `rest` is the input from the file position on. -/
def encodeLoop (p : Xts) (k : Keys) (rest out : Bytes) (cur remaining : Nat) : Except TErr Bytes :=
  if h : remaining = 0 then .ok out
  else
    let n := min remaining MAX_CHUNK
    if rest.length < n * 512 then .error .shortRead
    else
      match encrypt p k (rest.take (n * 512)) cur n with
      | .error e => .error (.crypt e)
      | .ok b => encodeLoop p k (rest.drop (n * 512)) (writeAt out (cur * 512) b) (cur + n) (remaining - n)
termination_by remaining
decreasing_by simp only [MAX_CHUNK]; omega

/-- `encode` (xts.rs:126-207): the contents of the output file. The file is first sized for the window
(xts.rs:166-172), then written at the sectors' own positions. -/
def encode (p : Xts) (k : Keys) (input : Bytes) (start len : Option Nat) : Except TErr Bytes :=
  if input.length % 512 ≠ 0 then .error .notMultiple
  else
    match window (input.length / 512) start len with
    | .error e => .error e
    | .ok (s, n) => encodeLoop p k (input.drop (s * 512)) (zeros (n * 512)) s n

/-- `xts_key[..32]`, `xts_key[32..]` and `XtsBlockCipher::new` (xts.rs:236, bdev_crypt.rs:113-116): slicing a key shorter
than 32 bytes panics. -/
def keysOf (xtsKey : Bytes) : Except Err Keys :=
  if xtsKey.length < 32 then .error .panic else Keys.new (xtsKey.take 32) (xtsKey.drop 32)

end Verif.XtsTool
