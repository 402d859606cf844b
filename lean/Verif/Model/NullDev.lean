import Verif.Model.Metadata

/-! # The device that stands for a source that is not needed (`/repo/src/block_device/bdev_null.rs`), and a device as a stripe
source (`/repo/src/stripe_source/bdev.rs`)

When every stripe has been fetched, or when no image is configured, `StripeSourceBuilder::build` makes a stripe source over an
empty `NullBlockDevice` (stripe_source/builder.rs:42-52, 88-92). -/

namespace Verif.NullDev
open Verif

/-- A call of `NullIoChannel` (bdev_null.rs:30-62); `read` has the sector count and the buffer. The sector offset, and the count and
buffer of a write, are not looked at by the code. -/
inductive Call where
  | read (id cnt : Nat) (buf : Bytes)
  | write (id : Nat)
  | flush (id : Nat)
  | submit
  | poll

/-- `saturating_mul` of `usize` on a 64-bit machine (bdev_null.rs:33). -/
def satMul (a b : Nat) : Nat := min (a * b) (2 ^ 64 - 1)

/-- The buffer after `add_read` (bdev_null.rs:31-38). -/
def filled (cnt : Nat) (buf : Bytes) : Bytes :=
  let fill := min buf.length (satMul cnt 512)
  List.replicate fill 0 ++ buf.drop fill

/-- One call on the list of finished requests (bdev_null.rs:30-62): the new list and what `poll` returns. -/
def step (fin : List (Nat × Bool)) : Call → List (Nat × Bool) × List (Nat × Bool)
  | .read id _ _ | .write id | .flush id => (fin ++ [(id, true)], [])
  | .submit => (fin, [])
  | .poll => ([], fin)

/-- Consecutive calls (no counterpart in the code): what is left and everything `poll` returned. -/
def run : List (Nat × Bool) → List Call → List (Nat × Bool) × List (Nat × Bool)
  | fin, [] => (fin, [])
  | fin, c :: cs => let r := run (step fin c).1 cs; (r.1, (step fin c).2 ++ r.2)

/-- `busy` (bdev_null.rs:60-62). -/
def busy (fin : List (Nat × Bool)) : Bool := !fin.isEmpty

/-- `BlockDeviceStripeSource` (stripe_source/bdev.rs:6-20) without its channel: `stripe_sector_count` and `source_sector_count`. -/
structure Source where
  ssc : Nat
  sectors : Nat

/-- The offset of a stripe: a product of `u64`, wrapping in a release build (stripe_source/bdev.rs:24, 58). -/
def Source.offset (s : Source) (k : Nat) : Nat := k * s.ssc % 2 ^ 64

/-- `request` (stripe_source/bdev.rs:23-45): refused, or the offset and count of the read of the device. The count is cast to
`u32`. -/
def Source.request (s : Source) (k : Nat) : Option (Nat × Nat) :=
  if s.offset k ≥ s.sectors then none
  else some (s.offset k, min s.ssc (s.sectors - s.offset k) % 2 ^ 32)

/-- `has_stripe` (stripe_source/bdev.rs:57-60). -/
def Source.hasStripe (s : Source) (k : Nat) : Bool := decide (s.offset k < s.sectors)

/-- The device sources of `StripeSourceBuilder::build` (stripe_source/builder.rs:42-52, 88-95), after the archive and remote cases:
`image` is the size of the raw image in sectors if one is configured (`build_raw_image_device`). -/
def deviceSource (allFetched : Bool) (ssc : Nat) (image : Option Nat) : Source :=
  if allFetched then ⟨ssc, 0⟩ else ⟨ssc, image.getD 0⟩

end Verif.NullDev
