import Verif.Model.Archive

/-! # Model of the last stripe of a disk whose size is not a multiple of the stripe size

What each part of the program reads or writes for a stripe that the disk ends inside of, sector by sector, through each of
the two ways of doing I/O. Everything is in sectors, as in the code: devices report and address whole sectors
(bdev_sync.rs, bdev_uring.rs). -/

namespace Verif.Tail

/-- The two ways of doing I/O (`IoEngine`, config/v2/tuning.rs:8-15). -/
inductive Engine where
  | sync
  | uring
deriving DecidableEq, Repr

variable {D : Type}

/-- What the operating system transfers for a read of `cnt` sectors at sector `off`: the sectors there are before the end of
the file or device (library; called at bdev_sync.rs:50-52, submitted at bdev_uring.rs:75-80). Assumption about the operating system: a read is cut short only by the end. -/
def pread (disk : List D) (off cnt : Nat) : List D := (disk.drop off).take cnt

/-- `add_read` and its completion at the file: whether it is reported as done, and the buffer afterwards. `read_exact_at`
fails on a short read (bdev_sync.rs:45-60); a result of io_uring that is not negative counts as done, however short
(bdev_uring.rs:142-149). After a short read the rest of the buffer is as before. -/
def fileRead (e : Engine) (disk : List D) (off cnt : Nat) (buf : List D) : Bool × List D :=
  let got := pread disk off cnt
  (match e with | .sync => decide (got.length = cnt) | .uring => true, got ++ buf.drop got.length)

/-- `poll` of the encryption layer on a completed read: all the sectors asked for are decrypted in place, each with its own
number, if the read is reported as done (bdev_crypt.rs:63-80). Without encryption `dec` is the identity. -/
def read (e : Engine) (dec : Nat → D → D) (disk : List D) (off cnt : Nat) (buf : List D) : Bool × List D :=
  let r := fileRead e disk off cnt buf
  if r.1 then (true, (r.2.take cnt).mapIdx (fun i x => dec (off + i) x) ++ r.2.drop cnt) else r

/-- `stripe_count` of a device (block_device/mod.rs:31-33). -/
def stripeCount (sectors ssc : Nat) : Nat := (sectors + ssc - 1) / ssc

/-- The archiver's read of a stripe from the disk (archiver.rs:146-156): a whole stripe, into a buffer of its pool. -/
def archiveRead (e : Engine) (dec : Nat → D → D) (disk : List D) (ssc k : Nat) (buf : List D) : Bool × List D :=
  read e dec disk (k * ssc) ssc buf

/-- The archiver working with one buffer: the buffer goes back to the pool as it is and is taken for the next stripe
(archiver.rs:130-143, 196-212, utils/aligned_buffer_pool.rs:33-60). The first failed read ends it (archiver.rs:166-175).
The stripes are the ones to be archived, in ascending order (archiver.rs:86-100); what is returned is what is archived. -/
def archiveAll (e : Engine) (dec : Nat → D → D) (disk : List D) (ssc : Nat) : List Nat → List D → Option (List (List D))
  | [], _ => some []
  | k :: ks, buf =>
    match archiveRead e dec disk ssc k buf with
    | (true, b) => (archiveAll e dec disk ssc ks b).map (b :: ·)
    | (false, _) => none

/-- The stripe server's read of a stripe (session.rs:151-169): a whole stripe, into a new buffer of zeros. -/
def serverRead (e : Engine) (dec : Nat → D → D) (zero : D) (disk : List D) (ssc k : Nat) : Bool × List D :=
  read e dec disk (k * ssc) ssc (List.replicate ssc zero)

/-- The offset and number of sectors the fetcher writes for a stripe (bdev_lazy/stripe_fetcher.rs:240-251). The subtraction
panics or wraps below zero; `C80_fetch_inside` shows that it does not get there. -/
def fetchRange (ssc target k : Nat) : Option (Nat × Nat) :=
  if target < k * ssc then none else some (k * ssc, min ssc (target - k * ssc))

/-- The offset and number of sectors read from an image for a stripe, none if it is refused (stripe_source/bdev.rs:23-41). -/
def imageRange (ssc size k : Nat) : Option (Nat × Nat) :=
  if k * ssc ≥ size then none else some (k * ssc, min ssc (size - k * ssc))

/-- One fetched stripe of an image on its way to the disk: read into a buffer of the pool, as it is, then written
(bdev_lazy/stripe_fetcher.rs:172-188, 198-214, 240-251). Only for an unencrypted image and reads that succeed. -/
def fetchStripe (ssc : Nat) (image target : List D) (k : Nat) (buf : List D) : Option (List D) :=
  match imageRange ssc image.length k, fetchRange ssc target.length k with
  | some (o, c), some (o', c') =>
    let b := (fileRead .sync image o c buf).2
    some (target.take o' ++ b.take c' ++ target.drop (o' + c'))
  | _, _ => none

/-- `sector_count` of an archive: up to the end of its last stripe (stripe_source/archive.rs:262-268). -/
def archiveSectors (ssc last : Nat) : Nat := (last + 1) * ssc

/-- `source_sector_count` of a remote source: up to the end of the last stripe with data (stripe_source/remote.rs:178-194). -/
def remoteSectors (ssc last : Nat) : Nat := (last + 1) * ssc

end Verif.Tail
