import Verif.Spec.Init
import Verif.Spec.Disk
import Verif.Model.Lazy

/-! # An initialisation that is cut short, and the volume it makes -/

namespace Verif.Init
open Verif Verif.Metadata Verif.Disk Verif.Crypt

/-- `init-metadata` writes `buf` to a metadata file of `n` sectors that held `v`. It is interrupted at some point of its
work, or after it, by a power loss, and `w` is found in the file afterwards. (If only the process dies, what is
found is one of the contents that may be found after a power loss.) -/
def Interrupted (buf : Bytes) (n : Nat) (v w : Nat → Sector) : Prop :=
  ∃ es d, es <+: saveEvents buf n ∧ Disk.Run (Dev.fresh v) es d ∧ d.survives w

/-- What loading the metadata (`load_from_bdev`, metadata/load.rs:11-33) from a file of `n` sectors with contents `w` gives. -/
def found (n : Nat) (w : Nat → Sector) : Except Metadata.Err Meta := fromBytes (Lazy.devBytes n fun x => (w x).1)

/-- A new file: `set_len` fills it with zeros. -/
def blank : Nat → Sector := fun _ => ⟨zeros 512, zeros_length 512⟩

/-- `c` is a configuration for a volume that was initialised as `job` for the set-up `s`, and `mv` the contents of its metadata device
when it is started: stripe size, disk size and the metadata are those of the initialisation, and the source has no more stripes than
the disk. -/
structure Fits {D : Type} (c : Lazy.Cfg D) (s : Setup) (shift : UInt8) (job : Job) (mv : Nat → Bytes) : Prop where
  ss : c.ss = 2 ^ shift.toNat
  tsec : c.tsec = s.dataSize / 512
  n : c.n = stripes s.dataSize (2 ^ shift.toNat)
  msec : c.msec = job.size / 512
  sectors : ∀ x, (mv x).length = 512
  bytes : ∀ x, x < c.msec → mv x = slice job.buf (x * 512) 512
  hs : ∀ k, c.hs k = true ↔ k < c.n ∧ s.source.Has c.ss k
  srcStripes : c.srcStripes ≤ c.n

end Verif.Init
