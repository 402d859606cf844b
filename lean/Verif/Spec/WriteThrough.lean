import Verif.Spec.Disk

/-! # Specification: a disk that writes through

As the plain disk of Spec/Disk, but no flush is needed: a write that is answered with success is on stable storage. A flush does nothing.
`sure o` says that the write of `o` has reached stable storage; that happens at some moment after its last sector was transferred and before
its answer. -/

namespace Verif.Disk

variable {D : Type}

structure WDisk (D : Type) where
  dev : Disk D
  sure : Nat × Nat → Bool

/-- A disk that has just been powered on with contents `v`. -/
def WDisk.fresh (v : Nat → D) : WDisk D := { dev := Dev.fresh v, sure := fun _ => false }

/-- What may be in a sector after a power loss once a write to it has reached stable storage: what is there now, or data of a write in
flight. -/
def Dev.settle (d : Disk D) (off cnt : Nat) : Disk D :=
  { d with pers := fun x u => d.pers x u ∧ (covers off cnt x → u = d.vol x ∨ d.inflight x u) }

/-- The request of `o` leaves the disk. -/
def Dev.leave (d : Disk D) (o : Nat × Nat) : Disk D := { d with ops := upd d.ops o none }

/-- Steps; the list is the events seen outside. -/
inductive WDisk.Step : WDisk D → List (Ev D) → WDisk D → Prop where
  | issue (d : WDisk D) (c id : Nat) (r : Req D) (h : d.dev.ops (c, id) = none) :
      WDisk.Step d [.issue c id r] { dev := d.dev.issue (c, id) r, sure := upd d.sure (c, id) false }
  | exec (d : WDisk D) (o : Nat × Nat) (x : Nat) : WDisk.Step d [] { d with dev := d.dev.exec o x }
  | settle (d : WDisk D) (o : Nat × Nat) (off cnt : Nat) (data : Nat → D) (done : Nat → Bool)
      (h : d.dev.ops o = some (.write off cnt data done)) (hf : ∀ x, covers off cnt x → done x = true) :
      WDisk.Step d [] { dev := Dev.settle d.dev off cnt, sure := upd d.sure o true }
  | respond (d : WDisk D) (c id : Nat) (ok : Bool) (h : Dev.mayComplete d.dev (c, id) ok)
      (hs : ∀ off cnt data done, d.dev.ops (c, id) = some (.write off cnt data done) → ok = true → d.sure (c, id) = true) :
      WDisk.Step d [.resp c id ok (Dev.result d.dev (c, id) ok)] { d with dev := Dev.leave d.dev (c, id) }
  | crash (d : WDisk D) (v : Nat → D) (h : Dev.survives d.dev v) : WDisk.Step d [.crash] (WDisk.fresh v)

/-- Runs. -/
inductive WDisk.Run : WDisk D → List (Ev D) → WDisk D → Prop where
  | nil (d : WDisk D) : WDisk.Run d [] d
  | snoc {d d' d'' : WDisk D} {es es' : List (Ev D)} :
      WDisk.Run d es d' → WDisk.Step d' es' d'' → WDisk.Run d (es ++ es') d''

end Verif.Disk
