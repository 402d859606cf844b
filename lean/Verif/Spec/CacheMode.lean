import Verif.Spec.Disk

/-! # Specification: what a driver of a virtio block device may count on after a power loss

Virtio 1.1, 5.2.5 and 5.2.6. -/

namespace Verif.CacheMode
open Verif.Disk

inductive Mode where
  | writethrough
  | writeback
deriving DecidableEq, Repr

/-- The cache mode of a device, by the features the driver has accepted and the `writeback` field of the configuration space: the field if
CONFIG_WCE (bit 11) was accepted, otherwise a cache if FLUSH (bit 9) was accepted, otherwise none. -/
def mode (accepted writeback : Nat) : Mode :=
  if accepted.testBit 11 then (if writeback = 0 then .writethrough else .writeback)
  else if accepted.testBit 9 then .writeback
  else .writethrough

/-- The driver finds what it may count on, in a history of the disk. In write-through mode: data of a write answered with success are there
until the sector is written again, whatever happens. With a cache: the same, if a flush was asked for and answered with success after the
answer to the write, with no power loss before the flush. -/
def Kept {D : Type} (m : Mode) (es : List (Ev D)) : Prop :=
  ∀ (x : Nat) (e0 e1 : List (Ev D)) (q w off cnt : Nat) (data : Nat → D) (o1 : List (Option D)) (e2 e3 : List (Ev D)) (q' r off' cnt' : Nat)
    (out : List (Option D)) (e4 : List (Ev D)),
    es = (e0 ++ Ev.issue q w (.write off cnt data) :: e1 ++ [Ev.resp q w true o1]) ++
      (e2 ++ ((Ev.issue q' r (.read off' cnt') :: e3 ++ [Ev.resp q' r true out]) ++ e4)) →
    covers off cnt x → covers off' cnt' x →
    settledWrites e0 x → quiet e1 x → quiet e2 x → quiet e3 x → unanswered (q, w) e1 → unanswered (q', r) e3 →
    (m = .writeback → ∃ (a b : List (Ev D)) (qf f : Nat) (o2 : List (Option D)) (c : List (Ev D)),
      e2 = a ++ ((Ev.issue qf f .flush :: b ++ [Ev.resp qf f true o2]) ++ c) ∧ (∀ e ∈ a, e ≠ .crash) ∧ unanswered (qf, f) b) →
    out[x - off']? = some (some (data x))

end Verif.CacheMode
