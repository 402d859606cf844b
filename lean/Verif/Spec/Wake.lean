import Verif.Model.Wake

/-! # The driver's side of a queue, and what it means that nobody sleeps through work

The driver is the guest's. Its steps are those of a driver that keeps to the virtio specification (2.7.7, 2.7.10 and
2.7.13.4.1, as Linux does it): it makes chains available, decides after each batch whether a kick is due, and before it
stops looking at the ring asks for an interrupt and looks once more. -/

namespace Verif.Wake
open Verif

/-- Steps of the driver, on a queue of `size` entries. Submitting requests (`publish`, `kick`) goes on independently of
handling interrupts (the rest). -/
inductive DStep (eventIdx : Bool) (size : Nat) : Sys → Sys → Prop where
  /-- one more chain, if the ring has room; a driver decides on a kick at least every 65535 chains -/
  | publish (s : Sys) : s.avail < s.seen + size → s.avail < s.old + 65535 → DStep eventIdx size s { s with avail := s.avail + 1 }
  /-- the decision to kick after one or more chains: with the event index, if the device asked for one of them -/
  | kick (s : Sys) : s.old < s.avail →
      DStep eventIdx size s { s with old := s.avail, kick := s.kick || !eventIdx || needEvent s.availEvent s.avail s.old }
  /-- a kick for no reason -/
  | extraKick (s : Sys) : DStep eventIdx size s { s with kick := true }
  /-- a returned chain is looked at -/
  | take (s : Sys) : s.irq = .run → s.seen < s.ring.length → DStep eventIdx size s { s with seen := s.seen + 1 }
  /-- while it is looking, the driver may write anything to the word that asks for interrupts -/
  | scribble (s : Sys) (e : Nat) : s.irq = .run → DStep eventIdx size s { s with usedEvent := e }
  /-- an interrupt is asked for, for the next entry -/
  | arm (s : Sys) : s.irq = .run → DStep eventIdx size s { s with usedEvent := s.seen % 65536, irq := .armed }
  /-- one more look: something has come -/
  | again (s : Sys) : s.irq = .armed → s.ring.length % 65536 ≠ s.seen % 65536 → DStep eventIdx size s { s with irq := .run }
  /-- one more look: nothing has come -/
  | sleep (s : Sys) : s.irq = .armed → s.ring.length % 65536 = s.seen % 65536 → DStep eventIdx size s { s with irq := .sleep }
  /-- an interrupt -/
  | interrupt (s : Sys) : s.call = true → DStep eventIdx size s { s with call := false, irq := .run }
  /-- the driver looks at the ring without an interrupt -/
  | look (s : Sys) : DStep eventIdx size s { s with irq := .run }

/-- Everything that can happen, step by step, from a new queue. `P` holds in every state on the way. -/
inductive Run (eventIdx : Bool) (size : Nat) (kind : Nat → Kind) (P : Sys → Prop) : Sys → Prop where
  | init : P Sys.init → Run eventIdx size kind P Sys.init
  | worker {s s' : Sys} {idle : Bool} : Run eventIdx size kind P s → WStep eventIdx kind s idle s' → P s' → Run eventIdx size kind P s'
  | driver {s s' : Sys} : Run eventIdx size kind P s → DStep eventIdx size s s' → P s' → Run eventIdx size kind P s'

/-- What can be reached on a queue of `size` entries. -/
abbrev Reach (eventIdx : Bool) (size : Nat) (kind : Nat → Kind) : Sys → Prop := Run eventIdx size kind fun _ => True

/-- The worker is asleep, nothing will wake it, and the driver has nothing left to tell it. -/
def WorkerAsleep (s : Sys) : Prop := s.pc = .wait ∧ s.kick = false ∧ s.old = s.avail

/-- The driver is asleep and no interrupt is on its way. -/
def DriverAsleep (s : Sys) : Prop := s.irq = .sleep ∧ s.call = false

/-- Every chain made available has been returned, once. -/
def AllAnswered (s : Sys) : Prop := s.ring.Perm (List.range s.avail)

/-- A piece of work of the worker alone: how many of its steps were useful, how many only passed time. -/
inductive Work (eventIdx : Bool) (kind : Nat → Kind) : Sys → Nat → Nat → Sys → Prop where
  | nil (s : Sys) : Work eventIdx kind s 0 0 s
  | useful {s s' s'' : Sys} {n k : Nat} : Work eventIdx kind s n k s' → WStep eventIdx kind s' false s'' → Work eventIdx kind s (n + 1) k s''
  | idle {s s' s'' : Sys} {n k : Nat} : Work eventIdx kind s n k s' → WStep eventIdx kind s' true s'' → Work eventIdx kind s n (k + 1) s''

end Verif.Wake
