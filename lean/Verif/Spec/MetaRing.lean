import Verif.Model.MetaRing

/-! # What a user relies on when stripe flags are updated (C84)

Stated on the contents of the metadata device and on what the flusher announces, without the flusher's own state. -/

namespace Verif.Spec.MetaRing
open Verif Verif.MetaRing

/-- Stripe headers are stored 508 to a sector, from sector 1 on. -/
def home (k : Nat) : Nat := 1 + k / 508

/-- Sector `v` shows flag `f` (1: fetched, 2: written, 4: has source) of stripe `k`. -/
def shows (v : Bytes) (k : Nat) (f : UInt8) : Prop := v.getD (k % 508) 0 &&& f ≠ 0

/-- The three flags. -/
def IsFlag (f : UInt8) : Prop := f = 1 ∨ f = 2 ∨ f = 4

/-- Flag `f` of stripe `k` was asked for. -/
def asked (as : List Act) (k : Nat) (f : UInt8) : Prop :=
  (f = 1 ∧ Act.setFetched k ∈ as) ∨ (f = 2 ∧ Act.setWritten k ∈ as)

/-- The metadata device holds the headers `hdrs`, with valid checksums. -/
def Holds (hdrs : Bytes) (disk : Nat → Bytes) : Prop :=
  ∀ k, k < hdrs.length → Metadata.sectorValid (disk (home k)) = true ∧ (disk (home k)).getD (k % 508) 0 = hdrs.getD k 0

/-- What may be found on the device after a restart, with or without a power loss: nothing announced and nothing that
was there from the start is missing, nothing is there that nobody asked for, checksums are right and other sectors are as they were. -/
structure Sound (hdrs : Bytes) (disk : Nat → Bytes) (as : List Act) (s : St) : Prop where
  announced : ∀ k h, (k, h) ∈ s.told → ∀ f, IsFlag f → h &&& f ≠ 0 → ∀ v, s.surv (home k) v → shows v k f
  kept : ∀ k, k < hdrs.length → ∀ f, IsFlag f → hdrs.getD k 0 &&& f ≠ 0 → ∀ v, s.surv (home k) v → shows v k f
  justified : ∀ k, k < hdrs.length → ∀ f, IsFlag f → ∀ v, s.surv (home k) v → shows v k f → hdrs.getD k 0 &&& f ≠ 0 ∨ asked as k f
  valid : ∀ k, k < hdrs.length → ∀ v, s.surv (home k) v → Metadata.sectorValid v = true
  others : ∀ x, (∀ k, k < hdrs.length → home k ≠ x) → ∀ v, s.surv x v → v = disk x
  /-- what a read returns is among what may be found -/
  current : ∀ x, s.surv x (s.disk x)

/-- Whenever a submission is accepted, no entry of an earlier refused one is in the submission queue. (A call that submits nothing
may be counted as one with a refused submission.) -/
def NoLeftover (s : St) : Act → Prop
  | .start ok => ok = true → s.ring = []
  | .poll _ ok => ok = true → s.ring = []
  | _ => True

/-- Something went wrong for stripe `k`: a request of its was reported failed, or a submission was refused. -/
def failed (as : List Act) (k : Nat) : Prop :=
  (∃ cs ok, Act.poll cs ok ∈ as ∧ ((k, false) ∈ cs ∨ ok = false)) ∨ Act.start false ∈ as

/-- The request is not queued and its sector is not being updated; so it is for all when the flusher is not `busy`
(metadata_flusher.rs:85-87). -/
def Idle (s : St) (k : Nat) (f : UInt8) : Prop := (k, f) ∉ s.queue ∧ s.busy (home k) = false

end Verif.Spec.MetaRing
