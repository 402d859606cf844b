import Verif.Model.Lazy
import Verif.Spec.LazyProgress

/-! # Vocabulary for the work property (C70)

How many steps a run takes, not counting transfers that repeat what a device has already transferred, what the guest has asked for so
far, and what it means that the backend has come to rest. -/

namespace Verif.Lazy
open Verif Verif.Metadata Verif.Disk

variable {D : Type}

/-- The request covers sector `x`, which has not been transferred yet. -/
def _root_.Verif.Disk.Op.missing (x : Nat) : Op D → Prop
  | .read off cnt got => covers off cnt x ∧ got x = none
  | .write off cnt _ done => covers off cnt x ∧ done x = false
  | .flush _ => False

/-- The action is more than a transfer that repeats an earlier one (or transfers nothing). -/
def Act.useful (s : Sys D) : Act D → Prop
  | .execData o x => ∃ op, s.t.ops o = some op ∧ op.missing x
  | .execMeta k x => ∃ op, s.m.ops k = some op ∧ op.missing x
  | _ => True

/-- Runs of the backend between a start and the next, with the number of useful steps. -/
inductive Counted (c : Cfg D) : Sys D → Nat → List (Lab D) → Sys D → Prop where
  | nil (s : Sys D) : Counted c s 0 [] s
  | useful {s s' s'' : Sys D} {n : Nat} {ls ls' : List (Lab D)} {a : Act D} :
      Counted c s n ls s' → Step c s' a ls' s'' → a.useful s' → Counted c s (n + 1) (ls ++ ls') s''
  | idle {s s' s'' : Sys D} {n : Nat} {ls ls' : List (Lab D)} {a : Act D} :
      Counted c s n ls s' → Step c s' a ls' s'' → ¬ a.useful s' → Counted c s n (ls ++ ls') s''

/-- What one request may cost. -/
def Req.effort (c : Cfg D) : Req D → Nat
  | .read _ cnt => (8 * c.ss + 65) * cnt + 3
  | .write _ cnt _ => (8 * c.ss + 65) * cnt + 3
  | .flush => 2

/-- What the requests of a history may cost together. -/
def effort (c : Cfg D) : List (Ev D) → Nat
  | [] => 0
  | .issue _ _ r :: es => Req.effort c r + effort c es
  | _ :: es => effort c es

/-- The guest hands over a request. -/
def Act.isIssue : Act D → Bool
  | .read .. | .write .. | .flush .. => true
  | _ => false

/-- Nothing is left to do: whatever step the backend, its devices and its sources could still take is a transfer that repeats an
earlier one (or loses a metadata update), as long as the guest does not issue a request. -/
def Resting (c : Cfg D) (s : Sys D) : Prop :=
  ∀ a ls s', Step c s a ls s' → a.isIssue = false → a.losesUpdate = false → ¬ a.useful s

end Verif.Lazy
